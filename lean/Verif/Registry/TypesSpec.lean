import Verif.Taxonomy.Model
/-!
# What the type registry remembers
-/
namespace Verif.Registry
open Verif.Taxonomy (Name)

/-- What happens to a type registry: a batch of events with a layout (its name and its flat fields) comes, it ends, it dies without
ending, or it is started again.  At the end it saves its state, and at the start it loads it; both may fail. -/
inductive Event (T : Type) where
  | slice (name : Name) (fields : List (Name × T))
  | stop (saved : Bool)
  | crash
  | start (loaded : Bool)

namespace Spec
variable {T : Type}

/-- The layouts with a name that came while the registry was there, in their order. -/
def came (n : Name) : Bool → List (Event T) → List (List (Name × T))
  | _, [] => []
  | running, .slice m fs :: es => if running = true ∧ m = n then fs :: came n running es else came n running es
  | _, .stop _ :: es => came n false es
  | _, .crash :: es => came n false es
  | running, .start ok :: es => came n (running || ok) es

/-- Nothing goes wrong: the registry does not crash, and saving and loading succeed. -/
def Fine (es : List (Event T)) : Prop := ∀ e ∈ es, e ≠ .crash ∧ e ≠ .stop false ∧ e ≠ .start false

/-- Whether the registry is there after all. -/
def Running : Bool → List (Event T) → Bool
  | r, [] => r
  | r, .slice _ _ :: es => Running r es
  | _, .stop _ :: es => Running false es
  | _, .crash :: es => Running false es
  | r, .start ok :: es => Running (r || ok) es

end Spec
end Verif.Registry
