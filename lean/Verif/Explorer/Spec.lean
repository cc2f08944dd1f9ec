import Verif.Data.Model
/-!
# What exploration should do
-/
namespace Verif.Explorer.Spec
open Verif.Data

/-- Events with their IDs, each ID only the first time; `seen` has the IDs of those before. -/
def firsts {R : Type} (seen : List Nat) : List (R × Nat) → List (R × Nat)
  | [] => []
  | e :: es => if e.2 ∈ seen then firsts seen es else e :: firsts (e.2 :: seen) es

/-- An event as seen by queries: its timestamps (`none` for an empty one), and the values of the fields that a name refers to. -/
structure Event where
  stamps : List (Option Int)
  fields : Str → List Data

/-- An event with exactly one timestamp is in the context of another one: the timestamp lies in a box, and, if asked for, a
field has a value. -/
def InContext (e : Event) (lo hi : Option Int) (field : Option (Str × Data)) : Prop :=
  ∃ t, e.stamps = [some t] ∧ (∀ l ∈ lo, l ≤ t) ∧ (∀ h ∈ hi, t ≤ h) ∧ ∀ f ∈ field, ∃ v ∈ e.fields f.1, v.eq f.2 = true

end Verif.Explorer.Spec
