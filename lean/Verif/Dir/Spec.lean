import Verif.Dir.Model
/-! What is below a directory.  Of the model, this uses only the types. -/
namespace Verif.Dir.Spec
open Verif.Data

/-- The name of an entry. -/
def nameOf : Node → Str
  | .file n => n
  | .dir n _ _ => n

/-- The entries as a list. -/
def list : Nodes → List Node
  | .nil => []
  | .cons n rest => n :: list rest

/-- The path leads to something below the entries. -/
inductive Below : Nodes → Path → Prop
  | here {es n} : n ∈ list es → Below es [nameOf n]
  | inside {es name readable sub p} : .dir name readable sub ∈ list es → Below sub p → Below es (name :: p)

/-- The entries of each directory have distinct names, and each directory can be read. -/
inductive Good : Nodes → Prop
  | intro {es} : ((list es).map nameOf).Nodup → (∀ name readable sub, .dir name readable sub ∈ list es → readable = true) →
      (∀ name readable sub, .dir name readable sub ∈ list es → Good sub) → Good es

end Verif.Dir.Spec
