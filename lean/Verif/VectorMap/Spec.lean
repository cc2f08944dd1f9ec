import Verif.VectorMap.Model
/-! Maps as functions.  Of the model, this uses only the operations. -/
namespace Verif.VectorMap.Spec

variable {κ β : Type} [DecidableEq κ]

/-- What an operation does to a function: the first value inserted stays, an assignment replaces. -/
def step (m : κ → Option β) : Op κ β → κ → Option β
  | .insert k v => fun k' => if k' = k ∧ m k = none then some v else m k'
  | .assign k v => fun k' => if k' = k then some v else m k'
  | .erase k _ => fun k' => if k' = k then none else m k'

/-- The function after operations. -/
def run (ops : List (Op κ β)) : κ → Option β := ops.foldl step fun _ => none

/-- What an operation on such a map reports. -/
def result (m : κ → Option β) : Op κ β → Nat
  | .insert k _ => if m k = none then 1 else 0
  | .assign _ _ => 0
  | .erase k _ => if m k = none then 0 else 1

/-- The keys of a map that keeps them in the order of their insertion. -/
def keys : List (Op κ β) → List κ := List.foldl (fun ks o => match o with
  | .insert k _ | .assign k _ => if k ∈ ks then ks else ks ++ [k]
  | .erase k _ => ks.filter (· ≠ k)) []

/-- A strict order in which any two keys are comparable. -/
structure Order (lt : κ → κ → Bool) : Prop where
  irrefl : ∀ a, lt a a = false
  trans : ∀ a b c, lt a b = true → lt b c = true → lt a c = true
  total : ∀ a b, a ≠ b → lt a b = true ∨ lt b a = true

end Verif.VectorMap.Spec
