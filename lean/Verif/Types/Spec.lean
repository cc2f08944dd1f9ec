import Verif.Types.Model

/-! # Specification of record types -/

namespace Verif.Types.Spec

variable {τ : Type}

/-- A leaf of a record type: the position of the field in each of the nested records, the names of these
    fields, and the type of the last. -/
structure Leaf (τ : Type) where
  offset : List Nat
  path : List Name
  type : Ty τ

/-- A leaf of the record that is field `i`, named `n`, of another record. -/
def Leaf.under (i : Nat) (n : Name) (l : Leaf τ) : Leaf τ := ⟨i :: l.offset, n :: l.path, l.type⟩

mutual
/-- The leaves of a field's type, relative to it. -/
def leavesOf : Ty τ → List (Leaf τ)
  | .record _ fs => leaves 0 fs
  | .leaf t => [⟨[], [], .leaf t⟩]
  | .alias t => [⟨[], [], .alias t⟩]

/-- The leaves of fields that start with number `i`, from left to right. -/
def leaves (i : Nat) : Fields τ → List (Leaf τ)
  | .nil => []
  | .cons n t rest => (leavesOf t).map (Leaf.under i n) ++ leaves (i + 1) rest
end

mutual
/-- No record within the type is without fields. -/
def NoEmpty : Ty τ → Prop
  | .record _ fs => fs.toList ≠ [] ∧ NoEmptyIn fs
  | .leaf _ => True
  | .alias _ => True

/-- No record within the fields is without fields. -/
def NoEmptyIn : Fields τ → Prop
  | .nil => True
  | .cons _ t rest => NoEmpty t ∧ NoEmptyIn rest
end

/-- The names of a path with dots in between. -/
def dotted : List Name → Name
  | [] => []
  | n :: ns => ns.foldl (fun acc m => acc ++ [46] ++ m) n

end Verif.Types.Spec
