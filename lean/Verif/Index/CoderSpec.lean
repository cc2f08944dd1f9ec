import Verif.Data.Model

/-!
# Specification of an encoded column
-/

namespace Verif.Index.Spec

open Verif.Data (RelOp)

/-- What a caller does with a coder: append `n` copies of a value, skip `n` rows, or append a whole
other coder. -/
inductive Hist (α : Type) where
  | empty
  | encode (h : Hist α) (x : α) (n : Nat)
  | skip (h : Hist α) (n : Nat)
  | append (h other : Hist α)

/-- The rows after a history; a skipped row holds no value. -/
def Hist.column {α : Type} : Hist α → List (Option α)
  | .empty => []
  | .encode h x n => h.column ++ List.replicate n (some x)
  | .skip h n => h.column ++ List.replicate n none
  | .append h h' => h.column ++ h'.column

/-- Every value encoded in the history satisfies `p`. -/
def Hist.all {α : Type} (p : α → Prop) : Hist α → Prop
  | .empty => True
  | .encode h x _ => h.all p ∧ p x
  | .skip h _ => h.all p
  | .append h h' => h.all p ∧ h'.all p

/-- No row is skipped in the history. -/
def Hist.noSkips {α : Type} : Hist α → Prop
  | .empty => True
  | .encode h _ _ => h.noSkips
  | .skip _ _ => False
  | .append h h' => h.noSkips ∧ h'.noSkips

/-- The six comparison operators on natural numbers, `none` for the other operators. -/
def compare (op : RelOp) (v x : Nat) : Option Bool :=
  match op with
  | .equal => some (v == x)
  | .notEqual => some (v != x)
  | .less => some (decide (v < x))
  | .lessEqual => some (decide (v ≤ x))
  | .greater => some (decide (v > x))
  | .greaterEqual => some (decide (v ≥ x))
  | _ => none

end Verif.Index.Spec
