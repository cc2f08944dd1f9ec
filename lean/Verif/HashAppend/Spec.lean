import Verif.HashAppend.Model
/-! When two values count as the same. -/
namespace Verif.HashAppend.Spec

/-- Equality of values: the two zeros among the real numbers are equal, and numbers with the same bits. -/
def Same : (t : Ty) → Val t → Val t → Prop
  | .bool, (b : Bool), (c : Bool) => b = c
  | .int w, (n : Fin (256 ^ w)), (m : Fin (256 ^ w)) => n = m
  | .real, (n : Fin (256 ^ 8)), (m : Fin (256 ^ 8)) => n = m ∨ (n.val = 0 ∧ m.val = 2 ^ 63) ∨ (n.val = 2 ^ 63 ∧ m.val = 0)
  | .unit, _, _ => True
  | .str, (s : { s : List UInt8 // s.length < 256 ^ 8 }), (r : { s : List UInt8 // s.length < 256 ^ 8 }) => s.val = r.val
  | .pair a b, (v : Val a × Val b), (w : Val a × Val b) => Same a v.1 w.1 ∧ Same b v.2 w.2
  | .array n t, (l : { l : List (Val t) // l.length = n + 1 }), (r : { l : List (Val t) // l.length = n + 1 }) => List.Forall₂ (Same t) l.val r.val
  | .vec t, (l : { l : List (Val t) // l.length < 256 ^ 8 }), (r : { l : List (Val t) // l.length < 256 ^ 8 }) => List.Forall₂ (Same t) l.val r.val
  | .set t, (l : { l : List (Val t) // l.length < 256 ^ 8 }), (r : { l : List (Val t) // l.length < 256 ^ 8 }) => List.Forall₂ (Same t) l.val r.val
  | .object _ a b, (v : Val a × Val b), (w : Val a × Val b) => Same a v.1 w.1 ∧ Same b v.2 w.2

end Verif.HashAppend.Spec
