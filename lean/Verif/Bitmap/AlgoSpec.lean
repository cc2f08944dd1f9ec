import Verif.Bitmap.Algo
import Verif.Bitmap.Spec

/-!
# Specification of the bitmap algorithms (C03, C04, C07, C08)

Everything is said in terms of plain lists of booleans.
-/

namespace Verif.Bitmap.Spec

/-- A boolean operation applied position by position; positions past the end of an operand read as
false; the result is as long as the longer operand. -/
def pointwise (f : Bool → Bool → Bool) (x y : List Bool) : List Bool :=
  (List.range (max x.length y.length)).map fun i => f (x.getD i false) (y.getD i false)

/-- The n-ary version: the longest operand decides the length, `g` combines the bits at a position. -/
def pointwiseAll (g : List Bool → Bool) (xs : List (List Bool)) : List Bool :=
  (List.range (xs.foldr (fun x n => max x.length n) 0)).map fun i => g (xs.map (·.getD i false))

/-- True if an odd number of bits is set. -/
def parity (bs : List Bool) : Bool := bs.foldr Bool.xor false

/-- Bitmaps a user can build: histories of appends and flips, and the algebra on top. -/
inductive Expr where
  | history (ops : List Op)
  | and (x y : Expr)
  | or (x y : Expr)
  | xor (x y : Expr)
  | diff (x y : Expr)
  | not (x : Expr)

/-- Every `append_block` takes between 1 and 64 bits. -/
def Expr.valid : Expr → Prop
  | .history ops => ∀ op ∈ ops, op.valid
  | .and x y | .or x y | .xor x y | .diff x y => x.valid ∧ y.valid
  | .not x => x.valid

/-- The booleans an expression stands for. -/
def Expr.bits : Expr → List Bool
  | .history ops => Spec.history ops
  | .and x y => pointwise (· && ·) x.bits y.bits
  | .or x y => pointwise (· || ·) x.bits y.bits
  | .xor x y => pointwise Bool.xor x.bits y.bits
  | .diff x y => pointwise (fun a b => a && !b) x.bits y.bits
  | .not x => x.bits.map (!·)

/-- The bitmap an expression computes; `none` is an assertion failure. -/
def Expr.eval : Expr → Option EwahBitmap
  | .history ops => EwahBitmap.run ops
  | .and x y => do binaryAnd (← x.eval) (← y.eval)
  | .or x y => do binaryOr (← x.eval) (← y.eval)
  | .xor x y => do binaryXor (← x.eval) (← y.eval)
  | .diff x y => do binaryNand (← x.eval) (← y.eval)
  | .not x => do (← x.eval).flip

/-- `p` is the position of the `k`-th (counting from 1) occurrence of `bit`. -/
def IsNth (bit : Bool) (l : List Bool) (k p : Nat) : Prop :=
  l[p]? = some bit ∧ (l.take p).count bit = k - 1

/-- `p` is the first position holding `bit`. -/
def IsFirst (bit : Bool) (l : List Bool) (p : Nat) : Prop :=
  l[p]? = some bit ∧ ∀ q, q < p → l[q]? ≠ some bit

/-- `p` is the last position holding `bit`. -/
def IsLast (bit : Bool) (l : List Bool) (p : Nat) : Prop :=
  l[p]? = some bit ∧ ∀ q, p < q → l[q]? ≠ some bit

/-- The positions holding `bit`, ascending. -/
def positions (bit : Bool) (l : List Bool) : List Nat :=
  (List.range l.length).filter fun i => l[i]? == some bit

/-- An ID is selected if its bit is set. -/
def Contains (l : List Bool) (id : Nat) : Prop := l[id]? = some true

/-- Ascending, pairwise disjoint, half-open intervals; empty ones are allowed. -/
def Ascending : List (Nat × Nat) → Prop
  | [] => True
  | [o] => o.1 ≤ o.2
  | o :: o' :: os => o.1 ≤ o.2 ∧ o.2 ≤ o'.1 ∧ Ascending (o' :: os)

/-- The object covers a selected ID. -/
def hit (l : List Bool) (o : Nat × Nat) : Bool :=
  (List.range' o.1 (o.2 - o.1)).any fun id => l[id]? == some true

/-- The objects up to and including the first for which the callback fails, and whether there is
one. -/
def untilFailure {α : Type} (fails : α → Bool) : List α → List α × Bool
  | [] => ([], false)
  | o :: os => if fails o then ([o], true) else (o :: (untilFailure fails os).1, (untilFailure fails os).2)

end Verif.Bitmap.Spec
