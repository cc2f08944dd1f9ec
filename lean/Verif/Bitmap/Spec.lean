import Verif.Bitmap.Ewah

/-!
# Specification of bitmaps (C01, C02)

A bitmap is a list of booleans; the operations act on that list directly.
-/

namespace Verif.Bitmap.Spec

/-- The modifying operations of the bitmap interface. -/
inductive Op where
  | bit (b : Bool)
  | bits (b : Bool) (n : Nat)
  | block (value : Word) (n : Nat)
  | flip

/-- `append_block` takes between 1 and 64 bits of its word. -/
def Op.valid : Op → Prop
  | .block _ n => 1 ≤ n ∧ n ≤ 64
  | _ => True

/-- What an operation does to a plain list of booleans. The bits of a block are taken from the
least significant end. -/
def Op.apply (l : List Bool) : Op → List Bool
  | .bit b => l ++ [b]
  | .bits b n => l ++ List.replicate n b
  | .block value n => l ++ (List.range n).map fun i => value.getLsbD i
  | .flip => l.map (!·)

/-- The list of booleans after a history, starting from the empty bitmap. -/
def history (ops : List Op) : List Bool := ops.foldl Op.apply []

/-- The booleans of a sequence of runs, concatenated. -/
def concat (rs : List Bits) : List Bool := rs.flatMap Bits.toList

end Verif.Bitmap.Spec

namespace Verif.Bitmap

open Spec

/-- One call on an EWAH bitmap; `none` is an assertion failure. -/
def EwahBitmap.step (s : EwahBitmap) : Op → Option EwahBitmap
  | .bit b => s.appendBit b
  | .bits b n => s.appendBits b n
  | .block value n => s.appendBlock value n
  | .flip => s.flip

/-- A history of calls on a fresh EWAH bitmap. -/
def EwahBitmap.run (ops : List Op) : Option EwahBitmap :=
  ops.foldlM EwahBitmap.step {}

end Verif.Bitmap
