import Verif.Bitmap.Spec

/-!
# Model of `vast::null_bitmap`

Models /repo/libvast/src/null_bitmap.cpp and the parts of /repo/libvast/vast/bitvector.hpp it uses.
The bits of the last block above the size are not normalized by the code, and neither are they
here. A failed `VAST_ASSERT` is the outcome `none`.
-/

namespace Verif.Bitmap

open Spec

/-- bitvector.hpp:209-210: `blocks_`, `size_`. -/
structure NullBitmap where
  blocks : List Word := []
  numBits : Nat := 0
deriving DecidableEq, Repr

namespace NullBitmap

/-- bitvector.hpp:193-195 `bits_to_blocks`. -/
def bitsToBlocks (n : Nat) : Nat := if n = 0 then 0 else 1 + (n - 1) / 64

/-- bitvector.hpp:205-207 `partial_bits`. -/
def partialBits (s : NullBitmap) : Nat := s.numBits % 64

/-- bitvector.hpp:591-600 `push_back`, null_bitmap.cpp:29-31 `append_bit`. -/
def appendBit (s : NullBitmap) (x : Bool) : Option NullBitmap :=
  some {
    blocks :=
      if s.partialBits = 0 then s.blocks ++ [if x then Word.all else Word.none]
      else if x then EwahBitmap.setBack s.blocks (· ||| (Word.all <<< s.partialBits))
      else EwahBitmap.setBack s.blocks (· &&& ~~~(Word.all <<< s.partialBits))
    numBits := s.numBits + 1 }

/-- bitvector.hpp:488-508 `resize(n, value)`. `std::vector::resize(k, v)` keeps the first `k`
elements and appends copies of `v`. -/
def resize (s : NullBitmap) (n : Nat) (value : Bool) : NullBitmap :=
  let fit (bs : List Word) (k : Nat) (v : Word) : List Word :=
    bs.take k ++ List.replicate (k - bs.length) v
  if n ≤ s.numBits then { blocks := fit s.blocks (bitsToBlocks n) 0#64, numBits := n }
  else
    let p := s.partialBits
    let m := Word.all <<< p
    let blocks :=
      if p > 0 then
        EwahBitmap.setBack s.blocks (fun b => if value then b ||| m else b &&& ~~~m)
      else s.blocks
    if p > 0 ∧ n - s.numBits ≤ 64 - p then { blocks := blocks, numBits := n }
    else { blocks := fit blocks (bitsToBlocks n) (if value then Word.all else Word.none), numBits := n }

/-- null_bitmap.cpp:33-35 `append_bits`. -/
def appendBits (s : NullBitmap) (bit : Bool) (n : Nat) : Option NullBitmap :=
  some (s.resize (s.numBits + n) bit)

/-- bitvector.hpp:656-670 `append_block`, null_bitmap.cpp:37-39. -/
def appendBlock (s : NullBitmap) (x : Word) (bits : Nat) : Option NullBitmap :=
  if ¬ (bits > 0 ∧ bits ≤ 64) then none
  else
    let p := s.partialBits
    let blocks :=
      if p = 0 then s.blocks ++ [x]
      else
        let blocks := EwahBitmap.setBack s.blocks (fun last => (last &&& Word.lsbMask p) ||| (x <<< p))
        let available := 64 - p
        if bits > available then blocks ++ [x >>> available] else blocks
    some { blocks := blocks, numBits := s.numBits + bits }

/-- bitvector.hpp:618-621 `flip`, null_bitmap.cpp:41-43. -/
def flip (s : NullBitmap) : Option NullBitmap :=
  some { s with blocks := s.blocks.map (~~~·) }

/-- bitvector.hpp:630-649 `operator==`. The last block is compared under
`lsb_mask(partial_bits())`. -/
def eq (x y : NullBitmap) : Bool :=
  if x.numBits ≠ y.numBits then false
  else if x.blocks = [] then true
  else if x.blocks.dropLast ≠ y.blocks.dropLast then false
  else (x.blocks.getLastD 0#64 &&& Word.lsbMask x.partialBits)
    == (y.blocks.getLastD 0#64 &&& Word.lsbMask y.partialBits)

/-- null_bitmap.cpp:77-93: the run that starts with a homogeneous block `data`; the list holds the
blocks after it, `n` is the number of bits so far. Returns the blocks left and the length of the
run. Line 84 uses `mask(partial)`, a single bit. -/
def scanRun (part : Nat) (data : Word) : List Word → Nat → List Word × Nat
  | [], n => ([], n)
  | [last], n =>
    if part > 0 then
      if (last &&& Word.mask part) = (data &&& Word.mask part) then ([], n + part) else ([last], n)
    else if last = data then ([], n + 64)
    else ([last], n)
  | b :: r :: rs, n => if b = data then scanRun part data (r :: rs) (n + 64) else (b :: r :: rs, n)

theorem scanRun_length (part : Nat) (data : Word) : ∀ (bs : List Word) (n : Nat),
    (scanRun part data bs n).1.length ≤ bs.length
  | [], _ => by simp [scanRun]
  | [_], _ => by
    rw [scanRun]
    split
    · split <;> simp
    · split <;> simp
  | b :: r :: rs, n => by
    rw [scanRun]
    split
    · have := scanRun_length part data (r :: rs) (n + 64)
      simp only [List.length_cons] at this ⊢
      omega
    · simp

/-- The sequences produced by `null_bitmap_range` (null_bitmap.cpp:49-97) from the remaining
blocks; `part` is `size % 64`. -/
def runs (part : Nat) (bs : List Word) : List Bits :=
  match bs with
  | [] => []
  | [b] => [Bits.mk' b (if part = 0 then 64 else part)]
  | b :: r :: rs =>
    if !Word.allOrNone b then Bits.mk' b 64 :: runs part (r :: rs)
    else
      Bits.mk' b (scanRun part b (r :: rs) 64).2 :: runs part (scanRun part b (r :: rs) 64).1
termination_by bs.length
decreasing_by
  · simp
  · exact Nat.lt_of_le_of_lt (scanRun_length _ _ _ _) (by simp)

/-- null_bitmap.cpp:99-101 `bit_range`. -/
def bitRange (s : NullBitmap) : List Bits := runs s.partialBits s.blocks

/-- null_bitmap.cpp:21-23 `size`. -/
def size (s : NullBitmap) : Nat := s.numBits

/-- One call on a null bitmap; `none` is an assertion failure. -/
def step (s : NullBitmap) : Op → Option NullBitmap
  | .bit b => s.appendBit b
  | .bits b n => s.appendBits b n
  | .block value n => s.appendBlock value n
  | .flip => s.flip

/-- A history of calls on a fresh null bitmap. -/
def run (ops : List Op) : Option NullBitmap := ops.foldlM step {}

end NullBitmap

end Verif.Bitmap
