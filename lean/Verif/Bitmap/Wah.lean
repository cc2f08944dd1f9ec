import Verif.Bitmap.Spec

/-!
# Model of `vast::wah_bitmap`

Models /repo/libvast/vast/wah_bitmap.hpp and /repo/libvast/src/wah_bitmap.cpp.

Simplifications, as for EWAH: the block vector is a list, `num_last_` and `num_bits_` are natural
numbers, and a failed `VAST_ASSERT` is the outcome `none`.
-/

namespace Verif.Bitmap

namespace Wah

/-- wah_bitmap.hpp:23 `literal_word_size`. -/
abbrev literalSize : Nat := 63
/-- wah_bitmap.hpp:26 `max_fill_words = all >> 2`. -/
def maxFillWords : Nat := (Word.all >>> 2).toNat
/-- wah_bitmap.hpp:29 `fill_mask = msb1 >> 1`. -/
def fillMask : Word := Word.msb1 >>> 1
/-- wah_bitmap.hpp:33-35 `fill_type`. -/
def fillType (block : Word) : Bool := (block &&& fillMask) == fillMask
/-- wah_bitmap.hpp:38-40 `is_fill(block)`. -/
def isFill (block : Word) : Bool := (block &&& Word.msb1) != 0#64
/-- wah_bitmap.hpp:43-45 `is_fill(block, bit)`. -/
def isFillOf (block : Word) (bit : Bool) : Bool := isFill block && fillType block == bit
/-- wah_bitmap.hpp:49-51 `fill_words`. -/
def fillWords (block : Word) : Nat := (block &&& (Word.all >>> 2)).toNat
/-- wah_bitmap.hpp:55-58 `make_fill`. -/
def makeFill (bit : Bool) (n : Nat) : Word :=
  Word.msb1 ||| ((if bit then 1#64 else 0#64) <<< (64 - 2)) ||| BitVec.ofNat 64 n
/-- word.hpp:152-154 `all_or_none(x, k)`. -/
def allOrNoneLow (x : Word) (k : Nat) : Bool := decide (((x + 1#64) &&& Word.lsbMask k) ≤ 1#64)

end Wah

open Wah Spec

/-- wah_bitmap.hpp:116-118: `blocks_`, `num_last_`, `num_bits_`. -/
structure WahBitmap where
  blocks : List Word := []
  numLast : Nat := 0
  numBits : Nat := 0
deriving DecidableEq, Repr

namespace WahBitmap

/-- wah_bitmap.cpp:131-168 `merge_active_word`. The scope guard (134-137) appends an empty word on
every path. Line 143 passes the whole word as the `bool` parameter of `make_fill`. -/
def mergeActiveWord (s : WahBitmap) : Option WahBitmap :=
  if ¬ (s.blocks ≠ [] ∧ s.numLast = literalSize) then none
  else
    let back := s.blocks.getLastD 0#64
    let init := s.blocks.dropLast
    if !allOrNoneLow back literalSize then
      some { s with blocks := s.blocks ++ [Word.none], numLast := 0 }
    else if s.blocks.length = 1 then
      some { s with blocks := init ++ [makeFill (back != 0#64) 1, Word.none], numLast := 0 }
    else
      let bit := back != Word.none
      let prev := init.getLastD 0#64
      if isFillOf prev bit && decide (fillWords prev < maxFillWords) then
        some { s with
          blocks := init.dropLast ++ [makeFill bit (fillWords prev + 1), Word.none], numLast := 0 }
      else
        some { s with blocks := init ++ [makeFill bit 1, Word.none], numLast := 0 }

/-- The common prologue wah_bitmap.cpp:38-41, 51-54, 100-103. -/
def prepare (s : WahBitmap) : Option WahBitmap :=
  if s.blocks = [] then some { s with blocks := [Word.none] }
  else if s.numLast = literalSize then mergeActiveWord s
  else some s

/-- wah_bitmap.cpp:37-46 `append_bit`. -/
def appendBit (s : WahBitmap) (bit : Bool) : Option WahBitmap :=
  (prepare s).bind fun s =>
    some {
      blocks := EwahBitmap.setBack s.blocks (· ||| ((if bit then 1#64 else 0#64) <<< s.numLast))
      numLast := s.numLast + 1
      numBits := s.numBits + 1 }

/-- wah_bitmap.cpp:66-94, the part of `append_bits` after the active word is full: `n` more bits
follow. -/
def appendFills (s : WahBitmap) (bit : Bool) (n : Nat) : Option WahBitmap :=
  (mergeActiveWord s).bind fun s =>
    let bs := s.blocks.dropLast
    if bs = [] then none
    else
      let fills := n / literalSize
      let part := n % literalSize
      let prev := bs.getLastD 0#64
      let room := isFillOf prev bit && decide (fillWords prev + fills ≤ maxFillWords)
      let bs := if room then EwahBitmap.setBack bs fun _ => makeFill bit (fillWords prev + fills) else bs
      let fills := if room then 0 else fills
      let bs := bs ++ (addFills bit fills)
      some {
        blocks := bs ++ [if part > 0 ∧ bit = true then Word.lsbMask part else Word.none]
        numLast := part
        numBits := s.numBits + n }
where
  /-- wah_bitmap.cpp:81-88 the fill words for `fills` words. -/
  addFills (bit : Bool) (fills : Nat) : List Word :=
    if maxFillWords < fills ∧ 0 < maxFillWords then
      makeFill bit maxFillWords :: addFills bit (fills - maxFillWords)
    else if fills > 0 then [makeFill bit fills] else []
  termination_by fills

/-- wah_bitmap.cpp:48-95 `append_bits`. -/
def appendBits (s : WahBitmap) (bit : Bool) (n : Nat) : Option WahBitmap :=
  if n = 0 then some s
  else (prepare s).bind fun s =>
    let inject := min (literalSize - s.numLast) n
    if ¬ inject > 0 then none
    else
      let s := {
        blocks := if bit then EwahBitmap.setBack s.blocks (· ||| (Word.lsbFill inject <<< s.numLast))
                  else s.blocks
        numLast := s.numLast + inject
        numBits := s.numBits + inject }
      if n ≤ inject then some s else appendFills s bit (n - inject)

/-- wah_bitmap.cpp:97-118 `append_block`. -/
def appendBlock (s : WahBitmap) (value : Word) (bits : Nat) : Option WahBitmap :=
  if ¬ (bits > 0 ∧ bits ≤ 64) then none
  else (prepare s).bind fun s =>
    let inject := min (literalSize - s.numLast) bits
    if ¬ inject > 0 then none
    else
      let s := {
        blocks := EwahBitmap.setBack s.blocks (· ||| ((value &&& Word.lsbFill inject) <<< s.numLast))
        numLast := s.numLast + inject
        numBits := s.numBits + inject }
      if bits ≤ inject then some s
      else (mergeActiveWord s).bind fun s =>
        let remaining := bits - inject
        some {
          blocks := EwahBitmap.setBack s.blocks fun _ => (value >>> inject) &&& Word.lsbMask remaining
          numLast := remaining
          numBits := s.numBits + remaining }

/-- wah_bitmap.cpp:120-129 `flip`. -/
def flip (s : WahBitmap) : Option WahBitmap :=
  if s.blocks = [] then some s
  else
    let blocks := s.blocks.map fun b => b ^^^ ((if isFill b then Word.msb1 else Word.all) >>> 1)
    some { s with
      blocks := EwahBitmap.setBack blocks
        (· ^^^ (Word.lsbMask (literalSize - s.numLast) <<< s.numLast)) }

/-- wah_bitmap.cpp:170-172 `operator==`. -/
def eq (x y : WahBitmap) : Bool := x.blocks == y.blocks && x.numBits == y.numBits

/-- wah_bitmap.cpp:196-197: the loop over the following fills of the same type; returns the
remaining blocks and the number of bits. -/
def mergeFills (value : Bool) : List Word → Nat → List Word × Nat
  | [], n => ([], n)
  | b :: bs, n =>
    if isFillOf b value then mergeFills value bs (n + fillWords b * literalSize) else (b :: bs, n)

theorem mergeFills_length (value : Bool) : ∀ (bs : List Word) (n : Nat),
    (mergeFills value bs n).1.length ≤ bs.length
  | [], _ => by simp [mergeFills]
  | b :: bs, n => by
    rw [mergeFills]
    split
    · have := mergeFills_length value bs (n + fillWords b * literalSize)
      simp only [List.length_cons]
      omega
    · simp

/-- The sequences produced by `wah_bitmap_range` (wah_bitmap.cpp:174-205) from the remaining blocks. -/
def runs (numLast : Nat) (bs : List Word) : List Bits :=
  match bs with
  | [] => []
  | b :: rest =>
    if isFill b then
      let out := mergeFills (fillType b) rest (fillWords b * literalSize)
      Bits.mk' (if fillType b then Word.all else Word.none) out.2 :: runs numLast out.1
    else if rest ≠ [] then Bits.mk' b literalSize :: runs numLast rest
    else [Bits.mk' b numLast]
termination_by bs.length
decreasing_by
  · exact Nat.lt_of_le_of_lt (mergeFills_length _ _ _) (by simp)
  · simp

/-- wah_bitmap.cpp:207-209 `bit_range`. -/
def bitRange (s : WahBitmap) : List Bits := runs s.numLast s.blocks

/-- wah_bitmap.cpp:25-27 `size`. -/
def size (s : WahBitmap) : Nat := s.numBits

/-- One call on a WAH bitmap; `none` is an assertion failure. -/
def step (s : WahBitmap) : Op → Option WahBitmap
  | .bit b => s.appendBit b
  | .bits b n => s.appendBits b n
  | .block value n => s.appendBlock value n
  | .flip => s.flip

/-- A history of calls on a fresh WAH bitmap. -/
def run (ops : List Op) : Option WahBitmap := ops.foldlM step {}

end WahBitmap

end Verif.Bitmap
