import Verif.Bitmap.Word

/-!
# Model of `vast::ewah_bitmap`

Models /repo/libvast/vast/ewah_bitmap.hpp and /repo/libvast/src/ewah_bitmap.cpp.

Simplifications:
* The block vector is a list; `num_bits_` and `last_marker_` are natural numbers, so the wrap of
  `num_bits_` at 2^64 bits (`max_size`, bitmap_base.hpp:33) is not modelled.
* The `VAST_ASSERT`s of the functions and out-of-bounds accesses are a distinct outcome, `none`.
* The loop counter of `flip` is an `unsigned` in the code (`auto i = 0u`) and would not terminate
  for 2^32 or more blocks; it is a natural number here.
-/

namespace Verif.Bitmap

namespace Ewah

/-- ewah_bitmap.hpp:21 -/
def divide : Nat := 31
/-- ewah_bitmap.hpp:24-25 -/
def dirtyMask : Word := ~~~(Word.all <<< divide)
/-- ewah_bitmap.hpp:28 `marker_dirty_max` -/
def dirtyMax : Nat := dirtyMask.toNat
/-- ewah_bitmap.hpp:31-32 -/
def cleanMask : Word := ~~~(dirtyMask ||| Word.msb1)
/-- ewah_bitmap.hpp:35-36 `marker_clean_max` -/
def cleanMax : Nat := (cleanMask >>> divide).toNat
/-- ewah_bitmap.hpp:39-41 -/
def markerType (b : Word) : Bool := (b &&& Word.msb1) == Word.msb1
/-- ewah_bitmap.hpp:44-46 -/
def setMarkerType (b : Word) (t : Bool) : Word :=
  (b &&& ~~~Word.msb1) ||| (if t then Word.msb1 else 0#64)
/-- ewah_bitmap.hpp:49-51 -/
def numClean (b : Word) : Nat := ((b &&& cleanMask) >>> divide).toNat
/-- ewah_bitmap.hpp:54-56 -/
def setNumClean (b : Word) (n : Nat) : Word :=
  (b &&& ~~~cleanMask) ||| (BitVec.ofNat 64 n <<< divide)
/-- ewah_bitmap.hpp:59-61 -/
def numDirtyW (b : Word) : Word := b &&& dirtyMask
/-- ewah_bitmap.hpp:59-61, as a number -/
def numDirty (b : Word) : Nat := (numDirtyW b).toNat
/-- ewah_bitmap.hpp:64-66 -/
def setNumDirty (b : Word) (n : Nat) : Word := (b &&& ~~~dirtyMask) ||| BitVec.ofNat 64 n

end Ewah

open Ewah

/-- ewah_bitmap.hpp:132-134: `blocks_`, `last_marker_`, `num_bits_`. -/
structure EwahBitmap where
  blocks : List Word := []
  lastMarker : Nat := 0
  numBits : Nat := 0
deriving DecidableEq, Repr

namespace EwahBitmap

/-- `blocks_.back() = f(blocks_.back())` -/
def setBack (bs : List Word) (f : Word → Word) : List Word := bs.dropLast ++ [f (bs.getLastD 0#64)]

/-- ewah_bitmap.cpp:217-234 `bump_dirty_count`. Line 227 calls the one-argument overload
`marker_num_dirty(1)`, i.e. the getter applied to the block `1`. -/
def bumpDirtyCount (s : EwahBitmap) : Option EwahBitmap :=
  if ¬ (s.numBits % 64 = 0 ∧ s.lastMarker < s.blocks.length) then none
  else
    let marker := s.blocks.getD s.lastMarker 0#64
    if numDirty marker = dirtyMax then
      let dirtyBlock := s.blocks.getLastD 0#64
      some { s with
        blocks := setBack s.blocks (fun _ => numDirtyW 1#64) ++ [dirtyBlock]
        lastMarker := s.blocks.length - 1 }
    else
      some { s with blocks := s.blocks.set s.lastMarker (setNumDirty marker (numDirty marker + 1)) }

/-- ewah_bitmap.cpp:174-215 `integrate_last_block`. -/
def integrateLastBlock (s : EwahBitmap) : Option EwahBitmap :=
  if ¬ (s.blocks.length ≥ 2 ∧ s.lastMarker < s.blocks.length - 1 ∧ s.numBits % 64 = 0) then none
  else
    let lastBlock := s.blocks.getLastD 0#64
    let blocksAfterMarker := s.blocks.length - s.lastMarker - 1
    if Word.allOrNone lastBlock then
      let marker := s.blocks.getD s.lastMarker 0#64
      let cleanLength := numClean marker
      let lastBlockType := lastBlock != 0#64
      if blocksAfterMarker = 1 ∧ cleanLength = 0 then
        some { s with
          blocks := (s.blocks.set s.lastMarker
            (setNumClean (setMarkerType marker lastBlockType) 1)).dropLast }
      else if blocksAfterMarker = 1 ∧ lastBlockType = markerType marker ∧ cleanLength ≠ cleanMax then
        some { s with
          blocks := (s.blocks.set s.lastMarker (setNumClean marker (cleanLength + 1))).dropLast }
      else
        some { s with
          blocks := setBack s.blocks fun _ => setNumClean (setMarkerType 0#64 lastBlockType) 1
          lastMarker := s.blocks.length - 1 }
    else bumpDirtyCount s

/-- ewah_bitmap.cpp:33-46 `append_bit`. -/
def appendBit (s : EwahBitmap) (bit : Bool) : Option EwahBitmap := do
  let part := s.numBits % 64
  let s ←
    if s.blocks = [] then some { s with blocks := [0#64, Word.none] }
    else if part = 0 then do
      let s ← integrateLastBlock s
      some { s with blocks := s.blocks ++ [Word.none] }
    else some s
  some { s with
    blocks := if bit then setBack s.blocks (· ||| (Word.lsb1 <<< part)) else s.blocks
    numBits := s.numBits + 1 }

/-- ewah_bitmap.cpp:76-119, the part of `append_bits` that runs at a block boundary with more than
one word of bits left. -/
def appendClean (s : EwahBitmap) (bit : Bool) (n : Nat) : Option EwahBitmap :=
  let cleanBlocks := if n % 64 = 0 then n / 64 - 1 else n / 64
  let remainingBits := if n % 64 = 0 then 64 else n % 64
  if ¬ (n ≥ 64 ∧ cleanBlocks > 0 ∧ s.lastMarker < s.blocks.length) then none
  else
    let marker := s.blocks.getD s.lastMarker 0#64
    let reuse := (s.lastMarker = s.blocks.length - 1 ∧ markerType marker = bit)
      ∨ (s.lastMarker = 0 ∧ marker = 0#64)
    let len := numClean marker
    let newBlocks := min (cleanMax - len) cleanBlocks
    let marker' := if reuse then setMarkerType (setNumClean marker (len + newBlocks)) bit else marker
    let blocks := s.blocks.set s.lastMarker marker'
    let cleanBlocks := if reuse then cleanBlocks - newBlocks else cleanBlocks
    let block := if bit then Word.lsbFill remainingBits else Word.none
    if cleanBlocks > 0 then
      let blocks :=
        if s.lastMarker = blocks.length - 1 then blocks.set s.lastMarker (setNumDirty marker' 0)
        else blocks
      let markers := cleanBlocks / cleanMax
      let last := cleanBlocks % cleanMax
      let blocks := blocks ++ List.replicate markers (setMarkerType cleanMask bit)
      let blocks :=
        if last > 0 then blocks ++ [setMarkerType (setNumClean 0#64 last) bit] else blocks
      some { blocks := blocks ++ [block], lastMarker := blocks.length - 1, numBits := s.numBits + n }
    else
      some { blocks := blocks ++ [block], lastMarker := s.lastMarker, numBits := s.numBits + n }

/-- ewah_bitmap.cpp:69-120, the part of `append_bits` that runs at a block boundary. -/
def appendAligned (s : EwahBitmap) (bit : Bool) (n : Nat) : Option EwahBitmap :=
  if n ≤ 64 then
    some { s with
      blocks := s.blocks ++ [if bit then Word.lsbFill n else Word.none]
      numBits := s.numBits + n }
  else appendClean s bit n

/-- ewah_bitmap.cpp:48-120 `append_bits`. -/
def appendBits (s : EwahBitmap) (bit : Bool) (n : Nat) : Option EwahBitmap :=
  if n = 0 then some s
  else if s.blocks = [] then appendAligned { s with blocks := [0#64] } bit n
  else
    let part := s.numBits % 64
    let fill := if part > 0 then min n (64 - part) else 0
    let s := if part > 0 then
        { s with
          blocks := if bit then setBack s.blocks (· ||| (Word.lsbMask fill <<< part)) else s.blocks
          numBits := s.numBits + fill }
      else s
    let n := n - fill
    if n = 0 then some s
    else do
      let s ← integrateLastBlock s
      appendAligned s bit n

/-- ewah_bitmap.cpp:122-148 `append_block`. -/
def appendBlock (s : EwahBitmap) (value : Word) (bits : Nat) : Option EwahBitmap :=
  if ¬ (bits > 0 ∧ bits ≤ 64) then none
  else do
    let s ←
      if s.blocks = [] then some { s with blocks := [0#64] }
      else if s.numBits % 64 = 0 then integrateLastBlock s
      else some s
    let part := s.numBits % 64
    if part = 0 then
      some { s with
        blocks := s.blocks ++ [value &&& Word.lsbFill bits], numBits := s.numBits + bits }
    else
      let unused := 64 - part
      if bits ≤ unused then
        some { s with
          blocks := setBack s.blocks (· ||| ((value &&& Word.lsbFill bits) <<< part))
          numBits := s.numBits + bits }
      else
        let s := { s with
          blocks := setBack s.blocks (· ||| ((value &&& Word.lsbFill unused) <<< part))
          numBits := s.numBits + unused }
        let s ← integrateLastBlock s
        let remaining := bits - unused
        some { s with
          blocks := s.blocks ++ [(value >>> unused) &&& Word.lsbFill remaining]
          numBits := s.numBits + remaining }

/-- The loop of ewah_bitmap.cpp:154-164 over the blocks from index `i` on (without the last). -/
def flipGo : (i nextMarker : Nat) → List Word → List Word
  | _, _, [] => []
  | i, nextMarker, block :: rest =>
    if i = nextMarker then
      let block' := if numClean block > 0 then block ^^^ Word.msb1 else block
      block' :: flipGo (i + 1) (nextMarker + (numDirty block' + 1)) rest
    else ~~~block :: flipGo (i + 1) nextMarker rest

/-- ewah_bitmap.cpp:150-172 `flip`. -/
def flip (s : EwahBitmap) : Option EwahBitmap :=
  if s.blocks = [] then some s
  else if ¬ (s.blocks.length ≥ 2) then none
  else
    let last := ~~~(s.blocks.getLastD 0#64)
    let part := s.numBits % 64
    let last := if part > 0 then last &&& Word.lsbMask part else last
    some { s with blocks := flipGo 0 0 s.blocks.dropLast ++ [last] }

/-- ewah_bitmap.cpp:236-240 `operator==`. -/
def eq (x y : EwahBitmap) : Bool := x.blocks == y.blocks && x.numBits == y.numBits

/-- The loop of ewah_bitmap.cpp:284-292: `rest` are the blocks after the current one, `length` and
`numDirty` the loop variables; returns their values after the loop. `next_ + 2 < size` says that
at least two blocks follow. -/
def merge (data : Word) : (rest : List Word) → (length numDirty : Nat) → List Word × Nat × Nat
  | m :: r :: rs, length, 0 =>
    if (markerType m && data == 0#64) || (!markerType m && data != 0#64) then
      (m :: r :: rs, length, 0)
    else merge data (r :: rs) (length + numClean m * 64) (Ewah.numDirty m)
  | rest, length, nd => (rest, length, nd)

theorem merge_length (data : Word) : ∀ (rest : List Word) (length nd : Nat),
    (merge data rest length nd).1.length ≤ rest.length
  | [], _, _ => by simp [merge]
  | [_], _, _ => by simp [merge]
  | m :: r :: rs, length, 0 => by
    rw [merge]
    split
    · simp
    · have := merge_length data (r :: rs) (length + numClean m * 64) (Ewah.numDirty m)
      simp only [List.length_cons] at this ⊢
      omega
  | m :: r :: rs, length, nd + 1 => by simp [merge]

/-- The sequences produced by `ewah_bitmap_range` (ewah_bitmap.cpp:242-296) from the position whose
remaining blocks are the list argument: `scan` (258-296) and `next` (252-256) until `done`
(248-250). -/
def runs (size : Nat) (bs : List Word) (nd : Nat) : List Bits :=
  match bs, nd with
  | [], _ => []
  | [b], _ => [Bits.mk' b (if size % 64 = 0 then 64 else size % 64)]
  | b :: r :: rs, nd + 1 => Bits.mk' b 64 :: runs size (r :: rs) nd
  | b :: r :: rs, 0 =>
    if numClean b = 0 then runs size (r :: rs) (Ewah.numDirty b)
    else
      let data := if markerType b then Word.all else Word.none
      let out := merge data (r :: rs) (numClean b * 64) (Ewah.numDirty b)
      Bits.mk' data out.2.1 :: runs size out.1 out.2.2
termination_by bs.length
decreasing_by
  · simp
  · simp
  · exact Nat.lt_of_le_of_lt (merge_length _ _ _ _) (by simp)

/-- ewah_bitmap.cpp:298-300 `bit_range`, with the constructor 242-246: the sequences of a bitmap.
`empty()` is `num_bits_ == 0` (ewah_bitmap.cpp:17-19). -/
def bitRange (s : EwahBitmap) : List Bits :=
  if s.numBits = 0 then [] else runs s.numBits s.blocks 0

/-- ewah_bitmap.cpp:21-23 `size`. -/
def size (s : EwahBitmap) : Nat := s.numBits

end EwahBitmap

end Verif.Bitmap
