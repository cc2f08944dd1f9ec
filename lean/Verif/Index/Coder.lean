import Verif.Index.Bits
import Verif.Index.Base
import Verif.Data.Model

/-!
# Bitmap coders

Models /repo/libvast/vast/coder.hpp. Bitmaps are lists of booleans (see `Verif.Index.Bits`).
`Option` marks undefined behaviour: a failed assertion (asserts are compiled out in release
builds, so the code behind them would run with a broken precondition) or an access past the end of
a vector. `size_t` values are natural numbers; the assertion that a bitmap does not exceed its
maximal size (2^63 or so bits) is left out. Decoding pads the stored bitmaps in place
(`lazy_bitmap_at` on a mutable vector); the model pads a copy.
-/

namespace Verif.Index

open Verif.Data (RelOp)

/-- coder.hpp:158-213 `vector_coder`: the number of rows and the bitmaps. -/
structure VectorCoder where
  size : Nat
  bitmaps : List Bm
  deriving DecidableEq, Repr

namespace VectorCoder

/-- coder.hpp:169-171, the constructor. -/
def make (n : Nat) : VectorCoder := ⟨0, List.replicate n []⟩

/-- `result.append_bits(bit, size_ - result.size())`: the common part of the three versions of
`lazy_bitmap_at` (coder.hpp:227-231, 319-323, 409-413). -/
def padded (c : VectorCoder) (bit : Bool) (b : Bm) : Bm := b.appendBits bit (c.size - b.length)

/-- coder.hpp:297-299, 386-388, 488-490 `skip`, the same in all three coders. -/
def skip (c : VectorCoder) (n : Nat) : VectorCoder := { c with size := c.size + n }

/-- coder.hpp:202-209 `append(other, bit)`. -/
def append (c other : VectorCoder) (bit : Bool) : Option VectorCoder :=
  if c.bitmaps.length = other.bitmaps.length then
    some ⟨c.size + other.size, List.zipWith (fun x y => c.padded bit x ++ y) c.bitmaps other.bitmaps⟩
  else none

end VectorCoder

/-! ## equality_coder -/

namespace EqualityCoder

/-- coder.hpp:227-239 `bitmap_at`. -/
def bitmapAt (c : VectorCoder) (i : Nat) : Option Bm := c.bitmaps[i]?.map (c.padded false)

/-- coder.hpp:241-246 `encode`. -/
def encode (c : VectorCoder) (x n : Nat) : Option VectorCoder :=
  if x < c.bitmaps.length then
    some ⟨c.size + n, c.bitmaps.modify x (fun b => (c.padded false b).appendBits true n)⟩
  else none

/-- `result.append_bits(false, size_ - result.size())` in `decode`. -/
def fillUp (c : VectorCoder) (b : Bm) : Bm := b.appendBits false (c.size - b.length)

/-- coder.hpp:248-295 `decode`. -/
def decode (c : VectorCoder) (op : RelOp) (x : Nat) : Option Bm :=
  if x < c.bitmaps.length then
    match op with
    | .less => if x = 0 then some (Bm.fill c.size false) else some (fillUp c (Bm.naryOr (c.bitmaps.take x)))
    | .lessEqual => some (fillUp c (Bm.naryOr (c.bitmaps.take (x + 1))))
    | .equal => bitmapAt c x
    | .notEqual => (bitmapAt c x).map Bm.not
    | .greaterEqual => some (fillUp c (Bm.naryOr (c.bitmaps.drop x)))
    | .greater =>
      if c.bitmaps.length - 1 ≤ x then some (Bm.fill c.size false)
      else some (fillUp c (Bm.naryOr (c.bitmaps.drop (x + 1))))
    | _ => none
  else none

end EqualityCoder

/-! ## range_coder -/

namespace RangeCoder

/-- coder.hpp:319-331 `bitmap_at`. -/
def bitmapAt (c : VectorCoder) (i : Nat) : Option Bm := c.bitmaps[i]?.map (c.padded true)

/-- coder.hpp:333-342 `encode`: the bitmaps below index `x` get zeros. -/
def encode (c : VectorCoder) (x n : Nat) : Option VectorCoder :=
  if x < c.bitmaps.length + 1 then
    some ⟨c.size + n, (c.bitmaps.take x).map (fun b => (c.padded true b).appendBits false n) ++ c.bitmaps.drop x⟩
  else none

/-- coder.hpp:344-384 `decode`. -/
def decode (c : VectorCoder) (op : RelOp) (x : Nat) : Option Bm :=
  if x < c.bitmaps.length + 1 then
    match op with
    | .less => if x = 0 then some (Bm.fill c.size false) else bitmapAt c (x - 1)
    | .lessEqual => bitmapAt c x
    | .equal =>
      match bitmapAt c x with
      | none => none
      | some r => if 0 < x then (bitmapAt c (x - 1)).map (fun b => r.and b.not) else some r
    | .notEqual =>
      match bitmapAt c x with
      | none => none
      | some r => if 0 < x then (bitmapAt c (x - 1)).map (fun b => r.not.or b) else some r.not
    | .greater => (bitmapAt c x).map Bm.not
    | .greaterEqual => if x = 0 then some (Bm.fill c.size true) else (bitmapAt c (x - 1)).map Bm.not
    | _ => none
  else none

end RangeCoder

/-! ## bitslice_coder -/

namespace BitsliceCoder

/-- coder.hpp:423-428 `encode`: bitmap `i` stores the complement of bit `i`. -/
def encode (c : VectorCoder) (x n : Nat) : VectorCoder :=
  ⟨c.size + n, c.bitmaps.mapIdx fun i b => (c.padded false b).appendBits (!x.testBit i) n⟩

/-- coder.hpp:449-453, the loop over the higher bits; `bs` are the bitmaps from index `i` on. -/
def rangeLoop (x : Nat) : (i : Nat) → (bs : List Bm) → (result : Bm) → Bm
  | _, [], result => result
  | i, b :: bs, result => rangeLoop x (i + 1) bs (if x.testBit i then result.or b else result.and b)

/-- coder.hpp:463-466, the loop for (in)equality. -/
def equalLoop (x : Nat) : (i : Nat) → (bs : List Bm) → (result : Bm) → Bm
  | _, [], result => result
  | i, b :: bs, result => equalLoop x (i + 1) bs (result.and (if x.testBit i then b.not else b))

/-- coder.hpp:448-453: the rows whose value is at most `x`. -/
def lessEqual (c : VectorCoder) (x : Nat) : Option Bm :=
  if x.testBit 0 then some (rangeLoop x 1 (c.bitmaps.drop 1) (Bm.fill c.size true))
  else match c.bitmaps with
    | [] => none
    | b :: bs => some (rangeLoop x 1 bs b)

/-- coder.hpp:462-466: the rows whose value equals `x`. -/
def equal (c : VectorCoder) (x : Nat) : Bm := equalLoop x 0 c.bitmaps (Bm.fill c.size true)

/-- coder.hpp:477-479, the loop of `in` and `not_in` after the complement of `x`: the bitmaps at
the bits set in `x`. -/
def subsetLoop (x : Nat) : (i : Nat) → (bs : List Bm) → (result : Bm) → Bm
  | _, [], result => result
  | i, b :: bs, result => subsetLoop x (i + 1) bs (if x.testBit i then result.or b else result)

/-- coder.hpp:431-486 `decode`. -/
def decode (c : VectorCoder) (op : RelOp) (x : Nat) : Option Bm :=
  match op with
  | .less => if x = 0 then some (Bm.fill c.size false) else lessEqual c (x - 1)
  | .lessEqual => lessEqual c x
  | .greater => (lessEqual c x).map Bm.not
  | .greaterEqual => if x = 0 then some (Bm.fill c.size true) else (lessEqual c (x - 1)).map Bm.not
  | .equal => some (equal c x)
  | .notEqual => some (equal c x).not
  | .in_ => if x = 0 then some (Bm.fill c.size false)
    else some (subsetLoop x 0 c.bitmaps (Bm.fill c.size false)).not
  | .notIn => if x = 0 then some (Bm.fill c.size false)
    else some (subsetLoop x 0 c.bitmaps (Bm.fill c.size false))
  | _ => some (Bm.fill c.size false)

end BitsliceCoder

/-! ## singleton_coder -/

namespace SingletonCoder

/-- coder.hpp:109-112 `encode`. -/
def encode (b : Bm) (x : Bool) (n : Nat) : Bm := b.appendBits x n

/-- coder.hpp:114-123 `decode`. -/
def decode (b : Bm) (op : RelOp) (x : Bool) : Option Bm :=
  match op with
  | .equal => some (if x then b else b.not)
  | .notEqual => some (if x then b.not else b)
  | _ => none

/-- coder.hpp:125-127 `skip`. -/
def skip (b : Bm) (n : Nat) : Bm := b.appendBits false n

/-- coder.hpp:129-131 `append`. -/
def append (b other : Bm) : Bm := b ++ other

end SingletonCoder

/-! ## multi_level_coder -/

/-- The coder type a multi-level coder is instantiated with (the singleton coder is never used). -/
inductive Kind where
  | equality | range | bitslice
  deriving DecidableEq, Repr

namespace Kind

/-- `encode` of the coder type. -/
def encode : Kind → VectorCoder → Nat → Nat → Option VectorCoder
  | .equality => EqualityCoder.encode
  | .range => RangeCoder.encode
  | .bitslice => fun c x n => some (BitsliceCoder.encode c x n)

/-- `decode` of the coder type. -/
def decode : Kind → VectorCoder → RelOp → Nat → Option Bm
  | .equality => EqualityCoder.decode
  | .range => RangeCoder.decode
  | .bitslice => BitsliceCoder.decode

/-- `append` of the coder type (coder.hpp:301-303, 390-392, 492-494). -/
def append : Kind → VectorCoder → VectorCoder → Option VectorCoder
  | .equality => fun c d => c.append d false
  | .range => fun c d => c.append d true
  | .bitslice => fun c d => c.append d false

/-- coder.hpp:610-622 `init_coders`: the number of bitmaps for a base value. -/
def bitmapCount : Kind → Nat → Nat
  | .range, b => b - 1
  | _, b => b

end Kind

/-- coder.hpp:521-705 `multi_level_coder`. The scratch vector `xs_` is a local value in the model.
The coders are the components of the base, in order. -/
structure MultiLevelCoder where
  kind : Kind
  base : List Nat
  coders : List VectorCoder
  deriving Repr

namespace MultiLevelCoder

/-- coder.hpp:537-539 and 592-598, the constructor and `init`. -/
def make (k : Kind) (base : List Nat) : Option MultiLevelCoder :=
  if wellDefined base then some ⟨k, base, base.map fun b => VectorCoder.make (k.bitmapCount b)⟩ else none

/-- coder.hpp:545-546, the loop of `encode`. -/
def encodeLoop (k : Kind) (n : Nat) : List VectorCoder → List Nat → Option (List VectorCoder)
  | c :: cs, x :: xs =>
    match k.encode c x n, encodeLoop k n cs xs with
    | some c, some cs => some (c :: cs)
    | _, _ => none
  | [], [] => some []
  | _, _ => none

/-- coder.hpp:541-547 `encode`. -/
def encode (c : MultiLevelCoder) (x n : Nat) : Option MultiLevelCoder :=
  (encodeLoop c.kind n c.coders (decompose c.base x)).map fun cs => { c with coders := cs }

/-- coder.hpp:553-556 `skip`. -/
def skip (c : MultiLevelCoder) (n : Nat) : MultiLevelCoder := { c with coders := c.coders.map (·.skip n) }

/-- coder.hpp:560-561, the loop of `append`. -/
def appendLoop (k : Kind) : List VectorCoder → List VectorCoder → Option (List VectorCoder)
  | c :: cs, d :: ds =>
    match k.append c d, appendLoop k cs ds with
    | some c, some cs => some (c :: cs)
    | _, _ => none
  | [], [] => some []
  | _, _ => none

/-- coder.hpp:558-562 `append`. -/
def append (c other : MultiLevelCoder) : Option MultiLevelCoder :=
  (appendLoop c.kind c.coders other.coders).map fun cs => { c with coders := cs }

/-- coder.hpp:564-566 `size`. -/
def size (c : MultiLevelCoder) : Nat :=
  match c.coders with
  | [] => 0
  | c :: _ => c.size

/-- coder.hpp:656-661, the loop of Range-Eval-Opt over components 1 and up: base values, coders and
digits in step. -/
def rangeLoop : (base : List Nat) → (coders : List VectorCoder) → (xs : List Nat) → (result : Bm) → Option Bm
  | b :: bs, c :: cs, x :: xs, result =>
    match (if x ≠ b - 1 then (RangeCoder.bitmapAt c x).map result.and else some result) with
    | none => none
    | some result =>
      match (if x ≠ 0 then (RangeCoder.bitmapAt c (x - 1)).map result.or else some result) with
      | none => none
      | some result => rangeLoop bs cs xs result
  | [], [], [], result => some result
  | _, _, _, _ => none

/-- coder.hpp:643 and 654-661: the rows whose value is at most the value with digits `xs`. -/
def rangeLessEqual (size : Nat) : (base : List Nat) → (coders : List VectorCoder) → (xs : List Nat) → Option Bm
  | b :: bs, c :: cs, x :: xs =>
    match (if x < b - 1 then RangeCoder.bitmapAt c x else some (Bm.fill size true)) with
    | none => none
    | some result => rangeLoop bs cs xs result
  | _, _, _ => none

/-- coder.hpp:666-671, one component of Range-Eval-Opt for (in)equality. -/
def rangeEqualStep (b : Nat) (c : VectorCoder) (x : Nat) (result : Bm) : Option Bm :=
  if x = 0 then (RangeCoder.bitmapAt c 0).map result.and
  else if x = b - 1 then (RangeCoder.bitmapAt c (b - 2)).map fun m => result.and m.not
  else match RangeCoder.bitmapAt c x, RangeCoder.bitmapAt c (x - 1) with
    | some m, some m' => some (result.and (m.xor m'))
    | _, _ => none

/-- coder.hpp:665-672, the loop of Range-Eval-Opt for (in)equality. -/
def rangeEqualLoop : (base : List Nat) → (coders : List VectorCoder) → (xs : List Nat) → (result : Bm) → Option Bm
  | b :: bs, c :: cs, x :: xs, result =>
    match rangeEqualStep b c x result with
    | none => none
    | some result => rangeEqualLoop bs cs xs result
  | [], [], [], result => some result
  | _, _, _, _ => none

/-- coder.hpp:625-680, `decode` for range coders. -/
def decodeRange (c : MultiLevelCoder) (op : RelOp) (x : Nat) : Option Bm :=
  match op with
  | .less =>
    if x = 0 then some (Bm.fill c.size false)
    else rangeLessEqual c.size c.base c.coders (decompose c.base (x - 1))
  | .greaterEqual =>
    if x = 0 then some (Bm.fill c.size true)
    else (rangeLessEqual c.size c.base c.coders (decompose c.base (x - 1))).map Bm.not
  | .lessEqual => rangeLessEqual c.size c.base c.coders (decompose c.base x)
  | .greater => (rangeLessEqual c.size c.base c.coders (decompose c.base x)).map Bm.not
  | .equal => rangeEqualLoop c.base c.coders (decompose c.base x) (Bm.fill c.size true)
  | .notEqual => (rangeEqualLoop c.base c.coders (decompose c.base x) (Bm.fill c.size true)).map Bm.not
  | .in_ | .notIn => none
  | _ => some (Bm.fill c.size false)

/-- coder.hpp:694-695, the loop of `decode` for the other coders. -/
def equalLoop (k : Kind) : List VectorCoder → List Nat → Bm → Option Bm
  | c :: cs, x :: xs, result =>
    match k.decode c .equal x with
    | none => none
    | some m => equalLoop k cs xs (result.and m)
  | [], [], result => some result
  | _, _, _ => none

/-- coder.hpp:685-700, `decode` for equality and bitslice coders. -/
def decodeEqual (c : MultiLevelCoder) (op : RelOp) (x : Nat) : Option Bm :=
  match op with
  | .equal | .notEqual =>
    match c.coders, decompose c.base x with
    | d :: cs, y :: ys =>
      match c.kind.decode d .equal y with
      | none => none
      | some result => (equalLoop c.kind cs ys result).map fun r => if op = .notEqual then r.not else r
    | _, _ => none
  | _ => none

/-- coder.hpp:549-551 `decode`. -/
def decode (c : MultiLevelCoder) (op : RelOp) (x : Nat) : Option Bm :=
  if c.coders.isEmpty then some []
  else match c.kind with
    | .range => decodeRange c op x
    | _ => decodeEqual c op x

end MultiLevelCoder

end Verif.Index
