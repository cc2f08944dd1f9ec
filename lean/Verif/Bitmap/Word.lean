/-!
# Model of `vast::word` and `vast::bits`

Models /repo/libvast/vast/word.hpp and /repo/libvast/vast/bits.hpp for the block type `uint64_t`
(`bitmap_base::block_type`, bitmap_base.hpp:24-40).

Simplifications:
* `T` is fixed to `uint64_t`, i.e. a `BitVec 64`.
* Positions and sizes (`size_type`, 64 bit) are natural numbers; `npos = ~0` is `none`.
* A shift by 64 is undefined in C++ and yields 0 in `BitVec`; the callers modelled here never
  shift by 64 when the stated `@pre` conditions hold.
* `__builtin_popcountll`, `__builtin_ctzll`, `__builtin_clzll` are modelled by their documented
  meaning, as functions over the bit positions.
-/

namespace Verif.Bitmap

/-- The block type. bitmap_base.hpp:27 -/
abbrev Word := BitVec 64

namespace Word

/-- word.hpp:66 `none`. -/
def none : Word := 0#64
/-- word.hpp:69 `all`. -/
def all : Word := BitVec.allOnes 64
/-- word.hpp:72 `msb0 = all >> 1`. -/
def msb0 : Word := all >>> 1
/-- word.hpp:75 `msb1 = ~msb0`. -/
def msb1 : Word := ~~~msb0
/-- word.hpp:78 `lsb1`. -/
def lsb1 : Word := 1#64
/-- word.hpp:81 `lsb0 = ~lsb1`. -/
def lsb0 : Word := ~~~lsb1

/-- word.hpp:89-91 `mask`. -/
def mask (i : Nat) : Word := lsb1 <<< i
/-- word.hpp:98-100 `lsb_mask`. -/
def lsbMask (i : Nat) : Word := ~~~(all <<< i)
/-- word.hpp:107-109 `lsb_fill`. -/
def lsbFill (i : Nat) : Word := all >>> (64 - i)
/-- word.hpp:116-118 `msb_mask`. -/
def msbMask (i : Nat) : Word := ~~~(all >>> i)
/-- word.hpp:125-127 `msb_fill`. -/
def msbFill (i : Nat) : Word := all <<< (64 - i)

/-- word.hpp:136-138 `test`. -/
def test (x : Word) (i : Nat) : Bool := (x &&& mask i) == mask i

/-- word.hpp:143-145 `all_or_none(x)`: `((x + 1) & lsb0) <= 1`. -/
def allOrNone (x : Word) : Bool := decide (((x + 1#64) &&& lsb0) ≤ 1#64)

/-- word.hpp:208-213 `popcount` (`__builtin_popcountll`). -/
def popcount (x : Word) : Nat := (List.range 64).countP fun i => x.getLsbD i

/-- word.hpp:218-223 `count_trailing_zeros` (`x == 0 ? width : __builtin_ctzll(x)`). -/
def countTrailingZeros (x : Word) : Nat := ((List.range 64).find? fun i => x.getLsbD i).getD 64

/-- word.hpp:235-242 `count_leading_zeros` (`x == 0 ? width : __builtin_clzll(x)`). -/
def countLeadingZeros (x : Word) : Nat := ((List.range 64).find? fun i => x.getLsbD (63 - i)).getD 64

/-- word.hpp:317-325 `rank<1>(x, i)`: `popcount(x & lsb_fill(i + 1))`. -/
def rank (x : Word) (i : Nat) : Nat := popcount (x &&& lsbFill (i + 1))

/-- word.hpp:341-349 `find_first<1>(x)`. -/
def findFirst (x : Word) : Option Nat :=
  let tzs := countTrailingZeros x
  if tzs = 64 then Option.none else some tzs

/-- word.hpp:360-368 `find_last<1>(x)`. -/
def findLast (x : Word) : Option Nat :=
  let lzs := countLeadingZeros x
  if lzs = 64 then Option.none else some (64 - lzs - 1)

/-- word.hpp:382-392 `find_next(x, i)`. -/
def findNext (x : Word) (i : Nat) : Option Nat :=
  if i = 63 then Option.none
  else
    let top := x &&& (all <<< (i + 1))
    if top = 0#64 then Option.none else some (countTrailingZeros top)

/-- The loop of word.hpp:432-437, at position `j` with `cum` matches so far; `fuel` positions are
left (`j + fuel = width`). -/
def selectGo (x : Word) (i : Nat) : (fuel j cum : Nat) → Option Nat
  | 0, _, _ => Option.none
  | fuel + 1, j, cum =>
    if test x j then
      if cum + 1 = i then some j else selectGo x i fuel (j + 1) (cum + 1)
    else selectGo x i fuel (j + 1) cum

/-- word.hpp:417-438 `select<1>(x, i)`. -/
def select (x : Word) (i : Nat) : Option Nat := selectGo x i 64 0 0

end Word

/-- A bit sequence: one word, or a run of equal bits longer than a word. bits.hpp:23-139 -/
structure Bits where
  data : Word
  size : Nat
deriving DecidableEq, Repr

namespace Bits

/-- bits.hpp:36-38 the empty sequence. -/
def empty : Bits := ⟨0#64, 0⟩

/-- bits.hpp:53-57 the constructor: unused bits of a partial word are cleared. The assertion
`n <= width || all_or_none(x)` is the predicate `Bits.Valid` of the proofs. -/
def mk' (x : Word) (n : Nat) : Bits := ⟨if n < 64 then x &&& Word.lsbMask n else x, n⟩

/-- bits.hpp:89-91 `is_run`. -/
def isRun (b : Bits) : Bool := decide (b.size > 64)

/-- bits.hpp:104-107 `operator[]`. -/
def get (b : Bits) (i : Nat) : Bool :=
  if b.isRun then b.data != 0#64 else (b.data &&& Word.mask i) != 0#64

/-- bits.hpp:123-126 `slice(offset, length)`. -/
def slice (b : Bits) (offset length : Nat) : Bits :=
  mk' (if b.isRun then b.data else b.data >>> offset) length

/-- bits.hpp:148-150 `drop`, with `slice(offset)` of bits.hpp:113-116. -/
def drop (b : Bits) (n : Nat) : Bits :=
  if n < b.size then b.slice n (b.size - n) else empty

/-- bits.hpp:166-168 `take`. -/
def take (b : Bits) (n : Nat) : Bits :=
  if n < b.size then b.slice 0 n else b

/-- bits.hpp:185-197 `find_first<Bit>`. -/
def findFirst (bit : Bool) (b : Bits) : Option Nat :=
  if bit then
    if b.size > 64 then (if b.data = Word.all then some 0 else none) else Word.findFirst b.data
  else
    if b.size > 64 then (if b.data = Word.none then some 0 else none)
    else Word.findFirst (~~~(b.data ||| Word.msbMask (64 - b.size)))

/-- bits.hpp:203-219 `find_next<Bit>`. `b.size() - 1` wraps for an empty sequence; callers never
pass one. -/
def findNext (bit : Bool) (b : Bits) (i : Nat) : Option Nat :=
  if i ≥ b.size - 1 then none
  else if bit then
    if b.size > 64 then (if b.data = Word.all then some (i + 1) else none)
    else Word.findNext b.data i
  else
    if b.size > 64 then (if b.data = Word.none then some (i + 1) else none)
    else Word.findNext (~~~b.data &&& Word.lsbFill b.size) i

/-- bits.hpp:224-236 `find_last<Bit>`. -/
def findLast (bit : Bool) (b : Bits) : Option Nat :=
  if bit then
    if b.size > 64 then (if b.data = Word.all then some (b.size - 1) else none)
    else Word.findLast b.data
  else
    if b.size > 64 then (if b.data = Word.none then some (b.size - 1) else none)
    else Word.findLast (~~~b.data &&& Word.lsbFill b.size)

/-- bits.hpp:244-256 `rank<Bit>(b)`. -/
def rank (bit : Bool) (b : Bits) : Nat :=
  if bit then
    if b.size > 64 then (if b.data = Word.all then b.size else 0) else Word.popcount b.data
  else
    if b.size > 64 then (if b.data = Word.none then b.size else 0)
    else Word.popcount (~~~b.data &&& Word.lsbFill b.size)

/-- bits.hpp:264-273 `rank<Bit>(b, i)`. -/
def rankAt (bit : Bool) (b : Bits) (i : Nat) : Nat :=
  let data := if bit then b.data else ~~~b.data
  if b.size > 64 then (if data = Word.none then 0 else i + 1)
  else if i = 63 then Word.popcount data
  else Word.rank data i

/-- bits.hpp:280-288 `select<Bit>(b, i)`. -/
def select (bit : Bool) (b : Bits) (i : Nat) : Option Nat :=
  let data := if bit then b.data else ~~~b.data
  if b.size > 64 then (if data = Word.all then some (i - 1) else none)
  else Word.select data i

/-- The booleans a sequence stands for: `b[0], ..., b[size-1]`, read with `operator[]`. -/
def toList (b : Bits) : List Bool := (List.range b.size).map b.get

end Bits

end Verif.Bitmap
