import Verif.Bitmap.Ewah

/-!
# Model of the bitmap algorithms

Models /repo/libvast/vast/bitmap_algorithms.hpp, `bitmap_base::append` and `operator[]`
(/repo/libvast/vast/bitmap_base.hpp) and /repo/libvast/src/ids.cpp for the default bitmap type
(`bitmap` holds an `ewah_bitmap`, bitmap.hpp:31, and forwards every call to it,
/repo/libvast/src/bitmap.cpp).

A `bit_range` is the list of its sequences (`EwahBitmap.bitRange`); an iterator into it is the
list of the remaining ones. `npos` is `none`.
-/

namespace Verif.Bitmap

namespace EwahBitmap

/-- bitmap_base.hpp:104-109 `append(bits)`. The word is converted to `bool` for a run. -/
def append (s : EwahBitmap) (b : Bits) : Option EwahBitmap :=
  if b.isRun then s.appendBits (b.data != 0#64) b.size
  else if b.size ≠ 0 then s.appendBlock b.data b.size
  else some s

/-- Appending several sequences, as the loops do. -/
def appendAll (s : EwahBitmap) (bs : List Bits) : Option EwahBitmap := bs.foldlM append s

/-- The loop of bitmap_base.hpp:120-124 with `n` bits already passed. -/
def getGo (i : Nat) : (n : Nat) → List Bits → Option Bool
  | _, [] => none
  | n, b :: bs => if i ≥ n ∧ i < n + b.size then some (b.get (i - n)) else getGo i (n + b.size) bs

/-- bitmap_base.hpp:117-126 `operator[]`; `none` is the call of `die`. -/
def get? (s : EwahBitmap) (i : Nat) : Option Bool := getGo i 0 s.bitRange

end EwahBitmap

/-- The current sequence (`lhs_bits`) and the iterator (`lhs_begin`). -/
structure Cursor where
  bits : Bits
  rest : List Bits

namespace Cursor

/-- bitmap_algorithms.hpp:76-77 -/
def ofRange : List Bits → Cursor
  | [] => ⟨Bits.empty, []⟩
  | b :: bs => ⟨b, bs⟩

/-- bitmap_algorithms.hpp:96-101 and 102-107: fetch the next sequence if this one is exhausted. -/
def refill (c : Cursor) : Cursor :=
  if c.bits.size = 0 then
    match c.rest with
    | [] => c
    | b :: bs => ⟨b, bs⟩
  else c

/-- bitmap_algorithms.hpp:113-118: the rest of an operand. -/
def remaining (c : Cursor) : List Bits :=
  (if c.bits.size = 0 then [] else [c.bits]) ++ c.rest

/-- Number of bits left; the termination measure. -/
def left (c : Cursor) : Nat := c.bits.size + (c.rest.map Bits.size).sum

theorem refill_left (c : Cursor) : c.refill.left = c.left := by
  rw [refill]
  split
  · next h =>
    split
    · rfl
    · next hb => simp [left, hb, h]
  · rfl

end Cursor

theorem Bits.drop_size (b : Bits) (n : Nat) : (b.drop n).size = b.size - n := by
  rw [Bits.drop]
  split
  · rfl
  · simp [Bits.empty]; omega

/-- One iteration of the loop bitmap_algorithms.hpp:79-108 up to line 94: the appended sequence and
the shortened operands. -/
def evalStep (op : Word → Word → Word) (l r : Bits) : Bits × Bits × Bits :=
  let data := op l.data r.data
  if l.isRun && !r.isRun then (Bits.mk' data r.size, l.drop r.size, Bits.empty)
  else if !l.isRun && r.isRun then (Bits.mk' data l.size, Bits.empty, r.drop l.size)
  else
    let min := min l.size r.size
    (Bits.mk' data min, l.drop min, r.drop min)

theorem evalStep_size (op : Word → Word → Word) (l r : Bits) (hl : l.size ≠ 0) (hr : r.size ≠ 0) :
    (evalStep op l r).2.1.size < l.size := by
  simp only [evalStep]
  split
  · simp only [Bits.drop_size]; omega
  · split
    · simp [Bits.empty]; omega
    · simp only [Bits.drop_size]; omega

/-- The loop bitmap_algorithms.hpp:79-108: the appended sequences and the operands after it. -/
def evalLoop (op : Word → Word → Word) (l r : Cursor) : List Bits × Cursor × Cursor :=
  if h : l.bits.size ≠ 0 ∧ r.bits.size ≠ 0 then
    let res := evalLoop op (Cursor.refill ⟨(evalStep op l.bits r.bits).2.1, l.rest⟩)
      (Cursor.refill ⟨(evalStep op l.bits r.bits).2.2, r.rest⟩)
    ((evalStep op l.bits r.bits).1 :: res.1, res.2)
  else ([], l, r)
termination_by l.left
decreasing_by
  rw [Cursor.refill_left]
  have := evalStep_size op l.bits r.bits h.1 h.2
  simp only [Cursor.left]
  omega

/-- bitmap_algorithms.hpp:58-129 `binary_eval<FillLHS, FillRHS>`. The appends to `result` are
collected and performed in order. The assertion on line 126 is kept. -/
def binaryEval (fillLhs fillRhs : Bool) (op : Word → Word → Word) (x y : EwahBitmap) :
    Option EwahBitmap := do
  let (out, l, r) := evalLoop op (Cursor.ofRange x.bitRange) (Cursor.ofRange y.bitRange)
  let out := out ++ (if fillLhs then l.remaining else []) ++ (if fillRhs then r.remaining else [])
  let result ← EwahBitmap.appendAll {} out
  let maxSize := max x.size y.size
  if maxSize ≥ result.size then result.appendBits false (maxSize - result.size) else none

/-- bitmap_algorithms.hpp:178-182 -/
def binaryAnd := binaryEval false false (fun x y => x &&& y)
/-- bitmap_algorithms.hpp:184-188 -/
def binaryOr := binaryEval true true (fun x y => x ||| y)
/-- bitmap_algorithms.hpp:190-194 -/
def binaryXor := binaryEval true true (fun x y => x ^^^ y)
/-- bitmap_algorithms.hpp:196-200 -/
def binaryNand := binaryEval true false (fun x y => x &&& ~~~y)
/-- bitmap_algorithms.hpp:202-206 -/
def binaryNor := binaryEval true true (fun x y => x ||| ~~~y)

/-- bitmap_algorithms.hpp:139-176 `nary_eval`. The priority queue, whose order among bitmaps of
equal size is not specified, is a list from which an arbitrary function `pick` chooses the next
element (an index, taken modulo the length); the theorems hold for every choice. `fuel` is the
number of elements. -/
def naryEval (op : EwahBitmap → EwahBitmap → Option EwahBitmap)
    (pick : List EwahBitmap → Nat) : (fuel : Nat) → List EwahBitmap → Option EwahBitmap
  | 0, _ => some {}
  | fuel + 1, queue =>
    match queue with
    | [] => some {}
    | q :: qs =>
      let i := pick (q :: qs) % (q :: qs).length
      let lhs := (q :: qs).getD i q
      match (q :: qs).eraseIdx i with
      | [] => some lhs
      | q' :: qs' =>
        let j := pick (q' :: qs') % (q' :: qs').length
        let rhs := (q' :: qs').getD j q'
        match op lhs rhs with
        | none => none
        | some res => naryEval op pick fuel (res :: (q' :: qs').eraseIdx j)

/-- The loop of bitmap_algorithms.hpp:239-244, with `result` and `n`. -/
def rankGo (bit : Bool) (i : Nat) : (result n : Nat) → List Bits → Nat
  | result, _, [] => result
  | result, n, b :: bs =>
    if i ≥ n ∧ i < n + b.size then result + b.rankAt bit (i - n)
    else rankGo bit i (result + if bit then b.rank true else b.size - b.rank true) (n + b.size) bs

/-- bitmap_algorithms.hpp:233-246 `rank<Bit>(bm, i)`. -/
def rank (bit : Bool) (bm : EwahBitmap) (i : Nat) : Nat := rankGo bit i 0 0 bm.bitRange

/-- bitmap_algorithms.hpp:252-255 `rank<Bit>(bm)`. -/
def rankAll (bit : Bool) (bm : EwahBitmap) : Nat :=
  if bm.size = 0 then 0 else rank bit bm (bm.size - 1)

/-- The loop of bitmap_algorithms.hpp:280-286, with `rnk` and `n`. -/
def selectGo (bit : Bool) (i : Nat) : (rnk n : Nat) → List Bits → Option Nat
  | _, _, [] => none
  | rnk, n, b :: bs =>
    let count := if bit then b.rank true else b.size - b.rank true
    if rnk + count ≥ i then (b.select bit (i - rnk)).map (n + ·)
    else selectGo bit i (rnk + count) (n + b.size) bs

/-- bitmap_algorithms.hpp:264-288 `select<Bit>(bm, i)` for `i != npos`. -/
def select (bit : Bool) (bm : EwahBitmap) (i : Nat) : Option Nat := selectGo bit i 0 0 bm.bitRange

/-- The loop of bitmap_algorithms.hpp:272-277: `find_last(b)` has its default argument `Bit = true`,
whatever the `Bit` of `select`. -/
def selectLastGo : (last : Option Nat) → (n : Nat) → List Bits → Option Nat
  | last, _, [] => last
  | last, n, b :: bs =>
    selectLastGo (match b.findLast true with | some l => some (n + l) | none => last) (n + b.size) bs

/-- bitmap_algorithms.hpp:264-279 `select<Bit>(bm, npos)`: the last occurrence. -/
def selectLast (_bit : Bool) (bm : EwahBitmap) : Option Nat := selectLastGo none 0 bm.bitRange

/-- The second loop of bitmap_algorithms.hpp:560-564. -/
def frameLastGo (bit : Bool) : (second : Option Nat) → (n : Nat) → List Bits → Option Nat
  | second, _, [] => second
  | second, n, b :: bs =>
    frameLastGo bit (match b.findLast bit with | some l => some (n + l) | none => second) (n + b.size) bs

/-- The first loop of bitmap_algorithms.hpp:553-559, continued with the second. -/
def frameGo (bit : Bool) : (n : Nat) → List Bits → Option Nat × Option Nat
  | _, [] => (none, none)
  | n, b :: bs =>
    match b.findFirst bit with
    | some first => (some (n + first), frameLastGo bit (some (n + first)) n (b :: bs))
    | none => frameGo bit (n + b.size) bs

/-- bitmap_algorithms.hpp:544-566 `frame<Bit>`. -/
def frame (bit : Bool) (bm : EwahBitmap) : Option Nat × Option Nat := frameGo bit 0 bm.bitRange

/-- bitmap_algorithms.hpp:572-589 `any<Bit>`. -/
def any (bit : Bool) (bm : EwahBitmap) : Bool :=
  bm.bitRange.any fun b =>
    if bit then b.data != 0#64
    else
      let x := if b.size < 64 then b.data ||| Word.msbFill (64 - b.size) else b.data
      x != Word.all

/-- bitmap_algorithms.hpp:597-602 `all<Bit>`. -/
def all (bit : Bool) (bm : EwahBitmap) : Bool :=
  if bm.size = 0 then false else !any (!bit) bm

/-- bitmap_algorithms.hpp:608-611 `is_subset`. -/
def isSubset (xs ys : EwahBitmap) : Option Bool := do
  let d ← binaryNand xs ys
  return all false d

/-! ## `bitwise_range` and `select_range` -/

/-- bitmap_algorithms.hpp:292, 440-442: the remaining sequences of `rng_` (the current one first),
`i_` and `n_`. -/
structure BitwiseRange where
  rng : List Bits
  i : Option Nat
  n : Nat
deriving DecidableEq, Repr

namespace BitwiseRange

/-- bitmap_algorithms.hpp:300-304 -/
def ofRange (rng : List Bits) : BitwiseRange := ⟨rng, if rng = [] then none else some 0, 0⟩

/-- bitmap_algorithms.hpp:339-341 `done`. -/
def done (r : BitwiseRange) : Bool := r.rng.isEmpty && r.i.isNone

/-- bitmap_algorithms.hpp:317-320 `offset`, = `get` 333-336. -/
def offset (r : BitwiseRange) : Nat := r.n + r.i.getD 0

/-- bitmap_algorithms.hpp:324-327 `value`. -/
def value (r : BitwiseRange) : Bool :=
  match r.rng, r.i with
  | b :: _, some i => b.get i
  | _, _ => false

/-- The loop of bitmap_algorithms.hpp:369-376. -/
def seekGo : (k n : Nat) → List Bits → BitwiseRange
  | _, n, [] => ⟨[], none, n⟩
  | k, n, b :: bs =>
    if k > 0 then
      if k ≤ b.size then ⟨b :: bs, some (k - 1), n⟩ else seekGo (k - b.size) (n + b.size) bs
    else ⟨b :: bs, none, n⟩

/-- bitmap_algorithms.hpp:344-352 `next()`. -/
def next (r : BitwiseRange) : BitwiseRange :=
  match r.rng, r.i with
  | b :: bs, some i =>
    if i + 1 = b.size then ⟨bs, if bs = [] then none else some 0, r.n + b.size⟩
    else ⟨b :: bs, some (i + 1), r.n⟩
  | _, _ => r

/-- bitmap_algorithms.hpp:359-377 `next(k)`. -/
def seek (r : BitwiseRange) (k : Nat) : BitwiseRange :=
  match r.rng, r.i with
  | b :: bs, some i =>
    let remaining := b.size - i - 1
    if k ≤ remaining then next ⟨b :: bs, some (i + (k - 1)), r.n⟩
    else seekGo (k - remaining) (r.n + b.size) bs
  | _, _ => r

/-- The loop of bitmap_algorithms.hpp:385-391. -/
def selectNextGo (bit : Bool) : (n : Nat) → List Bits → BitwiseRange
  | n, [] => ⟨[], none, n⟩
  | n, b :: bs =>
    match b.findFirst bit with
    | some i => ⟨b :: bs, some i, n⟩
    | none => selectNextGo bit (n + b.size) bs

/-- bitmap_algorithms.hpp:381-392 `select<Bit>()`. -/
def selectNext (bit : Bool) (r : BitwiseRange) : BitwiseRange :=
  match r.rng, r.i with
  | b :: bs, some i =>
    match b.findNext bit i with
    | some j => ⟨b :: bs, some j, r.n⟩
    | none => selectNextGo bit (r.n + b.size) bs
  | _, _ => r

/-- The loop of bitmap_algorithms.hpp:409-420. -/
def selectManyGo (bit : Bool) : (k n : Nat) → List Bits → BitwiseRange
  | _, n, [] => ⟨[], none, n⟩
  | k, n, b :: bs =>
    match if k ≤ b.size then b.select bit k else none with
    | some i => ⟨b :: bs, some i, n⟩
    | none => selectManyGo bit (k - b.rank bit) (n + b.size) bs

/-- bitmap_algorithms.hpp:399-421 `select<Bit>(k)`: forward by `k` bits of a value. -/
def selectMany (bit : Bool) (r : BitwiseRange) (k : Nat) : BitwiseRange :=
  match r.rng, r.i with
  | b :: bs, some i =>
    let prev := b.rankAt bit i
    let remaining := b.rank bit - prev
    if k ≤ remaining then ⟨b :: bs, b.select bit (prev + k), r.n⟩
    else selectManyGo bit (k - remaining) (r.n + b.size) bs
  | _, _ => r

/-- bitmap_algorithms.hpp:427-437 `select_from<Bit>(x)`. -/
def selectFrom (bit : Bool) (r : BitwiseRange) (x : Nat) : BitwiseRange :=
  let r := if x > r.offset then r.seek (x - r.offset) else r
  if r.done then r
  else if r.value != bit then r.selectNext bit
  else r

/-- bitmap_algorithms.hpp:458-461, the constructor of `select_range`. -/
def selectRange (bit : Bool) (rng : List Bits) : BitwiseRange :=
  let r := ofRange rng
  match r.rng with
  | [] => r
  | b :: _ => if b.get 0 != bit then r.selectNext bit else r

/-- The values of `get()` while iterating a `select_range` with `next()` (467-469), for at most
`fuel` steps; also `for (auto id : select(bm))`. -/
def enumerate (bit : Bool) : (fuel : Nat) → BitwiseRange → List Nat
  | 0, _ => []
  | fuel + 1, r => if r.done then [] else r.offset :: enumerate bit fuel (r.selectNext bit)

/-- The pairs of `get()` and `value()` while iterating an `each(bm)` range with `next()`. -/
def enumerateEach : (fuel : Nat) → BitwiseRange → List (Nat × Bool)
  | 0, _ => []
  | fuel + 1, r => if r.done then [] else (r.offset, r.value) :: enumerateEach fuel r.next

end BitwiseRange

/-- The loop of bitmap_algorithms.hpp:514-534. `f` gives the half-open ID interval of an object;
`fails` tells for which objects the callback `g` returns an error. The
result is the list of objects `g` was called for and whether it failed. `none` means that the loop
did not end within `fuel` iterations. `std::lower_bound` over the remaining objects (510-513) is
modelled by dropping the objects whose interval ends at or before the current ID, which is what it
computes for a sequence partitioned by that predicate. -/
def selectWithGo {α : Type} (f : α → Nat × Nat) (fails : α → Bool) :
    (fuel : Nat) → List α → BitwiseRange → Option (List α × Bool)
  | 0, _, _ => none
  | _ + 1, [], _ => some ([], false)
  | fuel + 1, obj :: objs, rng =>
    if rng.done then some ([], false)
    else
      let rng := if rng.offset < (f obj).1 then rng.selectFrom true (f obj).1 else rng
      if rng.done then some ([], false)
      else if rng.offset ≥ (f obj).1 ∧ rng.offset < (f obj).2 then
        if fails obj then some ([obj], true)
        else
          let rng := rng.selectFrom true (f obj).2
          if rng.done then some ([obj], false)
          else
            (selectWithGo f fails fuel ((obj :: objs).dropWhile fun o => decide ((f o).2 ≤ rng.offset)) rng).map
              fun (visited, err) => (obj :: visited, err)
      else selectWithGo f fails fuel ((obj :: objs).dropWhile fun o => decide ((f o).2 ≤ rng.offset)) rng

/-- bitmap_algorithms.hpp:508-536 `select_with`. -/
def selectWith {α : Type} (f : α → Nat × Nat) (fails : α → Bool) (bm : EwahBitmap) (objs : List α) :
    Option (List α × Bool) :=
  selectWithGo f fails (objs.length + 1) objs (BitwiseRange.selectRange true bm.bitRange)

/-! ## `make_ids` -/

/-- The loop of ids.cpp:18-28; `none` is the failed assertion `first < last`. -/
def makeIdsGo : EwahBitmap → List (Nat × Nat) → Option EwahBitmap
  | result, [] => some result
  | result, (first, last) :: ranges =>
    if ¬ first < last then none
    else if first ≥ result.size then do
      let result ← result.appendBits false (first - result.size)
      let result ← result.appendBits true (last - first)
      makeIdsGo result ranges
    else do
      let tmp ← EwahBitmap.appendBits {} false first
      let tmp ← tmp.appendBits true (last - first)
      let result ← binaryOr result tmp
      makeIdsGo result ranges

/-- ids.cpp:15-32 `make_ids(ranges, min_size, default_bit)`. -/
def makeIds (ranges : List (Nat × Nat)) (minSize : Nat := 0) (defaultBit : Bool := false) :
    Option EwahBitmap := do
  let result ← makeIdsGo {} ranges
  if result.size < minSize then result.appendBits defaultBit (minSize - result.size) else some result

end Verif.Bitmap
