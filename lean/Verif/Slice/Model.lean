import Verif.Bitmap.Algo

/-!
# Selecting rows of table slices

Models `select`, `truncate`, `split`, `evaluate`, `filter` and `count_matching` in
/repo/libvast/src/table_slice.cpp:425-552 and 657-790.

A table slice is its offset, the ID of its first row, and its rows; a row is opaque (`R`), so the
encoding of the cells and the layout do not appear. A builder is the list of rows added to it. The
branches for a missing builder and for a cell that the builder rejects do not appear either: a row
taken out of a slice can be added to a builder of the same encoding and layout. `none` is a failed assertion. ID sets are EWAH
bitmaps, with the operations modelled in `Verif.Bitmap.Algo`.
-/

namespace Verif.Slice

open Verif.Bitmap

/-- A table slice: table_slice.hpp, `offset()` and the rows. -/
structure Slice (R : Type) where
  offset : Nat
  rows : List R
  deriving DecidableEq, Repr

variable {R : Type}

/-- aliases.hpp:35 `invalid_id`. -/
def invalidId : Nat := 2 ^ 64 - 1

/-- Addition of IDs. -/
def add64 (a b : Nat) : Nat := (a + b) % 2 ^ 64

/-- table_slice.cpp:428 and 672: the IDs of a slice. -/
def sliceIds (offset rows : Nat) : Option EwahBitmap := makeIds [(offset, add64 offset rows)]

/-- The locals of `select`: the result, the builder, `last_offset` and `last_id + 1` (with
`last_id = last_offset - 1` at first, which wraps around for offset zero, so that the sum is the offset). -/
structure SelState (R : Type) where
  result : List (Slice R)
  builder : List R
  lastOffset : Nat
  expected : Nat

/-- table_slice.cpp:465-475 `push_slice`: the result after the call. -/
def SelState.pushed (st : SelState R) : List (Slice R) :=
  if st.builder.length = 0 then st.result else st.result ++ [⟨st.lastOffset, st.builder⟩]

/-- table_slice.cpp:478-499, one iteration. -/
def selectStep (s : Slice R) (st : SelState R) (id : Nat) : Option (SelState R) :=
  if id < s.offset then none
  else match s.rows[id - s.offset]? with
    | none => none
    | some row =>
      if st.expected ≠ id then some ⟨st.pushed, [row], id, id + 1⟩
      else some ⟨st.result, st.builder ++ [row], st.lastOffset, st.expected + 1⟩

/-- `for (auto id : select(bm))`. -/
def members (bm : EwahBitmap) : List Nat :=
  BitwiseRange.enumerate true (bm.size + 1) (BitwiseRange.selectRange true bm.bitRange)

/-- table_slice.cpp:464-500. -/
def selectLoop (s : Slice R) (ids : List Nat) : Option (List (Slice R)) :=
  (ids.foldlM (selectStep s) ⟨[], [], s.offset, s.offset⟩).map SelState.pushed

/-- table_slice.cpp:425-501 `select`: the slices that are appended to the result. -/
def select (s : Slice R) (selection : EwahBitmap) : Option (List (Slice R)) := do
  let xsIds ← sliceIds s.offset s.rows.length
  let intersection ← binaryAnd selection xsIds
  if rankAll true intersection = 0 then some []
  else if rankAll true xsIds = rankAll true intersection then some [s]
  else selectLoop s (members intersection)

/-- table_slice.cpp:515-518 and 534-537: an invalid offset is replaced by zero. -/
def Slice.anchor (s : Slice R) : Slice R := if s.offset = invalidId then { s with offset := 0 } else s

/-- table_slice.cpp:522-523 and 547-550: and restored in the result. -/
def Slice.restore (s x : Slice R) : Slice R := if s.offset = invalidId then { x with offset := invalidId } else x

/-- table_slice.cpp:510-525 `truncate`. -/
def truncate (s : Slice R) (numRows : Nat) : Option (Slice R) :=
  if numRows = 0 then none
  else if s.rows.length ≤ numRows then some s
  else do
    let selection ← makeIds [(s.anchor.offset, add64 s.anchor.offset numRows)]
    let xs ← select s.anchor selection
    match xs with
    | [x] => some (s.restore x)
    | _ => none

/-- table_slice.cpp:527-552 `split`. A default-constructed slice has no rows and the invalid offset. -/
def split (s : Slice R) (point : Nat) : Option (Slice R × Slice R) :=
  if point = 0 then some (⟨invalidId, []⟩, s)
  else if s.rows.length ≤ point then some (s, ⟨invalidId, []⟩)
  else do
    let ids ← makeIds [(s.anchor.offset, add64 s.anchor.offset point)]
    let xs ← select s.anchor ids
    let ids' ← makeIds [(add64 s.anchor.offset point, add64 s.anchor.offset s.rows.length)]
    let ys ← select s.anchor ids'
    match xs, ys with
    | [x], [y] => some (s.restore x, s.restore y)
    | _, _ => none

/-- table_slice.cpp:657-666 `evaluate`, for an expression that `check` decides for each row. -/
def evaluate (check : R → Bool) (s : Slice R) : Option EwahBitmap := do
  let result ← EwahBitmap.appendBits {} false s.offset
  s.rows.foldlM (fun bm row => bm.appendBit (check row)) result

/-- table_slice.cpp:673-675 and 748-750: hints that are the empty bitmap restrict nothing. -/
def restrict (ids hints : EwahBitmap) : Option EwahBitmap :=
  if hints.size = 0 then some ids else binaryAnd ids hints

/-- table_slice.cpp:712-724, one iteration: the row is added to the builder if it passes the check. -/
def filterStep (s : Slice R) (off : Nat) (check : R → Bool) (builder : List R) (id : Nat) : Option (List R) :=
  if id < off then none
  else match s.rows[id - off]? with
    | none => none
    | some row => if check row then some (builder ++ [row]) else some builder

/-- table_slice.cpp:668-732 `filter`. The expression is `none` for the default-constructed one, and
otherwise what it decides for each row. A new slice has the invalid offset. -/
def filter (s : Slice R) (expr : Option (R → Bool)) (hints : EwahBitmap) : Option (Option (Slice R)) := do
  let ids ← sliceIds s.anchor.offset s.rows.length
  let selection ← restrict ids hints
  if rankAll true selection = 0 then some none
  else if expr.isNone ∧ rankAll true ids = rankAll true selection then some (some s)
  else
    let builder ← (members selection).foldlM (filterStep s s.anchor.offset (expr.getD fun _ => true)) []
    if builder.length = 0 then some none
    else if builder.length = s.rows.length then some (some s)
    else some (some ⟨invalidId, builder⟩)

/-- table_slice.cpp:783-788, one iteration. -/
def countStep (s : Slice R) (check : R → Bool) (cnt : Nat) (id : Nat) : Option Nat :=
  if id < s.offset then none
  else match s.rows[id - s.offset]? with
    | none => none
    | some row => some (cnt + if check row then 1 else 0)

/-- table_slice.cpp:743-790 `count_matching`. -/
def countMatching (s : Slice R) (expr : Option (R → Bool)) (hints : EwahBitmap) : Option Nat := do
  let ids ← sliceIds s.offset s.rows.length
  let selection ← restrict ids hints
  if rankAll true selection = 0 then some 0
  else if expr.isNone ∧ rankAll true ids = rankAll true selection then some s.rows.length
  else (members selection).foldlM (countStep s (expr.getD fun _ => true)) 0

end Verif.Slice
