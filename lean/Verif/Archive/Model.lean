import Verif.Slice.Model
import Verif.RangeMap.Model
import Verif.Cache.Model

/-!
# The segment store

Models /repo/libvast/src/segment_store.cpp, segment_builder.cpp and segment.cpp.

* A segment is its ID and its slices; the flatbuffer encoding does not appear. The intervals saved in a
  segment are those of its slices (segment_builder.cpp:39).
* UUIDs are numbers; `uuid::random` yields one never used before (`nextId` counts them): collisions are not modelled.
* The directory of segments is a list of names and contents. A write either happens entirely or fails
  (`Verif.Save` models `io::save`).
* The steps that a chunk runs when the last reference to it goes away (deleting a file) are kept in
  `stale`, and run at any later time: see `release`.
* Whether a builder reached the maximum segment size, and whether writes succeed, comes with the call.
* `none` is undefined behaviour or a failed assertion.
-/

namespace Verif.Archive

open Verif.Bitmap Verif.Slice Verif.Cache

/-- A segment (segment.hpp) or a builder (segment_builder.hpp). -/
structure Segment (R : Type) where
  id : Nat
  slices : List (Slice R)
  deriving DecidableEq, Repr

variable {R : Type}

/-- segment_builder.cpp:68-70 and segment.cpp:92-95: the interval of a slice. -/
def interval (s : Slice R) : Nat × Nat := (s.offset, add64 s.offset s.rows.length)

/-- segment_builder.cpp:65-78 and segment.cpp:85-120 `lookup`. -/
def lookupSlices (xs : EwahBitmap) (slices : List (Slice R)) : Option (List (Slice R)) :=
  (selectWith interval (fun _ => false) xs slices).map (·.1)

/-- segment_builder.cpp:86-89 and segment.cpp:68-71, one iteration. An offset before the end of the
result would append almost 2^64 bits. -/
def idsStep (bm : EwahBitmap) (s : Slice R) : Option EwahBitmap :=
  if s.offset < bm.size then none
  else (bm.appendBits false (s.offset - bm.size)).bind fun bm => bm.appendBits true s.rows.length

/-- segment_builder.cpp:84-91 and segment.cpp:64-73 `ids`. -/
def idsOf (slices : List (Slice R)) : Option EwahBitmap := slices.foldlM idsStep {}

/-- The number of rows of some slices. -/
def rowCount (slices : List (Slice R)) : Nat := (slices.map fun s => s.rows.length).sum

/-- segment_store.hpp, the data members. -/
structure Store (R : Type) where
  segments : RangeMap.Map Nat
  numEvents : Nat
  cache : Cache Nat (Segment R)
  builder : Segment R
  files : List (Nat × Segment R)
  stale : List Nat
  nextId : Nat
  deriving DecidableEq, Repr

/-- segment_store.cpp:79-102, for an empty directory. -/
def Store.make (capacity : Nat) : Store R :=
  ⟨[], 0, Cache.make capacity, ⟨0, []⟩, [], [], 1⟩

/-- segment_store.cpp:409-424 `load_segment`; `none` is an error. -/
def Store.load (st : Store R) (id : Nat) : Option (Segment R) := (st.files.find? fun f => f.1 == id).map (·.2)

/-- segment_store.cpp:431-436: the candidates without consecutive duplicates. -/
def addCandidate (acc : List Nat) (id : Nat) : List Nat := if acc.getLast? = some id then acc else acc ++ [id]

/-- segment_store.cpp:426-440 `select_segments`. -/
def Store.selectSegments (st : Store R) (xs : EwahBitmap) : Option (List Nat) :=
  (selectWith (fun e : RangeMap.Entry Nat => (e.left, e.right)) (fun _ => false) xs st.segments).map fun r =>
    (r.1.map (·.value)).foldl addCandidate []

/-- segment_store.cpp:327-340 `flush`: whether it succeeds. `ok` is whether the write succeeds. -/
def Store.flush (st : Store R) (ok : Bool) : Option (Bool × Store R) :=
  if st.builder.slices = [] then some (true, st)
  else if ok then
    (st.cache.insert .lru st.builder.id st.builder).map fun r => (true, { st with
      builder := ⟨st.nextId, []⟩, nextId := st.nextId + 1, files := (st.builder.id, st.builder) :: st.files, cache := r.2 })
  else some (false, { st with builder := ⟨st.nextId, []⟩, nextId := st.nextId + 1 })

/-- segment_store.cpp:106-110, if `inject` succeeds. The check in segment_builder.cpp:34 compares
with zero, as `min_table_slice_offset_` is never changed. -/
def Store.added (st : Store R) (s : Slice R) : Store R :=
  { st with
    segments := (RangeMap.inject st.segments s.offset (add64 s.offset s.rows.length) st.builder.id).1
    numEvents := st.numEvents + s.rows.length
    builder := { st.builder with slices := st.builder.slices ++ [s] } }

/-- segment_store.cpp:104-115 `put`: whether it succeeds. `full` is whether the builder reaches the
maximum segment size. -/
def Store.put (st : Store R) (s : Slice R) (full ok : Bool) : Option (Bool × Store R) :=
  if (RangeMap.inject st.segments s.offset (add64 s.offset s.rows.length) st.builder.id).2 then
    if full then (st.added s).flush ok else some (true, st.added s)
  else some (false, st)

/-! ## Lookup -/

/-- segment_store.cpp:53-76 `handle_segment` and 296-318: looks into one candidate; an inner `none` is
an error. -/
def Store.lookupIn (st : Store R) (xs : EwahBitmap) (id : Nat) : Option (Option (List (Slice R)) × Store R) :=
  if id = st.builder.id then (lookupSlices xs st.builder.slices).map fun r => (some r, st)
  else match st.cache.find .lru id with
    | none => none
    | some (some n, c) => (lookupSlices xs n.value.slices).map fun r => (some r, { st with cache := c })
    | some (none, c) => match st.load id with
      | none => some (none, { st with cache := c })
      | some seg => match c.insert .lru id seg with
        | none => none
        | some (_, c') => (lookupSlices xs seg.slices).map fun r => (some r, { st with cache := c' })

/-- segment_store.cpp:130-132 and 292-294, the predicate; `find` changes the order of the cache. -/
def Store.inMemory (st : Store R) (id : Nat) : Option (Bool × Store R) :=
  if id = st.builder.id then some (true, st)
  else (st.cache.find .lru id).map fun r => (r.1.isSome, { st with cache := r.2 })

/-- segment_store.cpp:130-132 and 292-294 `std::partition`. Simplification: the two parts keep their
order, and the predicate is evaluated from the left. -/
def Store.partition : Store R → List Nat → Option ((List Nat × List Nat) × Store R)
  | st, [] => some (([], []), st)
  | st, id :: ids => do
    let r ← st.inMemory id
    let rs ← Store.partition r.2 ids
    some (if r.1 then (id :: rs.1.1, rs.1.2) else (rs.1.1, id :: rs.1.2), rs.2)

/-- segment_store.cpp:295-324, the loop of `get`. -/
def Store.getLoop (xs : EwahBitmap) : Store R → List Nat → Option (Option (List (Slice R)) × Store R)
  | st, [] => some (some [], st)
  | st, id :: ids => do
    let r ← st.lookupIn xs id
    match r.1 with
    | none => some (none, r.2)
    | some ys => do
      let rs ← getLoop xs r.2 ids
      some (rs.1.map (ys ++ ·), rs.2)

/-- segment_store.cpp:122-132 and 285-294: the candidates in the order in which they are visited. -/
def Store.candidates (st : Store R) (xs : EwahBitmap) : Option (List Nat × Store R) := do
  let cs ← st.selectSegments xs
  let r ← st.partition cs
  some (r.1.1 ++ r.1.2, r.2)

/-- segment_store.cpp:281-325 `get`; an inner `none` is an error. -/
def Store.get (st : Store R) (xs : EwahBitmap) : Option (Option (List (Slice R)) × Store R) := do
  let r ← st.candidates xs
  r.2.getLoop xs r.1

/-! ## Erasing -/

/-- segment_store.cpp:190-192: expands the mask with ones. -/
def expand (mask : EwahBitmap) (maxId : Nat) : Option EwahBitmap :=
  if mask.size < maxId then mask.appendBits true (maxId - mask.size) else some mask

/-- segment_store.cpp:188-199, one iteration: the mask and the new slices. -/
def keepStep (acc : EwahBitmap × List (Slice R)) (s : Slice R) : Option (EwahBitmap × List (Slice R)) := do
  let mask ← expand acc.1 (add64 s.offset s.rows.length)
  let new ← select s mask
  some (mask, acc.2 ++ new)

/-- segment_store.cpp:165-206, for a segment that is not dropped at once: the new slices (none if the
segment is dropped) and the number of erased events. -/
def keepRest (xs : EwahBitmap) (ids : EwahBitmap) (slices : List (Slice R)) : Option (List (Slice R) × Nat) := do
  let all ← lookupSlices ids slices
  if all = [] then some ([], rowCount slices)
  else
    let mask ← xs.flip
    let r ← all.foldlM keepStep (mask, [])
    some (r.2, rowCount all - rowCount r.2 + if r.2 = [] then rowCount slices else 0)

/-- segment_store.cpp:159-206: the slices that remain (none if the segment is dropped) and the number of
erased events. -/
def shrink (xs : EwahBitmap) (slices : List (Slice R)) : Option (List (Slice R) × Nat) := do
  let ids ← idsOf slices
  let sub ← isSubset ids xs
  if sub then some ([], rowCount slices) else keepRest xs ids slices

/-- segment_store.cpp:228-237, the range map. -/
def injectAll (m : RangeMap.Map Nat) (id : Nat) (slices : List (Slice R)) : RangeMap.Map Nat :=
  slices.foldl (fun m s => (RangeMap.inject m s.offset (add64 s.offset s.rows.length) id).1) m

/-- segment_store.cpp:155-253 and 467-477, for the builder: the number of erased events. -/
def Store.eraseBuilder (st : Store R) (xs : EwahBitmap) : Option (Nat × Store R) :=
  (shrink xs st.builder.slices).map fun r => (r.2, { st with
    segments := injectAll (RangeMap.eraseValue st.segments st.builder.id) st.nextId r.1
    builder := ⟨st.nextId, r.1⟩
    nextId := st.nextId + 1 })

/-- segment_store.cpp:208-251: a smaller segment replaces the old one. -/
def Store.replace (st : Store R) (old : Nat) (new : List (Slice R)) (ok : Bool) : Store R :=
  { st with
    segments := injectAll (RangeMap.eraseValue st.segments old) st.nextId new
    files := if ok then (st.nextId, ⟨st.nextId, new⟩) :: st.files else st.files
    stale := old :: st.stale
    nextId := st.nextId + 1 }

/-- segment_store.cpp:442-465 `drop`. -/
def Store.drop (st : Store R) (old : Nat) : Store R :=
  { st with segments := RangeMap.eraseValue st.segments old, stale := old :: st.stale }

/-- segment_store.cpp:155-253 and 442-465, for a segment: the number of erased events. -/
def Store.eraseSegment (st : Store R) (seg : Segment R) (xs : EwahBitmap) (ok : Bool) : Option (Nat × Store R) :=
  (shrink xs seg.slices).map fun r =>
    (r.2, if r.1 = [] then st.drop seg.id else st.replace seg.id r.1 ok)

/-- segment_store.cpp:255-271, one iteration. -/
def Store.eraseOne (xs : EwahBitmap) (ok : Bool) (st : Store R) (id : Nat) : Option (Nat × Store R) :=
  match st.cache.find .lru id with
  | none => none
  | some (some n, c) => (Store.eraseSegment { st with cache := c } n.value xs ok).map fun r =>
      (r.1, { r.2 with cache := r.2.cache.eraseAt n.addr })
  | some (none, _) =>
    if id = st.builder.id then st.eraseBuilder xs
    else match st.load id with
      | none => some (0, st)
      | some seg => st.eraseSegment seg xs ok

/-- segment_store.cpp:255-271, the loop. -/
def Store.eraseLoop (xs : EwahBitmap) (ok : Bool) : Store R → List Nat → Option (Nat × Store R)
  | st, [] => some (0, st)
  | st, id :: ids => do
    let r ← st.eraseOne xs ok id
    let rs ← Store.eraseLoop xs ok r.2 ids
    some (r.1 + rs.1, rs.2)

/-- segment_store.cpp:136-279 `erase`. -/
def Store.erase (st : Store R) (xs : EwahBitmap) (ok : Bool) : Option (Store R) := do
  let cs ← st.selectSegments xs
  let r ← st.eraseLoop xs ok cs
  if st.numEvents < r.1 then none else some { r.2 with numEvents := r.2.numEvents - r.1 }

/-- segment_store.cpp:247-250 and 459-462: the deletion of a file, when the last reference to its chunk
is gone. -/
def Store.release (st : Store R) (id : Nat) : Store R :=
  if id ∈ st.stale then
    { st with files := st.files.filter fun f => f.1 != id, stale := st.stale.filter (· != id) }
  else st

/-! ## Calls -/

/-- The calls, and the release of chunks. -/
inductive Op (R : Type) where
  | put (s : Slice R) (full : Bool)
  | flush
  | erase (xs : EwahBitmap)
  | get (xs : EwahBitmap)
  | release (id : Nat)

/-- What a call returns. -/
inductive Out (R : Type) where
  | status (ok : Bool)
  | slices (r : Option (List (Slice R)))
  deriving DecidableEq, Repr

/-- One call; `ok` is whether writes succeed. -/
def Store.step (st : Store R) (ok : Bool) : Op R → Option (Out R × Store R)
  | .put s full => (st.put s full ok).map fun r => (.status r.1, r.2)
  | .flush => (st.flush ok).map fun r => (.status r.1, r.2)
  | .erase xs => (st.erase xs ok).map fun r => (.status true, r)
  | .get xs => (st.get xs).map fun r => (.slices r.1, r.2)
  | .release id => some (.status true, st.release id)

/-- Calls one after the other. -/
def Store.run (ok : Bool) : Store R → List (Op R) → Option (List (Out R) × Store R)
  | st, [] => some ([], st)
  | st, op :: ops => do
    let r ← st.step ok op
    let rs ← Store.run ok r.2 ops
    some (r.1 :: rs.1, rs.2)

/-! ## Sessions -/

/-- segment_store.hpp:37-54 `lookup`: the IDs, the candidates from `first_` on, and the buffer from `it_` on. -/
structure Session (R : Type) where
  xs : EwahBitmap
  rest : List Nat
  buffer : List (Slice R)
  deriving DecidableEq, Repr

/-- segment_store.cpp:117-134 `extract`. -/
def Store.extract (st : Store R) (xs : EwahBitmap) : Option (Session R × Store R) :=
  (st.candidates xs).map fun r => (⟨xs, r.1, []⟩, r.2)

/-- What `next` returns. -/
inductive Next (R : Type) where
  | slice (s : Slice R)
  | done
  | failed
  deriving DecidableEq, Repr

/-- segment_store.cpp:40-51 `next`, for the candidates `rest`, with an empty buffer. -/
def Store.nextFrom (xs : EwahBitmap) : Store R → List Nat → Option (Next R × Session R × Store R)
  | st, [] => some (.done, ⟨xs, [], []⟩, st)
  | st, id :: ids => do
    let r ← st.lookupIn xs id
    match r.1 with
    | none => some (.failed, ⟨xs, ids, []⟩, r.2)
    | some [] => nextFrom xs r.2 ids
    | some (s :: ss) => some (.slice s, ⟨xs, ids, ss⟩, r.2)

/-- segment_store.cpp:40-51 `next`. -/
def Store.next (st : Store R) (ses : Session R) : Option (Next R × Session R × Store R) :=
  match ses.buffer with
  | s :: ss => some (.slice s, { ses with buffer := ss }, st)
  | [] => st.nextFrom ses.xs ses.rest

/-- A step while a session is open: a call, or `next`. -/
inductive Turn (R : Type) where
  | call (op : Op R)
  | next

/-- Steps one after the other, while a session is open: what `next` returned. -/
def Store.turns : Store R → Session R → List (Turn R) → Option (List (Next R) × Session R × Store R)
  | st, ses, [] => some ([], ses, st)
  | st, ses, .call op :: ts => do
    let r ← st.step true op
    Store.turns r.2 ses ts
  | st, ses, .next :: ts => do
    let r ← st.next ses
    let rs ← Store.turns r.2.2 r.2.1 ts
    some (r.1 :: rs.1, rs.2)

/-! ## Starting -/

/-- segment_store.cpp:379-407 `register_segment`: the range map, or an error. -/
def registerSegment (m : RangeMap.Map Nat) (seg : Segment R) : Option (RangeMap.Map Nat) :=
  seg.slices.foldlM (fun m s =>
    if (RangeMap.inject m s.offset (add64 s.offset s.rows.length) seg.id).2 then
      some (RangeMap.inject m s.offset (add64 s.offset s.rows.length) seg.id).1
    else none) m

/-- segment_store.cpp:79-90 `make` and 363-377 `register_segments`, for a directory with these files, in
the order of the directory iterator; `none` is the null pointer. -/
def Store.open (capacity : Nat) (files : List (Nat × Segment R)) (nextId : Nat) : Option (Store R) :=
  (files.foldlM (fun m f => registerSegment m f.2) []).map fun m =>
    ⟨m, (files.map fun f => rowCount f.2.slices).sum, Cache.make capacity, ⟨nextId, []⟩, files, [], nextId + 1⟩

end Verif.Archive
