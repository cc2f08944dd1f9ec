import Verif.Archive.Model

/-!
# Partition-local stores

Models /repo/libvast/src/system/local_segment_store.cpp, with the functions of segment.cpp and
segment_builder.cpp it uses.

* A row is its layout with its values (`L × V`). A query is what `tailor` and `prune_meta_predicates` make of its
  expression for each layout.
* Handlers run one at a time; `step` runs one. The messages of an actor to itself (`delegate`) wait in
  `delegated` and are handled in the order they were sent, at any later time; responses of the file system arrive at any time.
* A segment is its slices, a file its segment. A new slice always passes the check in `segment_builder::add`
  (segment_builder.cpp:34), since `min_table_slice_offset_` is never set to anything but zero.
* `none` is undefined behaviour, a failed assertion or a call of `die`.

Assumptions about CAF: a request to an invalid handle is answered with an error; to deliver to a
default-constructed response promise has no effect, and a handler that returns one sends no response.
-/

namespace Verif.LocalStore

open Verif.Bitmap Verif.Slice Verif.Archive

variable {L V : Type}

/-- query.hpp:24-65: the command of a query. -/
inductive Cmd where
  | count (estimate : Bool)
  | extract (preserveIds : Bool)
  | erase
  deriving DecidableEq, Repr

/-- query.hpp. `given` says whether the expression differs from `expression{}`. `checker` is
`prune_meta_predicates(tailor(expr, layout))`: `none` if `tailor` fails, `some none` if the result is `expression{}`,
and otherwise what the result decides for each row. -/
structure Query (L V : Type) where
  cmd : Cmd
  given : Bool
  checker : L → Option (Option (L × V → Bool))

/-- What a sink of a query gets. -/
inductive Sent (L V : Type) where
  | count (n : Nat)
  | slice (s : Slice (L × V))
  deriving DecidableEq, Repr

/-- How a handler responds: `later` if a promise or another handler does it. -/
inductive Reply where
  | done
  | error
  | later
  deriving DecidableEq, Repr

/-- local_segment_store.cpp:42-49: the checker of a slice. A slice without rows has no layout in this model;
no store has one (`Verif.LocalStore.Spec`). -/
def checkerOf (q : Query L V) (s : Slice (L × V)) : Option (Option (L × V → Bool)) :=
  if q.given then
    match s.rows.head? with
    | none => some none
    | some r => q.checker r.1
  else some none

/-- table_slice.cpp:579-581: the empty expression holds for no row. -/
def check (c : Option (L × V → Bool)) : L × V → Bool := c.getD fun _ => false

/-- local_segment_store.cpp:69-75: one slice of the selection. -/
def extractSub (q : Query L V) (c : Option (L × V → Bool)) (sub : Slice (L × V)) : Option (List (Slice (L × V))) :=
  if q.given then (evaluate (check c) sub).bind (select sub) else some [sub]

/-- The concatenated results of a loop. -/
def gather {A B : Type} (f : A → Option (List B)) : List A → Option (List B)
  | [] => some []
  | a :: as => (f a).bind fun x => (gather f as).map (x ++ ·)

/-- local_segment_store.cpp:55-60 and 64-82, one iteration. -/
def perSlice (q : Query L V) (ids : EwahBitmap) (s : Slice (L × V)) (c : Option (L × V → Bool)) : Option (List (Sent L V)) :=
  match q.cmd with
  | .count _ => (countMatching s c ids).map fun n => [.count n]
  | .extract true => ((select s ids).bind (gather (extractSub q c))).map (·.map .slice)
  | .extract false => (Slice.filter s c ids).map fun r => r.toList.map .slice
  | .erase => none

/-- local_segment_store.cpp:41-50: `none` if some slice fails. -/
def checkers (q : Query L V) (slices : List (Slice (L × V))) : Option (List (Slice (L × V) × Option (L × V → Bool))) :=
  slices.mapM fun s => (checkerOf q s).map fun c => (s, c)

/-- local_segment_store.cpp:36-91 `handle_lookup`. -/
def handleLookup (q : Query L V) (ids : EwahBitmap) (slices : List (Slice (L × V))) : Option (Reply × List (Sent L V)) :=
  match checkers q slices with
  | none => some (.error, [])
  | some cs => match q.cmd with
    | .erase => none
    | .count true => none
    | _ => (gather (fun c => perSlice q ids c.1 c.2) cs).map fun r => (.done, r)

/-- segment.cpp:122-146 `erase`: the slices that remain. -/
def eraseFrom (xs : EwahBitmap) (slices : List (Slice (L × V))) : Option (List (Slice (L × V))) :=
  xs.flip.bind fun mask => (slices.foldlM keepStep (mask, [])).map (·.2)

/-! ## The active store -/

/-- local_segment_store.hpp, `active_store_state`; `fs` says whether the handle is valid. `writes` are the requests to the
file system that it did not answer yet, `file` is the file at the path of the store. -/
structure Active (L V : Type) where
  fs : Bool := true
  builder : List (Slice (L × V)) := []
  segment : Option (List (Slice (L × V))) := none
  events : Nat := 0
  delegated : List EwahBitmap := []
  writes : List (List (Slice (L × V))) := []
  file : Option (List (Slice (L × V))) := none

/-- What an active store handles. -/
inductive ActiveMsg (L V : Type) where
  | batch (slices : List (Slice (L × V)))
  | query (q : Query L V) (ids : EwahBitmap)
  | erase (ids : EwahBitmap)
  | delegated
  | persist
  | written (ok : Bool)

/-- local_segment_store.cpp:251-263. -/
def Active.erase (st : Active L V) (ids : EwahBitmap) : Option (Active L V) :=
  (eraseFrom ids st.builder).map fun slices => { st with builder := slices }

/-- local_segment_store.cpp:235-250. The builder exists as long as the store, so that the
segment is never used. -/
def Active.query (st : Active L V) (q : Query L V) (ids : EwahBitmap) : Option (Active L V × Reply × List (Sent L V)) :=
  (lookupSlices ids st.builder).bind fun slices =>
    if q.cmd = .erase then some ({ st with delegated := st.delegated ++ [ids] }, .later, [])
    else (handleLookup q ids slices).map fun r => (st, r)

/-- local_segment_store.cpp:295-310 persists; 270-278 handles a batch. A write that the file system
completes replaces the file (302-308). -/
def Active.step (st : Active L V) : ActiveMsg L V → Option (Active L V × Reply × List (Sent L V))
  | .batch slices => some ({ st with builder := st.builder ++ slices, events := st.events + rowCount slices }, .later, [])
  | .query q ids => st.query q ids
  | .erase ids => (st.erase ids).map fun st => (st, .done, [])
  | .delegated => match st.delegated with
    | [] => some (st, .later, [])
    | ids :: rest => (Active.erase { st with delegated := rest } ids).map fun st => (st, .done, [])
  | .persist =>
    let st' := { st with segment := some st.builder, builder := [], fs := false }
    if st.fs then some ({ st' with writes := st.writes ++ [st.builder] }, .later, []) else some (st', .later, [])
  | .written ok => match st.writes with
    | [] => some (st, .later, [])
    | slices :: rest => some ({ st with writes := rest, file := if ok then some slices else st.file }, .later, [])

/-- A history of an active store. -/
def Active.run : Active L V → List (ActiveMsg L V) → Option (Active L V × List (Reply × List (Sent L V)))
  | st, [] => some (st, [])
  | st, m :: ms => (st.step m).bind fun r => (Active.run r.1 ms).map fun rs => (rs.1, r.2 :: rs.2)

/-! ## The passive store -/

/-- A message to a passive store. -/
inductive Request (L V : Type) where
  | query (q : Query L V) (ids : EwahBitmap)
  | erase (ids : EwahBitmap)

/-- local_segment_store.hpp, `passive_store_state`. `fs` is never set (local_segment_store.cpp:107-110 does not use its
parameter for it). `moved` says whether the path has the extension `next` by now. `deferred` are the queries that wait for
the segment, with their promise: whether it can be fulfilled. `failing` counts requests that were answered with
an error. `file` and `next` are the files at the two paths. -/
structure Passive (L V : Type) where
  fs : Bool := false
  moved : Bool := false
  segment : Option (List (Slice (L × V))) := none
  deferred : List (Query L V × EwahBitmap × Bool) := []
  delegated : List (Request L V) := []
  failing : Nat := 0
  writes : List (Bool × List (Slice (L × V))) := []
  file : Option (List (Slice (L × V)))
  next : Option (List (Slice (L × V))) := none
  dead : Bool := false

/-- What a passive store handles: the file is mapped (or not), requests, messages to itself, and responses to
writes. Whether CAF delegates with an invalid promise (line 133, for the promise made in line 165) is left open: if `lost`, it
does not. -/
inductive PassiveMsg (L V : Type) where
  | loaded (ok lost : Bool)
  | request (r : Request L V)
  | delegated
  | written (ok : Bool)

/-- query.hpp `make_erase({})`. -/
def eraseQuery : Query L V := ⟨.erase, false, fun _ => some none⟩

/-- local_segment_store.cpp:118-140. -/
def Passive.load (st : Passive L V) (ok lost : Bool) : Passive L V :=
  if st.segment.isSome then st
  else match ok, st.file with
    | true, some slices =>
      { st with segment := some slices, deferred := [], delegated := st.delegated ++ (st.deferred.filter fun d => !lost || d.2.2).map fun d => .query d.1 d.2.1 }
    | _, _ => { st with dead := true }

/-- local_segment_store.cpp:171-213: erases from a loaded segment. Line 192 changes the path. -/
def Passive.eraseLoaded (st : Passive L V) (slices : List (Slice (L × V))) (xs : EwahBitmap) : Option (Passive L V × Reply) :=
  (idsOf slices).bind fun ids => (isSubset ids xs).bind fun sub =>
    if sub then some (if st.moved then { st with next := none } else { st with file := none }, .done)
    else (eraseFrom xs slices).map fun rest =>
      if st.fs then ({ st with writes := st.writes ++ [(st.moved, rest)], moved := true }, .later)
      else ({ st with failing := st.failing + 1, moved := true }, .later)

/-- local_segment_store.cpp:142-160 and 161-214. -/
def Passive.request (st : Passive L V) : Request L V → Option (Passive L V × Reply × List (Sent L V))
  | .query q ids => match st.segment with
    | none => some ({ st with deferred := st.deferred ++ [(q, ids, true)] }, .later, [])
    | some slices =>
      if q.cmd = .erase then some ({ st with delegated := st.delegated ++ [.erase ids] }, .later, [])
      else (lookupSlices ids slices).bind fun found => (handleLookup q ids found).map fun r => (st, r)
  | .erase ids => match st.segment with
    | none => some ({ st with deferred := st.deferred ++ [(eraseQuery, ids, false)] }, .later, [])
    | some slices => (st.eraseLoaded slices ids).map fun r => (r.1, r.2, [])

/-- local_segment_store.cpp:198-212: the response to a write. If the path had changed before, the old and the
new path are the same, and renaming does nothing. -/
def Passive.written (st : Passive L V) (ok : Bool) : Passive L V :=
  match st.writes with
  | [] => st
  | (moved, slices) :: rest =>
    if ok then
      if moved then { st with writes := rest, next := some slices, segment := some slices }
      else { st with writes := rest, next := none, file := some slices, segment := some slices }
    else { st with writes := rest }

/-- One handler. A store that quit handles nothing. -/
def Passive.step (st : Passive L V) (m : PassiveMsg L V) : Option (Passive L V × Reply × List (Sent L V)) :=
  if st.dead then some (st, .error, [])
  else match m with
    | .loaded ok lost => some (st.load ok lost, .later, [])
    | .request r => st.request r
    | .delegated => match st.delegated with
      | [] => some (st, .later, [])
      | r :: rest => Passive.request { st with delegated := rest } r
    | .written ok => some (st.written ok, .later, [])

/-- A history of a passive store. -/
def Passive.run : Passive L V → List (PassiveMsg L V) → Option (Passive L V × List (Reply × List (Sent L V)))
  | st, [] => some (st, [])
  | st, m :: ms => (st.step m).bind fun r => (Passive.run r.1 ms).map fun rs => (rs.1, r.2 :: rs.2)

end Verif.LocalStore
