/-! # Saving and restoring the state of the index (`libvast/src/system/index.cpp`)

The index with the files of its directory, the file system actor (`posix_filesystem.cpp`), and all messages under way.

* A partition is a number. Layouts are numbers. Of the events only their number per layout is kept.
* A write by the file system actor is atomic (`io::save`; see C33 for its limits) and may fail. The writes of the index come in
  order. Those of different partitions come in any order, and in any order relative to those of the index.
* The files with the synopses of partitions are left out: they are made from the partition if they are missing
  (`index.cpp` 225-229).
* A crash loses all that is in memory, messages included. -/

namespace Verif.Recovery

/-- The contents of `index.bin`. (`index.cpp` 553-596) -/
structure Image where
  ids : List Nat
  stats : Nat → Nat

/-- The state.
    * `running`: the index handles messages
    * `active`, `unpersisted`, `persisted`: the partitions (`index.hpp` 191, 199 and 207); `used`: all partitions ever
    * `contents id l`: how many events of layout `l` the partition was sent; a partition's file tells this, too
    * `stats`: the number of events per layout (`index.hpp` 79-87)
    * `writes`: partitions whose file is still to be written; `written`: those whose reply is under way to the index
    * `saves`: writes of `index.bin` under way
    * `asked`, `mapping`, `mapped`, `unlinking`: erasures for which the meta index was asked, the file system actor was asked to map
      the file, its reply is under way (the last component: whether there was a file), and the partition was asked to erase itself. The
      second component is `adjust_stats`.
    * `erased`: the erasures that were acknowledged
    * `files`, `image`: the files of partitions, and `index.bin`
    * `bad`: a null pointer was dereferenced -/
structure State where
  running : Bool
  active : Option Nat
  unpersisted : List Nat
  persisted : List Nat
  used : List Nat
  contents : Nat → Nat → Nat
  stats : Nat → Nat
  writes : List Nat
  written : List Nat
  saves : List Image
  asked : List (Nat × Bool)
  mapping : List (Nat × Bool)
  mapped : List (Nat × Bool × Bool)
  unlinking : List Nat
  erased : List Nat
  files : List Nat
  image : Option Image
  bad : Bool

/-- A first start, in an empty directory. (`index.cpp` 190-198) -/
def start : State where
  running := true
  active := none
  unpersisted := []
  persisted := []
  used := []
  contents := fun _ _ => 0
  stats := fun _ => 0
  writes := []
  written := []
  saves := []
  asked := []
  mapping := []
  mapped := []
  unlinking := []
  erased := []
  files := []
  image := none
  bad := false

/-- Adds to a set. -/
def insertNew (x : Nat) (xs : List Nat) : List Nat := if x ∈ xs then xs else x :: xs

/-- `pack` and `flush_to_disk`. (`index.cpp` 553-616) -/
def flush (s : State) : State := { s with saves := s.saves ++ [⟨s.persisted ++ s.unpersisted, s.stats⟩] }

/-- `create_active_partition`. `uuid::random` is assumed to yield a new number. (`index.cpp` 335-380) -/
def create (s : State) (id : Nat) : State := { s with active := some id, used := id :: s.used }

/-- `decomission_active_partition`. (`index.cpp` 382-397) -/
def decommission (s : State) : State :=
  match s.active with
  | none => s
  | some id => { s with active := none, unpersisted := id :: s.unpersisted, writes := id :: s.writes }

/-- Lines 684-692: makes sure that there is an active partition. When it is full is the subject of C36; here `rotate` says so.
    (`index.cpp` 684-692) -/
def makeRoom (s : State) (rotate : Bool) (id : Nat) : State :=
  match s.active with
  | none => create s id
  | some _ => if rotate then create (flush (decommission s)) id else s

/-- Lines 693-703: sends the events to the active partition. -/
def push (s : State) (l n : Nat) : State :=
  match s.active with
  | none => s
  | some a => { s with contents := fun i k => if i = a ∧ k = l then s.contents i k + n else s.contents i k }

/-- The handler of the stream stage, for a slice with `n` events of layout `l`. `id` is the number for a new partition.
    (`index.cpp` 679-704) -/
def onSlice (s : State) (l n : Nat) (rotate : Bool) (id : Nat) : State :=
  push (makeRoom { s with stats := fun k => if k = l then s.stats k + n else s.stats k } rotate id) l n

/-- The partition has written its file, or failed to. In the latter case the index quits (421-424). (`partition.cpp` 652-666) -/
def onWrite (s : State) (i : Nat) (ok : Bool) : State :=
  match s.writes[i]? with
  | none => s
  | some id =>
    if ok then { s with writes := s.writes.eraseIdx i, written := id :: s.written, files := insertNew id s.files }
    else { s with writes := s.writes.eraseIdx i, running := false }

/-- The index learns that a partition is persisted and merged into the meta index (which are two messages in the code; the first
    has no effect on this state). (`index.cpp` 398-414) -/
def onAck (s : State) (i : Nat) : State :=
  match s.written[i]? with
  | none => s
  | some id =>
    { s with written := s.written.eraseIdx i, unpersisted := s.unpersisted.filter (· != id), persisted := insertNew id s.persisted }

/-- The file system actor handles a write of `index.bin`. A failure is only logged. (`index.cpp` 607-615) -/
def onSave (s : State) (ok : Bool) : State :=
  match s.saves with
  | [] => s
  | x :: xs => { s with saves := xs, image := if ok then some x else s.image }

/-- The exit handler. Simplification: the index handles nothing afterwards. (`index.cpp` 723-752) -/
def onExit (s : State) : State := { flush (decommission s) with running := false }

/-- The handler of `erase`. (`index.cpp` 898-920) -/
def onErase (s : State) (id : Nat) : State :=
  if id ∈ s.persisted then { s with asked := s.asked ++ [(id, true)] }
  else if id ∈ s.files then { s with asked := s.asked ++ [(id, false)] }
  else s

/-- The meta index has erased the partition. (`index.cpp` 922-929) -/
def onMetaErased (s : State) (i : Nat) : State :=
  match s.asked[i]? with
  | none => s
  | some x =>
    { s with asked := s.asked.eraseIdx i, persisted := s.persisted.filter (· != x.1), mapping := s.mapping ++ [x] }

/-- The file system actor maps the file; it returns a null pointer if there is none. (`posix_filesystem.cpp` 61-72) -/
def onMap (s : State) (i : Nat) : State :=
  match s.mapping[i]? with
  | none => s
  | some x => { s with mapping := s.mapping.eraseIdx i, mapped := s.mapped ++ [(x.1, x.2, decide (x.1 ∈ s.files))] }

/-- Subtracts the events of the partition. (`index.cpp` 944-958) -/
def adjusted (s : State) (id : Nat) (adjust : Bool) (l : Nat) : Nat :=
  if adjust then s.stats l - s.contents id l else s.stats l

/-- The index gets the file, adjusts its statistics and asks the partition to erase itself. The pointer is not checked.
    (`index.cpp` 931-972) -/
def onMapped (s : State) (i : Nat) : State :=
  match s.mapped[i]? with
  | none => s
  | some (_, _, false) => { s with mapped := s.mapped.eraseIdx i, running := false, bad := true }
  | some (id, adjust, true) =>
    { s with
      mapped := s.mapped.eraseIdx i
      stats := adjusted s id adjust
      unlinking := s.unlinking ++ [id] }

/-- The partition removes its file; a failure is only logged. That the store answers is the subject of C30 and C43.
    (`partition.cpp` 907-922) -/
def onUnlink (s : State) (i : Nat) (ok : Bool) : State :=
  match s.unlinking[i]? with
  | none => s
  | some id =>
    { s with
      unlinking := s.unlinking.eraseIdx i
      files := if ok then s.files.filter (· != id) else s.files
      erased := id :: s.erased }

/-- `load_from_disk` after a crash or a shutdown. Partitions without a file are left out. (`index.cpp` 190-290) -/
def restart (s : State) : State :=
  { start with
    used := s.used
    contents := s.contents
    erased := s.erased
    files := s.files
    image := s.image
    bad := s.bad
    persisted := match s.image with
      | none => []
      | some x => (x.ids.filter (· ∈ s.files)).foldr insertNew []
    stats := match s.image with
      | none => fun _ => 0
      | some x => x.stats }

inductive Ev
  | slice (l n : Nat) (rotate : Bool) (id : Nat)
  | write (i : Nat) (ok : Bool)
  | ack (i : Nat)
  | save (ok : Bool)
  | exit
  | erase (id : Nat)
  | metaErased (i : Nat)
  | map (i : Nat)
  | mapped (i : Nat)
  | unlink (i : Nat) (ok : Bool)
  | restart
deriving DecidableEq, Repr

/-- What happens. The first group is what the index handles while it runs; a slice with a number for a new partition that is not new
    does not occur. -/
def step (s : State) : Ev → State
  | .slice l n rotate id => if s.running = true ∧ id ∉ s.used then onSlice s l n rotate id else s
  | .ack i => if s.running then onAck s i else s
  | .exit => if s.running then onExit s else s
  | .erase id => if s.running then onErase s id else s
  | .metaErased i => if s.running then onMetaErased s i else s
  | .mapped i => if s.running then onMapped s i else s
  | .write i ok => onWrite s i ok
  | .save ok => onSave s ok
  | .map i => onMap s i
  | .unlink i ok => onUnlink s i ok
  | .restart => restart s

def run (s : State) (es : List Ev) : State := es.foldl step s

end Verif.Recovery
