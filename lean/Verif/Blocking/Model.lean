/-!
# Blocking imports

Models how `vast import --blocking` finds out that its events are indexed: libvast/src/system/import_command.cpp:83-118, the importer
(importer.cpp:327-332), the index (index.cpp:308-333, 680-709, 769-772), the active partition (partition.cpp:65-77, 535-537) and
`notify_listeners_if_clean` (detail/notifying_stream_manager.hpp:20-61).

The events travel in slices: from the source to its transformer, to the importer, to the transformer of the node, to the index, to a
partition and to the indexers of the partition.  A batch of a CAF stream is acknowledged at some time after it was handled; a stage
is clean if everything that it has sent is acknowledged and nothing is left in its buffers.  CAF keeps the messages of streams apart
from other messages, so that there is no order between them: here everything that is under way is delivered at any time, in any order.

Simplifications: a slice is a batch of its own; all indexers of a partition are one; the store is the archive, not one that belongs
to the partition; nothing fails or shuts down, and partitions that are full stay in memory.  Additional checks, when a stream into
the index or a partition is closed (55-58), are not modelled; they make a difference only if the stage was not clean before.
-/
namespace Verif.Blocking

/-- Where a slice is.  The hops: 0 is the transformer of the source, 1 the importer, 2 the transformer of the node, 3 the index. -/
inductive Pos where
  | hop (n : Nat)
  | partition
  | indexers
  | indexed
deriving DecidableEq

/-- A slice.
* `own`: is it one of the client that we look at?
* `part`: the partition, once it has passed the index
* `ackIndex`, `ackPart`: the partition has acknowledged it to the index, and the indexers to the partition
* `sent`, `stored`: it was sent to the store, and has arrived there -/
structure Slice where
  own : Bool
  rows : Nat
  pos : Pos := .hop 0
  part : Nat := 0
  ackIndex : Bool := false
  ackPart : Bool := false
  sent : Bool := false
  stored : Bool := false
deriving DecidableEq

/-- Where the subscription of the client is. -/
inductive Sub where
  /-- The source has not ended. -/
  | idle
  /-- In the mailbox of the importer. -/
  | importer
  /-- In the mailbox of the index. -/
  | index
  /-- The index has it in its list. -/
  | waiting
  /-- In the mailbox of a partition. -/
  | mail (p : Nat)
  /-- The partition has it in its list. -/
  | listening (p : Nat)
  /-- The client has its answer, and ends. -/
  | flushed
deriving DecidableEq

/-- The slices, the active partition and the room in it, the number of partitions, and the subscription. -/
structure State where
  slices : List Slice := []
  active : Option Nat := none
  room : Nat := 0
  parts : Nat := 0
  sub : Sub := .idle

/-- What happens. -/
inductive Event where
  /-- A source sends a slice: that of the client, or another one. -/
  | push (own : Bool) (rows : Nat)
  /-- The slice with this number is handled where it is. -/
  | move (i : Nat)
  /-- The store gets a slice. -/
  | store (i : Nat)
  /-- The index gets an acknowledgement. -/
  | ackIndex (i : Nat)
  /-- A partition gets an acknowledgement. -/
  | ackPart (i : Nat)
  /-- The source of the client has ended. -/
  | ended
  /-- The importer, the index or a partition handles the subscription. -/
  | forward
  | subscribe
  | listen

/-- Has the index handled the slice? -/
def Slice.left (x : Slice) : Bool := match x.pos with
  | .hop _ => false
  | _ => true

/-- Has the partition handled the slice? -/
def Slice.handled (x : Slice) : Bool := x.pos = .indexers ∨ x.pos = .indexed

/-- `mgr.out().clean()` for the index. -/
def State.indexClean (s : State) : Bool := s.slices.all fun x => !x.left || x.ackIndex

/-- `mgr.out().clean()` for a partition. -/
def State.partClean (s : State) (p : Nat) : Bool := s.slices.all fun x => !(x.handled && x.part == p) || x.ackPart

/-- `notify_listeners_if_clean` for the index, with `notify_flush_listeners` (index.cpp:322-333). -/
def State.checkIndex (s : State) : State :=
  if s.sub = .waiting ∧ s.indexClean then
    { s with sub := match s.active with
      | some p => .mail p
      | none => .flushed }
  else s

/-- The same for a partition (partition.cpp:71-77). -/
def State.checkPart (s : State) (p : Nat) : State :=
  if s.sub = .listening p ∧ s.partClean p then { s with sub := .flushed } else s

/-- The index handles a slice (index.cpp:680-709). -/
def State.toPartition (cap : Nat) (s : State) (i : Nat) (x : Slice) : State :=
  match s.active with
  | some p =>
    if x.rows > s.room then
      { s with slices := s.slices.set i { x with pos := .partition, part := s.parts }, active := some s.parts, parts := s.parts + 1,
               room := cap - x.rows }
    else { s with slices := s.slices.set i { x with pos := .partition, part := p }, room := s.room - x.rows }
  | none =>
    { s with slices := s.slices.set i { x with pos := .partition, part := s.parts }, active := some s.parts, parts := s.parts + 1,
             room := cap - x.rows }

/-- A slice is handled where it is.  The transformer of the node sends it to the store, too (importer.cpp:291-311). -/
def State.move (cap : Nat) (s : State) (i : Nat) (x : Slice) : State :=
  match x.pos with
  | .hop n =>
    if n < 3 then { s with slices := s.slices.set i { x with pos := .hop (n + 1), sent := x.sent || decide (n = 2) } }
    else s.toPartition cap i x
  | .partition => { s with slices := s.slices.set i { x with pos := .indexers } }
  | .indexers => { s with slices := s.slices.set i { x with pos := .indexed } }
  | .indexed => s

/-- One event; one that is not possible has no effect. -/
def step (cap : Nat) (s : State) : Event → State
  | .push own rows =>
    if own = true ∧ s.sub ≠ .idle then s else { s with slices := s.slices ++ [{ own := own, rows := rows }] }
  | .move i => match s.slices[i]? with
    | some x => s.move cap i x
    | none => s
  | .store i => match s.slices[i]? with
    | some x => if x.sent then { s with slices := s.slices.set i { x with stored := true } } else s
    | none => s
  | .ackIndex i => match s.slices[i]? with
    | some x => if x.handled then { s with slices := s.slices.set i { x with ackIndex := true } }.checkIndex else s
    | none => s
  | .ackPart i => match s.slices[i]? with
    | some x =>
      if x.pos = .indexed then { s with slices := s.slices.set i { x with ackPart := true } }.checkPart x.part else s
    | none => s
  -- import_command.cpp:95-103
  | .ended => if s.sub = .idle then { s with sub := .importer } else s
  -- importer.cpp:327-332
  | .forward => if s.sub = .importer then { s with sub := .index } else s
  -- index.cpp:308-312
  | .subscribe => if s.sub = .index then { s with sub := .waiting }.checkIndex else s
  -- partition.cpp:65-69
  | .listen => match s.sub with
    | .mail p => { s with sub := .listening p }.checkPart p
    | _ => s

/-- One event after the other. -/
def runFrom (cap : Nat) (s : State) (es : List Event) : State := es.foldl (step cap) s

/-- From the start of the node. -/
def run (cap : Nat) (es : List Event) : State := runFrom cap {} es

end Verif.Blocking
