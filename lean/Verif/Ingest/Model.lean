/-! # Routing of table slices to partitions (`libvast/src/system/index.cpp`) -/

namespace Verif.Ingest

/-- What the index looks at of a table slice: its layout's name and the number of rows; `tag` stands for the contents. -/
structure Slice where
  layout : Nat
  rows : Nat
  tag : Nat
deriving DecidableEq, Repr

/-- The state of the stream stage.
    * `active`: the remaining capacity of the active partition (`index.hpp` 56) and the slices that it was sent
    * `closed`: the slices that each partition was sent that is decommissioned, the latest first; the path to such a
      partition is closed
    * `stats`: the number of events per layout (`index.hpp` 79-87)
    * `flushes`: how often `flush_to_disk` was called -/
structure State where
  capacity : Nat
  active : Option (Nat × List Slice)
  closed : List (List Slice)
  stats : Nat → Nat
  flushes : Nat

def start (capacity : Nat) : State := ⟨capacity, none, [], fun _ => 0, 0⟩

/-- `create_active_partition` (the case that the store cannot be created, where the index quits, is not modelled).
    (`index.cpp` 335-380) -/
def createActive (s : State) : State := { s with active := some (s.capacity, []) }

/-- `decomission_active_partition` followed by `flush_to_disk`. Persisting itself is the subject of C35.
    (`index.cpp` 382-391, 689-690) -/
def decommission (s : State) : State :=
  match s.active with
  | none => s
  | some (_, slices) => { s with active := none, closed := slices :: s.closed, flushes := s.flushes + 1 }

/-- Lines 684-692: makes sure that there is an active partition which takes the slice. (`index.cpp` 684-692) -/
def makeRoom (s : State) (x : Slice) : State :=
  match s.active with
  | none => createActive s
  | some (capacity, _) => if x.rows > capacity then createActive (decommission s) else s

/-- Lines 693-703: sends the slice to the active partition and adjusts its capacity. (`index.cpp` 693-703) -/
def push (s : State) (x : Slice) : State :=
  match s.active with
  | none => s
  | some (capacity, slices) =>
    { s with active := some (if capacity = s.capacity ∧ x.rows > capacity then 0 else capacity - x.rows, slices ++ [x]) }

/-- The handler of the stream stage. (`index.cpp` 679-704) -/
def onSlice (s : State) (x : Slice) : State :=
  push (makeRoom { s with stats := fun l => if l = x.layout then s.stats l + x.rows else s.stats l } x) x

/-- Erasing the partition at a position of `closed`: the statistics are adjusted by the events of the partition, as found in
    its `type_ids`, which are the rows it was sent. The subtraction is one of unsigned numbers. (`index.cpp` 944-959) -/
def onErase (s : State) (i : Nat) : State :=
  match s.closed[i]? with
  | none => s
  | some slices =>
    { s with closed := s.closed.eraseIdx i, stats := fun l => s.stats l - ((slices.filter (·.layout == l)).map (·.rows)).sum }

/-- The exit handler: the active partition is decommissioned, and the state flushed. (`index.cpp` 723-752) -/
def onExit (s : State) : State := { decommission s with flushes := s.flushes + 1 }

inductive Ev
  | slice (x : Slice)
  | erase (i : Nat)
deriving DecidableEq, Repr

def step (s : State) : Ev → State
  | .slice x => onSlice s x
  | .erase i => onErase s i

def run (s : State) (es : List Ev) : State := es.foldl step s

end Verif.Ingest
