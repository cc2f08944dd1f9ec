/-! # The disk monitor (`libvast/src/system/disk_monitor.cpp`) -/

namespace Verif.DiskMonitor

/-- A partition on disk. (`disk_monitor.cpp` 32-36) -/
structure Part where
  id : Nat
  size : Nat
  mtime : Nat
deriving DecidableEq, Repr

/-- (`disk_monitor.hpp` 22-36) -/
structure Config where
  high : Nat
  low : Nat
  stepSize : Nat
deriving DecidableEq, Repr

/-- `validate`, without the scan binary. (`disk_monitor.cpp` 45-69) -/
def Config.valid (c : Config) : Bool := !(c.stepSize < 1) && !(c.low > c.high)

/-- The monitor, the disk, and the messages under way.
    * `disk`: the partitions on disk; `other`: the size of everything else in the directory
    * `erases`: `erase` messages of the monitor to itself
    * `requests`: erasures requested from the index, with the number of the run of the `erase` handler they belong to
    * `replies`: answers of the index that are not handled yet: the run, and whether the partition was erased
    * `runs`: how many runs of the `erase` handler there were -/
structure State where
  disk : List Part
  other : Nat
  purging : Bool
  erases : Nat
  requests : List (Nat × Nat)
  replies : List (Nat × Bool)
  runs : Nat
deriving DecidableEq, Repr

def start (disk : List Part) (other : Nat) : State := ⟨disk, other, false, 0, [], [], 0⟩

/-- `compute_dbdir_size`. (`disk_monitor.cpp` 71-91) -/
def size (s : State) : Nat := s.other + (s.disk.map (·.size)).sum

/-- The handler of `ping`; `scanned` is false if the size cannot be computed. (`disk_monitor.cpp` 109-143) -/
def onPing (c : Config) (s : State) (scanned : Bool) : State :=
  if s.purging then s
  else if scanned = false then s
  else if size s > c.high then { s with purging := true, erases := s.erases + 1 }
  else s

/-- Sorted by age, as by `std::sort`, which leaves the order of equally old partitions open. -/
def sortedBy (ps : List Part) : Bool :=
  match ps with
  | [] => true
  | [_] => true
  | p :: q :: ps => decide (p.mtime ≤ q.mtime) && sortedBy (q :: ps)

/-- The handler of `erase`. `order` is the directory sorted by age; `none` if the directory cannot be listed. Files whose size
    or age cannot be determined are not modelled. Without requests, the guard is destroyed at once. (`disk_monitor.cpp` 144-219) -/
def onErase (c : Config) (s : State) : Option (List Part) → State
  | none => { s with erases := s.erases - 1, purging := false, runs := s.runs + 1 }
  | some [] => { s with erases := s.erases - 1, purging := false, runs := s.runs + 1 }
  | some (p :: ps) =>
    { s with
      erases := s.erases - 1
      requests := s.requests ++ ((p :: ps).take (min (p :: ps).length c.stepSize)).map fun x => (x.id, s.runs)
      runs := s.runs + 1 }

/-- The guard of a run is destroyed with its last continuation. (`disk_monitor.cpp` 147-148, 200, 214) -/
def release (s : State) (run : Nat) : State :=
  if (s.requests.map (·.2)).contains run || (s.replies.map (·.1)).contains run then s else { s with purging := false }

/-- The continuations of a request to the index. (`disk_monitor.cpp` 199-216) -/
def onReply (c : Config) (s : State) (run : Nat) (erased scanned : Bool) : State :=
  release (if erased = true ∧ scanned = true ∧ size s > c.low then { s with erases := s.erases + 1 } else s) run

/-- What happens.
    * `ping`, `erase`, `reply`: the monitor handles a message
    * `index i ok`: the index handles the request at position `i`; it erases the partition, or fails
    * `grow p`, `growOther n`: data is written -/
inductive Ev
  | ping (scanned : Bool)
  | erase (order : Option (List Part))
  | reply (i : Nat) (scanned : Bool)
  | index (i : Nat) (ok : Bool)
  | grow (p : Part)
  | growOther (n : Nat)
deriving DecidableEq, Repr

def step (c : Config) (s : State) : Ev → State
  | .ping scanned => onPing c s scanned
  | .erase order =>
    if s.erases = 0 then s
    else
      match order with
      | none => onErase c s none
      | some ps => if ps.isPerm s.disk && sortedBy ps then onErase c s (some ps) else s
  | .reply i scanned =>
    match s.replies[i]? with
    | none => s
    | some (run, erased) => onReply c { s with replies := s.replies.eraseIdx i } run erased scanned
  | .index i ok =>
    match s.requests[i]? with
    | none => s
    | some (id, run) =>
      { s with
        requests := s.requests.eraseIdx i
        replies := s.replies ++ [(run, ok)]
        disk := if ok then s.disk.filter (·.id != id) else s.disk }
  | .grow p => { s with disk := s.disk ++ [p] }
  | .growOther n => { s with other := s.other + n }

def run (c : Config) (s : State) (es : List Ev) : State := es.foldl (step c) s

end Verif.DiskMonitor
