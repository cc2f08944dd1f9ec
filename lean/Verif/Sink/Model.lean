/-!
The sink of an export (`src/system/sink.cpp`).
-/
namespace Verif.Sink

/-- State (vast/system/sink.hpp:27-38), what was given to the writer and how much of it was flushed, and the end: with an error or
without. -/
structure State (R : Type) where
  processed : Nat
  max : Nat
  written : List R
  flushed : Nat
  over : Option Bool

/-- Messages.  A slice comes with what the output transformations make of it (`none` if one fails; C52), whether the writer takes it,
and whether the flush interval is over. -/
inductive Msg (R : Type) where
  | slice (transformed : Option (List R)) (writes : Bool) (interval : Bool)
  | limit (n : Nat)
  | exit

variable {R : Type}

/-- Start of a sink (sink.cpp:48-65): a limit of 0 stands for no limit. -/
def start (maxEvents : Nat) : State R := ⟨0, if maxEvents > 0 then maxEvents else 2 ^ 64 - 1, [], 0, none⟩

/-- `reached_max_events` (sink.cpp:88-94). -/
def reached (s : State R) : State R := { s with flushed := s.written.length, over := some false }

/-- The handler for slices (sink.cpp:71-120).  `truncate` keeps the first rows (C28).  The difference is one of 64-bit numbers;
`C94_below` shows that it does not wrap.  What a writer that fails has written is not modelled. -/
def onSlice (s : State R) (transformed : Option (List R)) (writes interval : Bool) : State R :=
  match transformed with
  | none => s
  | some xs =>
    let remaining := (s.max + 2 ^ 64 - s.processed) % 2 ^ 64
    if remaining = 0 then reached s
    else
      let ys := if xs.length > remaining then xs.take remaining else xs
      if writes = false then { s with over := some true }
      else
        let s := { s with written := s.written ++ ys, processed := (s.processed + ys.length) % 2 ^ 64 }
        if s.processed ≥ s.max then reached s
        else if interval then { s with flushed := s.written.length }
        else s

/-- One message (sink.cpp:66-69, 71-128).  After the end there are none.  Reports and the status are left out. -/
def step (s : State R) (m : Msg R) : State R :=
  if s.over.isSome then s
  else match m with
    | .slice t w i => onSlice s t w i
    | .limit n => if s.processed < n then { s with max := n } else s
    | .exit => { s with over := some false }

/-- A history. -/
def run (s : State R) (ms : List (Msg R)) : State R := ms.foldl step s

end Verif.Sink
