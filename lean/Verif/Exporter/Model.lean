/-! # The exporter (`libvast/src/system/exporter.cpp`) and the query processor (`libvast/src/system/query_processor.cpp`)

Slices are lists of events, events are numbers. The counters `cached`, `shipped`, `received`, `expected` and `scheduled` are
unbounded; `requested` wraps as in the code. Transformations of shipped slices, statistics and logging are left out. -/

namespace Verif.Exporter

/-- `max_events` is `max_id + 1`, where `max_id` is the greatest 64-bit number minus one. (`aliases.hpp` 34-41) -/
def maxEvents : Nat := 2 ^ 64 - 1

/-- The state (`query_status.hpp`, `exporter.hpp`). `stopping`: an exit message to itself is under way. `bad`: an assertion was
    violated. -/
structure State where
  historical : Bool
  continuous : Bool
  results : List (List Nat)
  requested : Nat
  cached : Nat
  shipped : Nat
  expected : Nat
  received : Nat
  scheduled : Nat
  stopping : Bool
  bad : Bool
deriving DecidableEq, Repr

def start (historical continuous : Bool) : State := ⟨historical, continuous, [], 0, 0, 0, 0, 0, 0, false, false⟩

/-- A slice for the sink, or a request for more partitions to the index. -/
inductive Out
  | ship (slice : List Nat)
  | request (n : Nat)
deriving DecidableEq, Repr

/-- The loop of `ship_results`, on the results, the requested and the cached events: returns the remaining ones, the shipped
    slices, and whether the assertion of line 43 was violated. (`exporter.cpp` 42-67) -/
def shipLoop : List (List Nat) → Nat → Nat → List (List Nat) × Nat × Nat × List (List Nat) × Bool
  | [], requested, cached => ([], requested, cached, [], requested > 0 ∧ cached > 0)
  | x :: xs, requested, cached =>
    if requested > 0 ∧ cached > 0 then
      if x.length ≤ requested then
        match shipLoop xs (requested - x.length) (cached - x.length) with
        | (xs', r, c, out, bad) => (xs', r, c, x :: out, bad)
      else (x.drop requested :: xs, 0, cached - requested, [x.take requested], false)
    else (x :: xs, requested, cached, [], false)

/-- `ship_results`. (`exporter.cpp` 38-68) -/
def shipResults (s : State) : State × List Out :=
  match shipLoop s.results s.requested s.cached with
  | (xs, r, c, out, bad) =>
    ({ s with results := xs, requested := r, cached := c, shipped := s.shipped + (out.map List.length).sum, bad := s.bad || bad },
      out.map Out.ship)

/-- `shutdown` without an error. (`exporter.cpp` 99-104) -/
def shutdown (s : State) : State := if s.continuous then s else { s with stopping := true }

/-- `request_more_hits`. The assertion of line 129 is recorded. (`exporter.cpp` 106-140) -/
def requestMore (s : State) : State × List Out :=
  if s.historical = false then (s, [])
  else if s.requested = 0 then (s, [])
  else if s.received = s.expected then (s, [])
  else if s.received < s.expected then
    ({ s with scheduled := min (s.expected - s.received) 2 }, [.request (min (s.expected - s.received) 2)])
  else ({ s with bad := true }, [])

/-- Sequencing. -/
def andThen (a : State × List Out) (f : State → State × List Out) : State × List Out := ((f a.1).1, a.2 ++ (f a.1).2)

/-- `extract` without a number. (`exporter.cpp` 206-218) -/
def onExtractAll (s : State) : State × List Out :=
  if s.requested = maxEvents then (s, [])
  else andThen (shipResults { s with requested := maxEvents }) requestMore

/-- `extract` with a number. (`exporter.cpp` 219-239) -/
def onExtract (s : State) (n : Nat) : State × List Out :=
  if n = 0 then (s, [])
  else if s.requested = maxEvents then (s, [])
  else andThen (shipResults { s with requested := (s.requested + min (maxEvents - n) n) % 2 ^ 64 }) requestMore

/-- A slice with results. (`exporter.cpp` 329-337) -/
def onSlice (s : State) (x : List Nat) : State × List Out :=
  shipResults { s with cached := s.cached + x.length, results := s.results ++ [x] }

/-- `handle_batch` for a slice of a continuous query: `none` if the expression cannot be tailored, otherwise the slices that
    `select` makes of the rows that satisfy the expression (C28). (`exporter.cpp` 142-174) -/
def onBatch (s : State) : Option (List (List Nat)) → State × List Out
  | none => (shutdown (shipResults s).1, (shipResults s).2)
  | some xs =>
    if (xs.map List.length).sum = 0 then (s, [])
    else shipResults { s with cached := s.cached + (xs.map List.length).sum, results := s.results ++ xs }

/-- The response of the index to the query. (`exporter.cpp` 273-284) -/
def onResponse (s : State) (partitions scheduled : Nat) : State :=
  if partitions > 0 then { s with expected := partitions, scheduled := scheduled } else shutdown s

/-- `done`. (`exporter.cpp` 338-357) -/
def onDone (s : State) : State × List Out :=
  if s.received + s.scheduled < s.expected then requestMore { s with received := s.received + s.scheduled }
  else (shutdown { s with received := s.received + s.scheduled }, [])

inductive Ev
  | extractAll
  | extract (n : Nat)
  | slice (x : List Nat)
  | batch (xs : Option (List (List Nat)))
  | response (partitions scheduled : Nat)
  | done
deriving DecidableEq, Repr

def step (s : State) : Ev → State × List Out
  | .extractAll => onExtractAll s
  | .extract n => onExtract s n
  | .slice x => onSlice s x
  | .batch xs => onBatch s xs
  | .response p n => (onResponse s p n, [])
  | .done => onDone s

def run (s : State) : List Ev → State × List Out
  | [] => (s, [])
  | e :: es => andThen (step s e) fun t => run t es

end Verif.Exporter
