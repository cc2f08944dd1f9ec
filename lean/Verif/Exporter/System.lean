import Verif.Exporter.Model

/-! # The exporter and the query processor, together with the index, for one query

The index is reduced to what C35 proves about it: a request for `n` partitions takes `min n remaining` candidates, all of which
are evaluated (partitions that cannot be loaded are left out), a query without remaining candidates is forgotten and further
requests are answered with `done` at once, and a request for zero partitions drops the query. A batch of partitions ends with a
single `done` (C40). Batches end in any order, and requests are handled in any order, because the index skips those for which
there is no worker. -/

namespace Verif.Exporter

/-- The index, for one query. `remaining`: candidates not yet scheduled; `running`: the sizes of the batches under way;
    `evaluated`: partitions whose batch is finished. -/
structure Index where
  remaining : Nat
  running : List Nat
  evaluated : Nat
deriving DecidableEq, Repr

/-- A request for partitions; returns whether `done` is sent at once. (`index.cpp` 859-897) -/
def Index.request (x : Index) (n : Nat) : Index × Bool :=
  if n = 0 then ({ x with remaining := 0 }, false)
  else if x.remaining = 0 then (x, true)
  else ({ x with remaining := x.remaining - min n x.remaining, running := x.running ++ [min n x.remaining] }, false)

/-- The end of a batch, after which the supervisor sends `done`. (`query_supervisor.cpp`) -/
def Index.finish (x : Index) (i : Nat) : Index × Bool :=
  match x.running[i]? with
  | none => (x, false)
  | some n => ({ x with running := x.running.eraseIdx i, evaluated := x.evaluated + n }, true)

/-! ### The exporter -/

/-- The system. `requests`: requests under way to the index; `dones`: `done` messages under way to the exporter; `answered`:
    whether the exporter got the response. As the index responds before it schedules the first batch, no `done` overtakes the
    response. -/
structure System where
  exporter : State
  index : Index
  requests : List Nat
  dones : Nat
  answered : Bool
deriving DecidableEq, Repr

/-- After the index has found the candidates and delegated the first request to itself. (`index.cpp` 840-850) -/
def begin (continuous : Bool) (total taste : Nat) : System := ⟨start true continuous, ⟨total, [], 0⟩, [min total taste], 0, false⟩

inductive Move
  | response
  | extractAll
  | extract (n : Nat)
  | slice (x : List Nat)
  | done
  | index (i : Nat)
  | finish (i : Nat)
deriving DecidableEq, Repr

def requestsOf : List Out → List Nat
  | [] => []
  | .request n :: os => n :: requestsOf os
  | .ship _ :: os => requestsOf os

/-- The exporter handles a message. -/
def System.handle (s : System) (e : Ev) : System :=
  { s with exporter := (step s.exporter e).1, requests := s.requests ++ requestsOf (step s.exporter e).2 }

/-- One step of the system. -/
def System.move (total taste : Nat) (s : System) : Move → System
  | .response => if s.answered then s else { s.handle (.response total (min total taste)) with answered := true }
  | .extractAll => s.handle .extractAll
  | .extract n => s.handle (.extract n)
  | .slice x => s.handle (.slice x)
  | .done => if s.answered = true ∧ s.dones > 0 then { s.handle .done with dones := s.dones - 1 } else s
  | .index i =>
    match s.requests[i]? with
    | none => s
    | some n => { s with requests := s.requests.eraseIdx i, index := (s.index.request n).1, dones := s.dones + if (s.index.request n).2 then 1 else 0 }
  | .finish i => { s with index := (s.index.finish i).1, dones := s.dones + if (s.index.finish i).2 then 1 else 0 }

def System.moves (total taste : Nat) (s : System) (ms : List Move) : System := ms.foldl (System.move total taste) s

/-! ### The query processor, with the counter -/

/-- `finished`: the processor is idle again; the counter has told its client. (`query_processor.hpp` 150-156) -/
structure Processor where
  received : Nat
  scheduled : Nat
  total : Nat
  finished : Bool
deriving DecidableEq, Repr

/-- `done`, with `process_done` and `request_more_results`; a subclass may block the message for a while, which leaves it in
    the mailbox. Returns the request to the index. (`query_processor.cpp` 42-48, 61-73, 85-88; `counter.cpp` 48-53) -/
def Processor.onDone (p : Processor) : Processor × List Nat :=
  if min (p.total - (p.received + p.scheduled)) p.scheduled = 0 then ({ p with received := p.received + p.scheduled, finished := true }, [])
  else ({ p with received := p.received + p.scheduled, scheduled := min (p.total - (p.received + p.scheduled)) p.scheduled },
    [min (p.total - (p.received + p.scheduled)) p.scheduled])

structure PSystem where
  processor : Option Processor
  index : Index
  requests : List Nat
  dones : Nat
deriving DecidableEq, Repr

/-- With candidates, as `begin`; without, the index sends `done` itself. (`index.cpp` 796-799, 830-850) -/
def pbegin (total taste : Nat) : PSystem :=
  if total = 0 then ⟨none, ⟨0, [], 0⟩, [], 1⟩ else ⟨none, ⟨total, [], 0⟩, [min total taste], 0⟩

inductive PMove
  | response
  | done
  | index (i : Nat)
  | finish (i : Nat)
deriving DecidableEq, Repr

def PSystem.move (total taste : Nat) (s : PSystem) : PMove → PSystem
  | .response =>
    match s.processor with
    | none => { s with processor := some ⟨0, min total taste, total, false⟩ }
    | some _ => s
  | .done =>
    match s.processor with
    | none => s
    | some p =>
      if s.dones > 0 ∧ p.finished = false then
        { s with processor := some p.onDone.1, requests := s.requests ++ p.onDone.2, dones := s.dones - 1 }
      else s
  | .index i =>
    match s.requests[i]? with
    | none => s
    | some n => { s with requests := s.requests.eraseIdx i, index := (s.index.request n).1, dones := s.dones + if (s.index.request n).2 then 1 else 0 }
  | .finish i => { s with index := (s.index.finish i).1, dones := s.dones + if (s.index.finish i).2 then 1 else 0 }

def PSystem.moves (total taste : Nat) (s : PSystem) (ms : List PMove) : PSystem := ms.foldl (PSystem.move total taste) s

end Verif.Exporter
