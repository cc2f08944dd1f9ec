/-! # Query processors: how a client works through the partitions of a query

libvast/src/system/query_processor.cpp with the counter (counter.cpp, count_command.cpp) and the eraser (eraser.cpp), and
the part of the index that answers them (index.cpp:497-546, 773-897). A message that the current behavior of an actor
does not handle is dropped: the header says that the constructor calls `set_default_handler(caf::skip)`
(query_processor.hpp:82), but it does not.

The index answers from one actor after the other: the response with the query ID is in the mailbox of the client before
anything a partition sends, and the counts of a batch are there before its `done`, which the query supervisor sends after
the last partition has replied (C40). The counts of a batch come in any order. -/

namespace Verif.Processor

/-- query_processor.hpp:72-76 -/
inductive Phase where
  | idle | awaitId | awaitDone
deriving DecidableEq, Repr

/-- The messages to a query processor: `atom::run`, the response of the index with the numbers of partitions, `atom::done`,
    and a number of results. The ID of the query is left out. -/
inductive Msg where
  | run
  | reply (total scheduled : Nat)
  | done
  | count (n : Nat)
deriving DecidableEq, Repr

/-- What the processor sends: the query or a request for more partitions to the index; a number or `done` to the client. -/
inductive Out where
  | query
  | more (n : Nat)
  | client (n : Nat)
  | clientDone
deriving DecidableEq, Repr

/-- query_processor.hpp:136-165 -/
structure Processor where
  phase : Phase := .idle
  received : Nat := 0
  scheduled : Nat := 0
  total : Nat := 0
  quit : Bool := false
deriving DecidableEq, Repr

/-- query_processor.cpp:59-72 `request_more_results`: the number of partitions to ask for, zero if there are none left.
    The subtraction is one of unsigned numbers; `none` is an underflow or the failing assertion (62). -/
def nextBatch (p : Processor) : Option Nat :=
  if p.total < p.received then none
  else
    let n := min (p.total - p.received) p.scheduled
    if p.received + n ≤ p.total then some n else none

/-- counter.cpp:25-56 with query_processor.cpp:24-48: the counter gets a message. `none` is a failing assertion. -/
def counter (p : Processor) (m : Msg) : Option (Processor × List Out) :=
  if p.quit then some (p, [])
  else match p.phase, m with
    | .idle, .run => some ({ p with phase := .awaitId }, [.query])
    | .awaitId, .reply total scheduled =>
      if scheduled ≤ total then
        some ({ p with phase := .awaitDone, received := 0, scheduled := scheduled, total := total }, [])
      else none
    | .awaitDone, .done =>
      let p := { p with received := p.received + p.scheduled }
      (nextBatch p).map fun n =>
        if n = 0 then ({ p with quit := true }, [.clientDone]) else ({ p with scheduled := n }, [.more n])
    | .awaitDone, .count n => some (p, [.client n])
    | _, _ => some (p, [])

/-! ### The index -/

/-- A candidate partition: the counts that it sends, or nothing if it cannot be loaded any more. A partition that fails
    sends none. -/
abbrev Candidate := Option (List Nat)

/-- index.cpp:533-542 in `collect_query_actors`: the next partitions, and the candidates that are left. -/
def collect : Nat → List Candidate → List (List Nat) × List Candidate
  | 0, ps => ([], ps)
  | _ + 1, [] => ([], [])
  | n + 1, none :: ps => collect (n + 1) ps
  | n + 1, some c :: ps => (c :: (collect n ps).1, (collect n ps).2)

/-- index.cpp:860-897: a request for partitions. `pending` is the entry for the query. The relation gives the messages
    that will arrive at the processor and the new entry. Candidates may change their order (512). The query is delayed
    until a worker is there (882); a worker returns after each batch (C40). -/
inductive Serves : Option (List Candidate) → Nat → List Msg → Option (List Candidate) → Prop where
  | drop (pending) : Serves pending 0 [] none
  | unknown (n) (h : n ≠ 0) : Serves none n [.done] none
  | batch (n) (ps ps' : List Candidate) (order : List Nat) (h : n ≠ 0) (hp : ps'.Perm ps)
      (ho : order.Perm (collect n ps').1.flatten) :
      Serves (some ps) n (order.map .count ++ [.done])
        (if (collect n ps').2.isEmpty then none else some (collect n ps').2)

/-- The client (count_command.cpp:80-88) with the counter, the mailbox of the counter and the entry of the query. -/
structure System where
  processor : Processor
  mail : List Msg
  pending : Option (List Candidate)
  result : Nat
  finished : Bool

/-- The counter handles what it has sent: index.cpp:773-859 for the query. -/
inductive Sends (taste : Nat) (candidates : List Candidate) : System → List Out → System → Prop where
  | nothing (s) : Sends taste candidates s [] s
  | client (s n) : Sends taste candidates s [.client n] { s with result := s.result + n }
  | done (s) : Sends taste candidates s [.clientDone] { s with finished := true }
  | none (s) (h : candidates = []) : Sends taste candidates s [.query] { s with mail := s.mail ++ [.reply 0 0, .done] }
  | query (s msgs pending) (h : candidates ≠ [])
      (hs : Serves (some candidates) (min candidates.length taste) msgs pending) :
      Sends taste candidates s [.query] { s with
        mail := s.mail ++ .reply candidates.length (min candidates.length taste) :: msgs, pending := pending }
  | more (s n msgs pending) (hs : Serves s.pending n msgs pending) :
      Sends taste candidates s [.more n] { s with mail := s.mail ++ msgs, pending := pending }

/-- The counter handles the first message in its mailbox. -/
inductive Step (taste : Nat) (candidates : List Candidate) : System → System → Prop where
  | handle (s s' : System) (m : Msg) (rest : List Msg) (p : Processor) (outs : List Out) (hm : s.mail = m :: rest)
      (hp : counter s.processor m = some (p, outs))
      (hs : Sends taste candidates { s with mail := rest, processor := p } outs s') : Step taste candidates s s'

/-- The counter when the client has sent `run` (count_command.cpp:79). -/
def initial : System := ⟨{}, [.run], none, 0, false⟩

/-- Executions of a number of steps. -/
inductive Steps (taste : Nat) (candidates : List Candidate) : Nat → System → System → Prop where
  | refl (s) : Steps taste candidates 0 s s
  | step {n s s' s''} (h : Steps taste candidates n s s') (h' : Step taste candidates s' s'') : Steps taste candidates (n + 1) s s''

/-! ### The eraser -/

/-- eraser.cpp:24-66: the processor, whether a promise is pending, and how many `run` messages to itself are on their way.
    `valid` says whether the query can be parsed and normalized. -/
structure Eraser where
  processor : Processor := {}
  valid : Bool := true
  promise : Bool := false
  timers : Nat := 0
deriving DecidableEq, Repr

/-- Messages to the eraser: its own timer, `run` from another actor, and the messages of the index. -/
inductive EraserMsg where
  | timer
  | trigger
  | reply (total scheduled : Nat)
  | done
deriving DecidableEq, Repr

/-- What the eraser sends: the query or a request to the index, an answer to the one who has triggered it. -/
inductive EraserOut where
  | query
  | more (n : Nat)
  | answer
deriving DecidableEq, Repr

/-- eraser.cpp:56-66: back to the idle state. -/
def Eraser.rest (e : Eraser) : Eraser × List EraserOut :=
  let e := { e with processor := { e.processor with phase := .idle } }
  if e.promise then ({ e with promise := false }, [.answer]) else ({ e with timers := e.timers + 1 }, [])

/-- eraser.cpp:28-54, 68-75: the eraser starts. -/
def Eraser.start (valid : Bool) : Eraser := ({ valid := valid } : Eraser).rest.1

/-- eraser.cpp:37-51: a `run` in the idle state. -/
def Eraser.cycle (e : Eraser) : Eraser × List EraserOut :=
  if e.valid then ({ e with processor := { e.processor with phase := .awaitId } }, [.query]) else (e, [])

/-- The eraser gets a message. `none` is a failing assertion. A timer is consumed in any case. -/
def Eraser.handle (e : Eraser) (m : EraserMsg) : Option (Eraser × List EraserOut) :=
  match m with
  | .timer =>
    let e := { e with timers := e.timers - 1 }
    if e.processor.phase = .idle then some e.cycle else some (e, [])
  | .trigger => if e.processor.phase = .idle then some { e with promise := true }.cycle else some (e, [])
  | .reply total scheduled =>
    if e.processor.phase = .awaitId then
      if scheduled ≤ total then
        some ({ e with processor := { e.processor with phase := .awaitDone, received := 0, scheduled := scheduled, total := total } }, [])
      else none
    else some (e, [])
  | .done =>
    if e.processor.phase = .awaitDone then
      let p := { e.processor with received := e.processor.received + e.processor.scheduled }
      (nextBatch p).map fun n =>
        if n = 0 then { e with processor := p }.rest else ({ e with processor := { p with scheduled := n } }, [.more n])
    else some (e, [])

/-- The eraser after messages, and what it has sent. -/
def Eraser.run : Eraser → List EraserMsg → Option (Eraser × List EraserOut)
  | e, [] => some (e, [])
  | e, m :: ms => (e.handle m).bind fun r => (Eraser.run r.1 ms).map fun r' => (r'.1, r.2 ++ r'.2)

end Verif.Processor
