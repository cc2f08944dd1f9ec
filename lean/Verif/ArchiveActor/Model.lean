/-! # The request queue of the archive (`libvast/src/system/archive.cpp`)

Queries and sinks are numbers; the sink is a part of the query (`sinkOf`). Promises are numbers. What a lookup in the segment
store yields for a promise is given by `plan`, an arbitrary finite list, so that the store may change meanwhile. The results
that are sent to the sinks are left out. -/

namespace Verif.ArchiveActor

/-- What the next call of `session->next()` yields: a slice, a slice for which the expression cannot be tailored, or an error.
    The end of the list stands for the end of the session. -/
inductive Item
  | slice
  | untailored
  | error
deriving DecidableEq, Repr

inductive Answer
  | done
  | error
deriving DecidableEq, Repr

/-- (`archive.hpp`, `request_state`) -/
structure Request where
  query : Nat
  queue : List Nat
  cancelled : Bool
deriving DecidableEq, Repr

/-- The state. `active`: the active promise, `none` after it was delivered; `resumes`: `resume` messages in the mailbox;
    `answers`: the answers that were delivered; `bad`: an assertion was violated. -/
structure State where
  requests : List Request
  session : Option (List Item)
  active : Option Nat
  resumes : Nat
  answers : List (Nat × Answer)
  bad : Bool
deriving DecidableEq, Repr

def start : State := ⟨[], none, none, 0, [], false⟩

/-- The loop of `next_session`: returns the remaining requests, the promise to work on, and those answered with `done`.
    (`archive.cpp` 52-69) -/
def nextLoop : List Request → List Request × Option Nat × List Nat
  | [] => ([], none, [])
  | r :: rs =>
    if r.cancelled then ((nextLoop rs).1, (nextLoop rs).2.1, r.queue ++ (nextLoop rs).2.2)
    else
      match r.queue with
      | [] => nextLoop rs
      | p :: ps => ({ r with queue := ps } :: rs, some p, [])

/-- `session = next_session()`. (`archive.cpp` 51-72) -/
def nextSession (plan : Nat → List Item) (s : State) : State :=
  { s with
    requests := (nextLoop s.requests).1
    session := (nextLoop s.requests).2.1.map plan
    active := if (nextLoop s.requests).2.1.isSome then (nextLoop s.requests).2.1 else s.active
    answers := s.answers ++ (nextLoop s.requests).2.2.map fun p => (p, .done) }

/-- Delivering the active promise. That delivering it again has no effect is an assumption about CAF, which is not part of the
    repository. -/
def deliver (s : State) (a : Answer) : State :=
  match s.active with
  | none => s
  | some p => { s with active := none, answers := s.answers ++ [(p, a)] }

/-- Adds a promise to the first request with the query, as far as it is not cancelled. `none` if there is no such request.
    (`archive.cpp` 77-89) -/
def enqueue (q p : Nat) : List Request → Option (List Request × Bool)
  | [] => none
  | r :: rs =>
    if r.query = q then
      if r.cancelled then some (r :: rs, false) else some ({ r with queue := r.queue ++ [p] } :: rs, true)
    else (enqueue q p rs).map fun x => (r :: x.1, x.2)

/-- Starts a session if there is none. (`archive.cpp` 103-108) -/
def wake (plan : Nat → List Item) (s : State) : State :=
  match s.session with
  | some _ => s
  | none =>
    match (nextSession plan s).session with
    | none => { nextSession plan s with bad := true }
    | some _ => { nextSession plan s with resumes := (nextSession plan s).resumes + 1 }

/-- `file_request`. (`archive.cpp` 74-110) -/
def fileRequest (plan : Nat → List Item) (s : State) (q p : Nat) : State :=
  match enqueue q p s.requests with
  | some (_, false) => { s with answers := s.answers ++ [(p, .done)] }
  | some (rs, true) => wake plan { s with requests := rs }
  | none => wake plan { s with requests := s.requests ++ [⟨q, [p], false⟩] }

/-- Marks the first request with the sink as cancelled. (`archive.cpp` 131-153) -/
def cancel (sinkOf : Nat → Nat) (sink : Nat) : List Request → List Request
  | [] => []
  | r :: rs => if sinkOf r.query = sink then { r with cancelled := true } :: rs else r :: cancel sinkOf sink rs

/-- Marks the front request as cancelled. (`archive.cpp` 185) -/
def cancelFront : List Request → List Request
  | [] => []
  | r :: rs => { r with cancelled := true } :: rs

/-- The rest of the `resume` handler, with a session. (`archive.cpp` 176-239) -/
def work (plan : Nat → List Item) (s : State) (items : List Item) : State :=
  match items with
  | .slice :: rest => { s with session := some rest, resumes := s.resumes + 1 }
  | .untailored :: rest => { deliver { s with requests := cancelFront s.requests, session := some rest } .error with resumes := s.resumes + 1 }
  | .error :: _ =>
    if (nextSession plan (deliver s .error)).session.isSome then
      { nextSession plan (deliver s .error) with resumes := (nextSession plan (deliver s .error)).resumes + 1 }
    else nextSession plan (deliver s .error)
  | [] =>
    if (nextSession plan (deliver s .done)).session.isSome then
      { nextSession plan (deliver s .done) with resumes := (nextSession plan (deliver s .done)).resumes + 1 }
    else nextSession plan (deliver s .done)

/-- The handler of `resume`. (`archive.cpp` 166-240) -/
def resume (plan : Nat → List Item) (s : State) : State :=
  match s.session, s.requests with
  | some items, r :: _ =>
    if r.cancelled then
      match (nextSession plan (deliver s .done)).session with
      | none => nextSession plan (deliver s .done)
      | some items' => work plan (nextSession plan (deliver s .done)) items'
    else work plan s items
  | _, _ => { s with bad := true }

inductive Ev
  | request (q p : Nat)
  | erase (p : Nat)
  | down (sink : Nat)
  | resume
deriving DecidableEq, Repr

/-- Handling a message. A request to erase is answered at once (lines 158-163). A `resume` is handled if there is one. -/
def step (plan : Nat → List Item) (sinkOf : Nat → Nat) (s : State) : Ev → State
  | .request q p => fileRequest plan s q p
  | .erase p => { s with answers := s.answers ++ [(p, .done)] }
  | .down sink => { s with requests := cancel sinkOf sink s.requests }
  | .resume => if s.resumes = 0 then s else resume plan { s with resumes := s.resumes - 1 }

def run (plan : Nat → List Item) (sinkOf : Nat → Nat) (s : State) (es : List Ev) : State := es.foldl (step plan sinkOf) s

end Verif.ArchiveActor
