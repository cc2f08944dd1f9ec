/-! # The query supervisor (`libvast/src/system/query_supervisor.cpp`)

The supervisor is an actor: it handles one message at a time and its only effects are the messages that it sends. -/

namespace Verif.Supervisor

/-- The messages that the supervisor sends.
    * `request i p`: request number `i`, the query, to the partition `p` (line 62)
    * `done c`: `atom::done` to the client `c` (lines 54, 74 and 84)
    * `worker`: `atom::worker` to the master (lines 44, 55, 75 and 85) -/
inductive Out
  | request (number : Nat) (partition : Nat)
  | done (client : Nat)
  | worker
deriving DecidableEq, Repr

/-- The state (`query_supervisor.hpp` 28-42): the counter, and the response handlers that wait for their reply, with the
    client that each has captured. The handlers are kept by the actor framework; a handler runs for the reply to its
    request and is then removed. `numbers` numbers the requests. -/
structure State where
  openRequests : Nat
  handlers : List (Nat × Nat)
  numbers : Nat
deriving DecidableEq, Repr

/-- The constructor and line 44: the supervisor offers itself to the master. (`query_supervisor.cpp` 34-44) -/
def start : State × List Out := (⟨0, [], 0⟩, [.worker])

/-- The loop of the query handler. (`query_supervisor.cpp` 59-88) -/
def sendRequests (client : Nat) : List Nat → State → State × List Out
  | [], s => (s, [])
  | p :: ps, s =>
    let r := sendRequests client ps { openRequests := s.openRequests + 1, handlers := s.handlers ++ [(s.numbers, client)], numbers := s.numbers + 1 }
    (r.1, .request s.numbers p :: r.2)

/-- The handler for a query. The assertion in line 58 is not modelled: `C40_idle_between` shows that it holds.
    (`query_supervisor.cpp` 46-89) -/
def onQuery (s : State) (partitions : List Nat) (client : Nat) : State × List Out :=
  match partitions with
  | [] => (s, [.done client, .worker])
  | _ :: _ => sendRequests client partitions s

/-- What both response handlers do, for `atom::done` (lines 64-77) as well as for an error (lines 78-87): the result of the
    partition makes no difference. The counter is unsigned; it is at least one as there are as many handlers.
    (`query_supervisor.cpp` 64-87) -/
def onReply (s : State) (number : Nat) (_ok : Bool) : State × List Out :=
  match s.handlers.lookup number with
  | none => (s, [])
  | some client =>
    ({ s with openRequests := s.openRequests - 1, handlers := s.handlers.filter (·.1 != number) },
      if s.openRequests - 1 = 0 then [.done client, .worker] else [])

/-- The messages that the supervisor gets. -/
inductive In
  | query (partitions : List Nat) (client : Nat)
  | reply (number : Nat) (ok : Bool)
deriving DecidableEq, Repr

def step (s : State) : In → State × List Out
  | .query ps c => onQuery s ps c
  | .reply n ok => onReply s n ok

/-- Handles messages one after another; what is sent for each. -/
def run (s : State) : List In → State × List (List Out)
  | [] => (s, [])
  | m :: ms =>
    let r := step s m
    let r' := run r.1 ms
    (r'.1, r.2 :: r'.2)

end Verif.Supervisor
