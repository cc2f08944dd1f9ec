/-! # Scheduling of queries in the index (`libvast/src/system/index.cpp`)

The index together with the meta index and the messages between both. Messages between the two may be delivered in any
order here (the actor framework keeps the order between two actors, so this allows more schedules than there are).

Partitions, queries, clients and workers are numbered. Which partitions are loaded only determines the order in which
`std::partition` (lines 512-513) arranges the candidates, and that order is not specified further by the standard; a request
therefore comes with an arbitrary new order of the candidates. -/

namespace Verif.Scheduler

/-- Messages to the meta index: `atom::merge` for one partition (lines 406-407) or for all that are on disk (260-261),
    `atom::erase` (919-920) and the lookup for a query (814). -/
inductive MetaMsg
  | merge (id : Nat)
  | mergeAll (ids : List Nat)
  | erase (id : Nat)
  | lookup (query : Nat)
deriving DecidableEq, Repr

/-- The replies of the meta index. -/
inductive MetaReply
  | merged (id : Nat)
  | mergedAll
  | erased (id : Nat)
  | candidates (query : Nat) (ids : List Nat)
deriving DecidableEq, Repr

/-- The index (`index.hpp` 124-265), the meta index, and the messages on their way between them.
    * `active`, `unpersisted`, `persisted`: the partitions (`index.hpp` 191, 199 and 207)
    * `persisting`: the partitions whose reply to `atom::persist` is outstanding (lines 396-397)
    * `used`: the IDs of all partitions so far; `uuid::random` (line 336) is assumed to give new ones
    * `queries`: the numbers of all queries so far
    * `waiting`: the queries whose candidates are being looked up, with the client and the candidates that the handler has
      captured (line 816)
    * `pending`: the queries with candidates that are not yet scheduled (`index.hpp` 227)
    * `idle`: the idle workers (`index.hpp` 230), the last one first -/
structure State where
  accept : Bool
  taste : Nat
  active : Option Nat
  unpersisted : List Nat
  persisted : List Nat
  persisting : List Nat
  used : List Nat
  queries : List Nat
  waiting : List (Nat × Nat × List Nat)
  pending : List (Nat × List Nat)
  idle : List Nat
  metaContents : List Nat
  toMeta : List MetaMsg
  toIndex : List MetaReply
deriving DecidableEq, Repr

/-- What can be observed.
    * `response q c total scheduled`: the index responds to client `c` with the ID of its query (line 849); the query
      ID is the number `q` of the query
    * `noResult q c`: nothing qualifies; the client gets the nil ID and `atom::done` (lines 797-800)
    * `batch w q ids c`: the worker `w` gets the query for these partitions (line 892)
    * `done c`: `atom::done` to a client whose query ID is unknown (line 877)
    * `unknownPartition id`: the error in lines 908-910 -/
inductive Out
  | response (query client total scheduled : Nat)
  | noResult (query client : Nat)
  | batch (worker query : Nat) (ids : List Nat) (client : Nat)
  | done (client : Nat)
  | unknownPartition (id : Nat)
deriving DecidableEq, Repr

/-- A new index. Partitions that were found on disk are sent to the meta index in bulk; the index accepts no queries until
    that is done. (`index.cpp` 190-290 and 642) -/
def start (taste : Nat) (onDisk : Option (List Nat)) : State :=
  match onDisk with
  | none => ⟨true, taste, none, [], [], [], [], [], [], [], [], [], [], []⟩
  | some ids => ⟨false, taste, none, [], ids, [], ids, [], [], [], [], [], [.mergeAll ids], []⟩

/-- `create_active_partition`, which the stream stage calls when there is no active partition or it is full (see C36).
    (`index.cpp` 335-380) -/
def create (s : State) (id : Nat) : State :=
  if s.active = none ∧ id ∉ s.used then { s with active := some id, used := id :: s.used } else s

/-- `decomission_active_partition`: the partition is persisted asynchronously. (`index.cpp` 382-397) -/
def decommission (s : State) : State :=
  match s.active with
  | none => s
  | some id => { s with active := none, unpersisted := id :: s.unpersisted, persisting := id :: s.persisting }

/-- The reply of a partition that has persisted itself. (An error makes the index quit, lines 421-424.)
    (`index.cpp` 398-407) -/
def onPersisted (s : State) (id : Nat) : State :=
  if id ∈ s.persisting then { s with persisting := s.persisting.erase id, toMeta := s.toMeta ++ [.merge id] } else s

/-- The handler for `atom::erase`: the partition must be persisted, or be on disk. (`index.cpp` 898-920) -/
def onErase (s : State) (id : Nat) (fileExists : Bool) : State × List Out :=
  if id ∈ s.persisted ∨ fileExists = true then ({ s with toMeta := s.toMeta ++ [.erase id] }, [])
  else (s, [.unknownPartition id])

/-- The meta index handles a message. Whether the synopsis of a partition may match a query is a parameter (see C21).
    (`meta_index.cpp` 39-45 and 352-372) -/
def onMeta (mayMatch : Nat → Nat → Bool) (s : State) : MetaMsg → State
  | .merge id => { s with metaContents := id :: s.metaContents, toIndex := s.toIndex ++ [.merged id] }
  | .mergeAll ids => { s with metaContents := ids ++ s.metaContents, toIndex := s.toIndex ++ [.mergedAll] }
  | .erase id => { s with metaContents := s.metaContents.filter (· != id), toIndex := s.toIndex ++ [.erased id] }
  | .lookup q => { s with toIndex := s.toIndex ++ [.candidates q (s.metaContents.filter (mayMatch q))] }

/-- Inserts into a sorted list without duplicates; `std::sort` and `std::unique` amount to inserting all.
    (`index.cpp` 822-824) -/
def insertSorted (x : Nat) : List Nat → List Nat
  | [] => [x]
  | y :: ys => if x < y then x :: y :: ys else if x = y then y :: ys else y :: insertSorted x ys

def sortUnique (xs : List Nat) : List Nat := xs.foldr insertSorted []

/-- The handler for the candidates from the meta index. The request for the first partitions that the index delegates to
    itself in the client's name (line 850) is a message like any other; see `onRequest`. (`index.cpp` 816-851) -/
def onCandidates (s : State) (q : Nat) (found : List Nat) : State × List Out :=
  match s.waiting.lookup q with
  | none => (s, [])
  | some (client, snapshot) =>
    match sortUnique (snapshot ++ found) with
    | [] => ({ s with waiting := s.waiting.filter (·.1 != q) }, [.noResult q client])
    | id :: ids =>
      ({ s with waiting := s.waiting.filter (·.1 != q), pending := (q, id :: ids) :: s.pending },
        [.response q client (id :: ids).length (min (id :: ids).length s.taste)])

/-- The index handles a reply of the meta index. (`index.cpp` 263-268, 409-414, 816-851 and 922-926) -/
def onReply (s : State) : MetaReply → State × List Out
  | .merged id => ({ s with unpersisted := s.unpersisted.filter (· != id), persisted := id :: s.persisted }, [])
  | .mergedAll => ({ s with accept := true }, [])
  | .erased id => ({ s with persisted := s.persisted.filter (· != id) }, [])
  | .candidates q ids => onCandidates s q ids

/-- The handler for a query. It is skipped, that is, handled again later, if the index is starting up or has no idle
    worker. `q` identifies the query; it is also used as query ID (lines 836-841), which the code draws at random until it
    is not pending; all query IDs are assumed to be different. (`index.cpp` 773-814) -/
def onQuery (s : State) (q client : Nat) : State :=
  if s.accept = true ∧ s.idle ≠ [] ∧ q ∉ s.queries then
    { s with queries := q :: s.queries, waiting := (q, client, s.active.toList ++ s.unpersisted) :: s.waiting, toMeta := s.toMeta ++ [.lookup q] }
  else s

/-- `spin_up`: whether there is an actor for the partition. (`index.cpp` 515-532) -/
def spinUp (s : State) (id : Nat) : Bool := s.active == some id || s.unpersisted.contains id || s.persisted.contains id

/-- The loop of `collect_query_actors`: the partitions that are scheduled, and the candidates that remain.
    (`index.cpp` 533-545) -/
def collect (spinUp : Nat → Bool) : Nat → List Nat → List Nat × List Nat
  | 0, ids => ([], ids)
  | _ + 1, [] => ([], [])
  | n + 1, id :: ids =>
    if spinUp id then (id :: (collect spinUp n ids).1, (collect spinUp n ids).2)
    else collect spinUp (n + 1) ids

/-- The handler for a request for `n` more partitions. `order` are the candidates in the order into which
    `std::partition` brings them. Without an idle worker the message is skipped. (`index.cpp` 859-897) -/
def onRequest (s : State) (q client n : Nat) (order : List Nat) : State × List Out :=
  if n = 0 then ({ s with pending := s.pending.filter (·.1 != q) }, [])
  else
    match s.pending.lookup q with
    | none => (s, [.done client])
    | some candidates =>
      match s.idle with
      | [] => (s, [])
      | w :: ws =>
        if order.isPerm candidates then
          match (collect (spinUp s) n order).2 with
          | [] => ({ s with idle := ws, pending := s.pending.filter (·.1 != q) }, [.batch w q (collect (spinUp s) n order).1 client])
          | id :: ids => ({ s with idle := ws, pending := (q, id :: ids) :: s.pending.filter (·.1 != q) },
              [.batch w q (collect (spinUp s) n order).1 client])
        else (s, [])

/-- What may happen next. `deliverMeta i` and `deliverIndex i` deliver the message at position `i` of those that are on
    their way. -/
inductive Ev
  | create (id : Nat)
  | decommission
  | persisted (id : Nat)
  | erase (id : Nat) (fileExists : Bool)
  | deliverMeta (i : Nat)
  | deliverIndex (i : Nat)
  | query (q client : Nat)
  | request (q client n : Nat) (order : List Nat)
  | worker (w : Nat)
deriving DecidableEq, Repr

def step (mayMatch : Nat → Nat → Bool) (s : State) : Ev → State × List Out
  | .create id => (create s id, [])
  | .decommission => (decommission s, [])
  | .persisted id => (onPersisted s id, [])
  | .erase id f => onErase s id f
  | .deliverMeta i =>
    match s.toMeta[i]? with
    | none => (s, [])
    | some m => (onMeta mayMatch { s with toMeta := s.toMeta.eraseIdx i } m, [])
  | .deliverIndex i =>
    match s.toIndex[i]? with
    | none => (s, [])
    | some m => onReply { s with toIndex := s.toIndex.eraseIdx i } m
  | .query q c => (onQuery s q c, [])
  | .request q c n order => onRequest s q c n order
  | .worker w => ({ s with idle := w :: s.idle }, [])

/-- All that happens: the state, and what was observed. -/
def run (mayMatch : Nat → Nat → Bool) : State → List Ev → State × List Out
  | s, [] => (s, [])
  | s, e :: es => ((run mayMatch (step mayMatch s e).1 es).1, (step mayMatch s e).2 ++ (run mayMatch (step mayMatch s e).1 es).2)

end Verif.Scheduler
