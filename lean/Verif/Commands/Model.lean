/-!
# Client commands that wait

Models what `vast export` (libvast/src/system/sink_command.cpp), `vast explore` (explore_command.cpp), `vast pivot`
(pivot_command.cpp) and `vast import` (import_command.cpp) start, whom they tell to stop, and what they return, for every step
that fails and every sequence of messages that comes in.

Simplifications: what the actors do is left to the messages; the accountant, which a command only passes on, the registration of a
sink at the node, which nobody answers, logging, reports about the performance, and the thread for signals are left out.
-/
namespace Verif.Commands

/-- The actors that a command deals with.  `worker` is the explorer or the pivoter. -/
inductive Who where
  | sink | exporter | worker | source | importer | node
deriving DecidableEq

/-- Why an actor has terminated: `caf::exit_reason::normal`, which is no error, `user_shutdown`, or an error. -/
inductive Reason where
  | normal | userShutdown | error (code : Nat)
deriving DecidableEq

/-- The steps in front of the loop that can fail. -/
inductive Step where
  | args | query | sink | node | components | transforms | exporter | worker | source | register
deriving DecidableEq

/-- What a command returns if it fails.
* `step`: the error of a step
* `reason`: `err = std::move(msg.reason)`
* `timeout`: `ec::timeout` (sink_command.cpp:134)
* `remoteNodeDown`: `ec::remote_node_down` (import_command.cpp:95) -/
inductive Err where
  | step (s : Step)
  | reason (r : Reason)
  | timeout
  | remoteNodeDown
deriving DecidableEq

/-- Messages to the command.
* `down`: an actor that the command monitors has terminated
* `timeout`: `atom::shutdown`, that the command has sent to itself with a delay (sink_command.cpp:117)
* `report`: the status of the query (sink_command.cpp:172)
* `signal`: a signal; is it `SIGINT` or `SIGTERM`?
* `flush`: everything is indexed (import_command.cpp:110) -/
inductive Msg where
  | down (who : Who) (r : Reason)
  | timeout
  | report
  | signal (ends : Bool)
  | flush
deriving DecidableEq

/-- What one sees of a command from the outside: it starts an actor, tells an actor to stop, takes a message. -/
inductive Event where
  | start (who : Who)
  | exit (who : Who)
  | got (m : Msg)
deriving DecidableEq

/-- How far a command has come: it still waits, it has returned, with or without an error, or an assertion has failed. -/
inductive Outcome where
  | waiting
  | returned (e : Option Err)
  | aborted
deriving DecidableEq

/-- A run of a command. -/
structure Run where
  log : List Event
  outcome : Outcome
deriving DecidableEq

/-- What a command finds.
* `fails`: the steps that fail
* `ownNode`: with `--node`, the command starts the node itself (spawn_or_connect_to_node.cpp:30-31)
* `blocking`: `vast.import.blocking` -/
structure Env where
  fails : Step → Bool
  ownNode : Bool
  blocking : Bool

/-- Events in front of a run. -/
def after (es : List Event) (r : Run) : Run := ⟨es ++ r.log, r.outcome⟩

/-- Guards at the end of a scope: they run when the command returns (caf/detail/scope_guard.hpp). -/
def leaving (es : List Event) (r : Run) : Run :=
  match r.outcome with
  | .returned e => ⟨r.log ++ es, .returned e⟩
  | _ => r

/-- A step that fails ends the command (for instance explore_command.cpp:48-49). -/
def step (env : Env) (s : Step) (rest : Run) : Run :=
  if env.fails s then ⟨[], .returned (some (.step s))⟩ else rest

/-- `spawn_or_connect_to_node` (spawn_or_connect_to_node.cpp:19-33) with the scope of its result: a node of its own is told to stop
when the command returns (scope_linked.hpp:38-41). -/
def withNode (env : Env) (rest : Run) : Run :=
  step env .node
    (if env.ownNode then after [.start .node] (leaving [.exit .node] rest) else rest)

/-- An actor with a guard that cannot be disabled (explore_command.cpp:87-90, pivot_command.cpp:74-75). -/
def guarded (w : Who) (rest : Run) : Run :=
  after [.start w] (leaving [.exit w] rest)

/-- An actor whose guard is disabled if its own DOWN has ended the loop (explore_command.cpp:59-62, 98-101, 122-129 and
pivot_command.cpp:52-53, 83-84, 111-118). -/
def guardedUnlessDown (w : Who) (rest : Run) : Run :=
  after [.start w]
    (if rest.log.any (fun e => match e with | .got (.down v _) => v == w | _ => false) then rest
     else leaving [.exit w] rest)

/-- `err` after a DOWN, `if (msg.reason)` (explore_command.cpp:133-138, pivot_command.cpp:122-127). -/
def anyReason (err : Option Err) (r : Reason) : Option Err :=
  match r with
  | .normal => err
  | r => some (.reason r)

/-- `err` after a DOWN, `if (msg.reason && msg.reason != user_shutdown)` (sink_command.cpp:154-157). -/
def otherReason (err : Option Err) (r : Reason) : Option Err :=
  match r with
  | .error c => some (.reason (.error c))
  | _ => err

/-- The loop of `explore` and `pivot` (explore_command.cpp:116-148, pivot_command.cpp:105-137).  Messages without a handler stay in
the mailbox. -/
def waitLoop : List Msg → Run
  | [] => ⟨[], .waiting⟩
  | .down w r :: ms =>
    match w with
    | .node | .worker | .sink => ⟨[.got (.down w r)], .returned (anyReason none r)⟩
    | _ => ⟨[.got (.down w r)], .aborted⟩ -- VAST_ASSERT
  | .signal ends :: ms =>
    if ends then ⟨[.got (.signal ends)], .returned none⟩
    else after [.got (.signal ends)] (waitLoop ms)
  | _ :: ms => waitLoop ms

/-- `explore_command` (explore_command.cpp:38-152). -/
def explore (env : Env) (ms : List Msg) : Run :=
  step env .args <| step env .query <| step env .sink <|
  guardedUnlessDown .sink <|
  withNode env <|
  step env .exporter <| guarded .exporter <|
  step env .worker <| guardedUnlessDown .worker <|
  waitLoop ms

/-- `pivot_command` (pivot_command.cpp:36-141).  Its argument, the type, is not modelled here. -/
def pivot (env : Env) (ms : List Msg) : Run :=
  step env .query <| step env .sink <|
  guardedUnlessDown .sink <|
  withNode env <|
  step env .exporter <| guarded .exporter <|
  step env .worker <| guardedUnlessDown .worker <|
  step env .components <|
  waitLoop ms

/-- The loop of `export` (sink_command.cpp:122-197).
* `waiting`: `waiting_for_final_report` -/
def exportLoop (waiting : Bool) (err : Option Err) : List Msg → Run
  | [] => ⟨[], .waiting⟩
  | .timeout :: ms =>
    after [.got .timeout, .exit .exporter, .exit .sink] (exportLoop true (some .timeout) ms)
  | .down w r :: ms =>
    match w with
    | .node | .exporter => ⟨[.got (.down w r), .exit .sink], .returned (otherReason err r)⟩
    | .sink => after [.got (.down w r), .exit .exporter] (exportLoop true (otherReason err r) ms)
    | _ => ⟨[.got (.down w r)], .aborted⟩ -- VAST_ASSERT
  | .report :: ms =>
    if waiting then ⟨[.got .report], .returned err⟩
    else after [.got .report] (exportLoop waiting err ms)
  | .signal ends :: ms =>
    after (.got (.signal ends) :: if ends then [.exit .exporter, .exit .sink] else [])
      (exportLoop waiting err ms)
  | .flush :: ms => exportLoop waiting err ms

/-- The guard of the sink (sink_command.cpp:50-51), which is disabled in front of the loop (112): the command returns early with
the error of a step. -/
def sinkGuard (r : Run) : Run :=
  match r.outcome with
  | .returned (some (.step _)) => ⟨r.log ++ [.exit .sink], r.outcome⟩
  | _ => r

/-- `sink_command` (sink_command.cpp:46-201) with the sink that it is given (writer_command.cpp:24-31); a query
that does not parse (61-63) belongs to the step `query`.  The
exporter has no guard. -/
def «export» (env : Env) (ms : List Msg) : Run :=
  step env .sink <|
  after [.start .sink] <| sinkGuard <|
  step env .query <|
  withNode env <|
  step env .exporter <| after [.start .exporter] <|
  step env .components <|
  exportLoop false none ms

/-- The loop of `import` (import_command.cpp:87-120). -/
def importLoop (blocking : Bool) : List Msg → Run
  | [] => ⟨[], .waiting⟩
  | .down w r :: ms =>
    match w with
    | .importer => ⟨[.got (.down w r), .exit .source], .returned (some .remoteNodeDown)⟩
    | .source =>
      if blocking then after [.got (.down w r)] (importLoop blocking ms)
      else ⟨[.got (.down w r)], .returned none⟩
    | _ => ⟨[.got (.down w r)], .aborted⟩ -- VAST_ASSERT
  | .flush :: _ => ⟨[.got .flush], .returned none⟩
  | .signal ends :: ms =>
    after (.got (.signal ends) :: if ends then [.exit .source] else []) (importLoop blocking ms)
  | _ :: ms => importLoop blocking ms

/-- `import_command` (import_command.cpp:34-124).  `components` fails also if a component is missing (51-57). -/
def «import» (env : Env) (ms : List Msg) : Run :=
  withNode env <|
  step env .components <| step env .transforms <|
  step env .source <|
  after [.start .source] <|
  (if env.fails .register then ⟨[.exit .source], .returned (some (.step .register))⟩ -- import_command.cpp:81-84
   else importLoop env.blocking ms)

end Verif.Commands
