/-! # Shutting down

`system::terminate` and `system::shutdown` (libvast/vast/system/terminate.hpp, libvast/src/system/shutdown.cpp), the
terminator (libvast/src/system/terminator.cpp) and the exit handler of the node (libvast/src/system/node.cpp:600-676).

Actors are numbers. Time is not modelled: a timer that has been set may fire at any later moment. CAF delivers the messages
of a mailbox in order, and sends a DOWN message for each time an actor was monitored, at once if it is gone already. -/

namespace Verif.Shutdown

/-- terminate.hpp:24-29 -/
inductive Policy where
  | sequential
  | parallel
  deriving DecidableEq

/-- What happens, as seen from outside. The number tells which terminator it is. -/
inductive Act where
  /-- An EXIT message with `user_shutdown` is sent. -/
  | exit (t : Nat) (a : Nat)
  /-- An EXIT message with `kill` is sent. -/
  | kill (t : Nat) (a : Nat)
  /-- An actor has terminated. -/
  | gone (a : Nat)
  /-- The timer of a terminator fires. -/
  | late (t : Nat)
  deriving DecidableEq

/-- All that has happened, the latest first. -/
abbrev Log := List Act

/-- The mailbox of a terminator. -/
inductive Msg where
  | down (a : Nat)
  /-- `atom::shutdown` -/
  | shutdown
  /-- `atom::stop` -/
  | stop
  deriving DecidableEq

/-- The handlers of a terminator (terminator.cpp:29-55, 57-105, 115-137), and how it ends. -/
inductive Phase where
  | waiting
  | killing
  /-- `atom::done` was delivered. -/
  | done
  /-- An error was delivered. -/
  | failed
  /-- An assertion was violated. -/
  | fault
  deriving DecidableEq

/-- A terminator (terminator.hpp `terminator_state`, with its mailbox, its monitors and its timer). The vector
    `remaining_actors` is kept with its back first. -/
structure Term where
  remaining : List Nat
  mailbox : List Msg := []
  monitors : List Nat := []
  timer : Option Msg := none
  phase : Phase := .waiting

/-- The timeouts: whether they are above zero. -/
structure Config where
  policy : Policy
  grace : Bool
  kill : Bool

/-- `self->monitor(a)` -/
def monitor (log : Log) (a : Nat) (s : Term) : Term :=
  if Act.gone a ∈ log then { s with mailbox := s.mailbox ++ [.down a] } else { s with monitors := a :: s.monitors }

/-- terminator.cpp:88-95, 41-44: go on with the back of the vector. -/
def next (t : Nat) (a : Nat) (s : Term) (log : Log) : Term × Log := (monitor log a s, .exit t a :: log)

/-- terminator.cpp:96-102 -/
def all (t : Nat) : List Nat → Term → Log → Term × Log
  | [], s, log => (s, log)
  | a :: as, s, log => all t as (next t a s log).1 (next t a s log).2

/-- terminator.cpp:57-109: the request. Handles that are null are left out. -/
def start (cfg : Config) (t : Nat) (xs : List (Option Nat)) (log : Log) : Term × Log :=
  match xs.filterMap id with
  | [] => ({ remaining := [], phase := .done }, log)
  | a :: as =>
    let s : Term := { remaining := a :: as, timer := if cfg.grace then some .shutdown else none }
    match cfg.policy with
    | .sequential => next t a s log
    | .parallel => all t (a :: as) s log

/-- `remaining.erase(std::find(..))`: the first one in the vector. -/
def erase (a : Nat) (xs : List Nat) : List Nat := (xs.reverse.erase a).reverse

/-- terminator.cpp:121-122 -/
def watch (cfg : Config) (log : Log) (a : Nat) (s : Term) : Term :=
  match cfg.policy with
  | .sequential => monitor log a s
  | .parallel => s

/-- terminator.cpp:119-124, from the first to the last of the vector -/
def killAll (cfg : Config) (t : Nat) : List Nat → Term → Log → Term × Log
  | [], s, log => (s, log)
  | a :: as, s, log => killAll cfg t as (watch cfg log a s) (.kill t a :: log)

/-- The handlers, for a terminator that has taken the message out of its mailbox. -/
def handle (cfg : Config) (t : Nat) (m : Msg) (s : Term) (log : Log) : Term × Log :=
  match m with
  | .down a =>
    match s.phase with
    -- terminator.cpp:29-55
    | .waiting =>
      if a ∈ s.remaining then
        match erase a s.remaining, cfg.policy with
        | [], _ => ({ s with remaining := [], phase := .done }, log)
        | b :: bs, .sequential => next t b { s with remaining := b :: bs } log
        | b :: bs, .parallel => ({ s with remaining := b :: bs }, log)
      else ({ s with phase := .fault }, log)
    -- terminator.cpp:126-141
    | .killing =>
      if a ∈ s.remaining then
        match erase a s.remaining with
        | [] => ({ s with remaining := [], phase := .done }, log)
        | b :: bs => ({ s with remaining := b :: bs }, log)
      else (s, log)
    | _ => (s, log)
  -- terminator.cpp:110-147
  | .shutdown =>
    if s.remaining = [] then ({ s with phase := .fault }, log)
    else
      let r := killAll cfg t s.remaining.reverse s log
      (if cfg.kill then { r.1 with phase := .killing, timer := some .stop }
        else { r.1 with phase := .killing, mailbox := r.1.mailbox ++ [.stop] }, r.2)
  -- terminator.cpp:148-154
  | .stop => ({ s with phase := .failed }, log)

/-- Whether the terminator still runs. -/
def Term.running (s : Term) : Prop := s.phase = .waiting ∨ s.phase = .killing

instance (s : Term) : Decidable s.running := inferInstanceAs (Decidable (_ ∨ _))

/-- A step of the terminator itself: it handles a message, or its timer fires. -/
inductive Own (cfg : Config) (t : Nat) : Term → Log → Term → Log → Prop where
  | handle (s : Term) (log : Log) (m : Msg) (ms : List Msg) (hm : s.mailbox = m :: ms) (hr : s.running) :
      Own cfg t s log (handle cfg t m { s with mailbox := ms } log).1 (handle cfg t m { s with mailbox := ms } log).2
  | fire (s : Term) (log : Log) (m : Msg) (ht : s.timer = some m) (hr : s.running) :
      Own cfg t s log { s with timer := none, mailbox := s.mailbox ++ [m] } (.late t :: log)

/-- A terminator is told that an actor has terminated. -/
def notify (a : Nat) (s : Term) : Term :=
  { s with mailbox := s.mailbox ++ (s.monitors.filter (· = a)).map .down, monitors := s.monitors.filter (· ≠ a) }

/-! ## The node -/

/-- An entry of the component registry (component_registry.hpp). -/
structure Component where
  label : String
  actor : Nat
  /-- Whether it runs in another process (node.cpp:640-641). -/
  remote : Bool

/-- node.cpp:623-624, without the file system -/
def sequence : List String := ["importer", "index", "archive"]

/-- node.cpp:619-635: the core components, in the order of termination. -/
def core (reg : List Component) : List Nat :=
  sequence.filterMap fun name => (reg.find? fun c => c.label = name).map (·.actor)

/-- node.cpp:636-643: the other local components, without the file system (which is never told to terminate, 654-659). -/
def aux (reg : List Component) : List Nat :=
  (reg.filter fun c => c.label ∉ "filesystem" :: sequence ∧ c.remote = false).map (·.actor)

/-- Where the exit handler of the node is. -/
inductive Stage where
  /-- The request to terminate the auxiliary components is pending (node.cpp:661). -/
  | aux
  /-- The core components are being shut down (node.cpp:646-660). -/
  | core
  /-- The node has terminated (shutdown.cpp:38-41). -/
  | stopped
  /-- The process has been ended by `die` (shutdown.cpp:42-46). -/
  | died
  deriving DecidableEq

/-- The node and its two terminators: 0 for the auxiliary components, 1 for the core. -/
structure Node where
  stage : Stage
  first : Term
  second : Term
  log : Log

/-- The timeouts of the node: the grace period, and a fifth of it (node.cpp:645). -/
structure Timeouts where
  grace : Bool
  kill : Bool
  /-- A timeout of zero has no fifth above zero. -/
  fifth : kill = true → grace = true

/-- node.cpp:661-662 -/
def Timeouts.first (c : Timeouts) : Config := ⟨.parallel, c.grace, c.kill⟩
/-- node.cpp:651-653 -/
def Timeouts.second (c : Timeouts) : Config := ⟨.sequential, c.grace, c.kill⟩

/-- node.cpp:601-676: an EXIT message at the node. -/
def begin (c : Timeouts) (reg : List Component) (log : Log) : Node :=
  let r := start c.first 0 ((aux reg).map some) log
  { stage := .aux, first := r.1, second := { remaining := [], phase := .done }, log := r.2 }

/-- node.cpp:646-653: on to the core. -/
def beginCore (c : Timeouts) (reg : List Component) (n : Node) : Node :=
  let r := start c.second 1 ((core reg).map some) n.log
  { n with stage := .core, second := r.1, log := r.2 }

/-- A step of the node and its terminators. Further EXIT messages are ignored (node.cpp:604-613, shutdown.cpp:27-35), except
    for a hard kill, which is not modelled. -/
inductive Work (c : Timeouts) (reg : List Component) : Node → Node → Prop where
  | first (n : Node) (s : Term) (log : Log) (hr : n.stage = .aux ∨ n.stage = .core) (h : Own c.first 0 n.first n.log s log) :
      Work c reg n { n with first := s, log := log }
  | second (n : Node) (s : Term) (log : Log) (hr : n.stage = .core) (h : Own c.second 1 n.second n.log s log) :
      Work c reg n { n with second := s, log := log }
  /-- node.cpp:664-669, 670-675: the terminator has answered. -/
  | answered (n : Node) (hr : n.stage = .aux) (h : n.first.phase = .done ∨ n.first.phase = .failed) :
      Work c reg n (beginCore c reg n)
  /-- shutdown.cpp:38-41 -/
  | stopped (n : Node) (hr : n.stage = .core) (h : n.second.phase = .done) : Work c reg n { n with stage := .stopped }
  /-- shutdown.cpp:42-46 -/
  | died (n : Node) (hr : n.stage = .core) (h : n.second.phase = .failed) : Work c reg n { n with stage := .died }

/-- A request of the node times out (terminate.hpp:57-59). -/
inductive Timeout (c : Timeouts) (reg : List Component) : Node → Node → Prop where
  /-- node.cpp:670-675 -/
  | first (n : Node) (hr : n.stage = .aux) (hg : c.grace = true) :
      Timeout c reg n (beginCore c reg { n with log := .late 0 :: n.log })
  /-- shutdown.cpp:42-46 -/
  | second (n : Node) (hr : n.stage = .core) (hg : c.grace = true) :
      Timeout c reg n { n with stage := .died, log := .late 1 :: n.log }

/-- An actor terminates, for whatever reason. -/
inductive Gone : Node → Node → Prop where
  | gone (n : Node) (a : Nat) (ha : Act.gone a ∉ n.log) :
      Gone n { n with log := .gone a :: n.log, first := notify a n.first, second := notify a n.second }

/-- What can happen from one state to another; the number counts what the node and its terminators do. -/
inductive Run (c : Timeouts) (reg : List Component) : Node → Node → Nat → Prop where
  | refl (n : Node) : Run c reg n n 0
  | work (n m o : Node) (k : Nat) (h : Run c reg n m k) (hs : Work c reg m o) : Run c reg n o (k + 1)
  | timeout (n m o : Node) (k : Nat) (h : Run c reg n m k) (hs : Timeout c reg m o) : Run c reg n o (k + 1)
  | gone (n m o : Node) (k : Nat) (h : Run c reg n m k) (hs : Gone m o) : Run c reg n o k

end Verif.Shutdown
