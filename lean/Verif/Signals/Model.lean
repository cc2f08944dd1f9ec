/-!
The signal monitor: `libvast/src/system/signal_monitor.cpp`.

A signal handler can run at any time, on any thread, and the monitor's thread goes on in between: each access to one of the atomic
flags is a step of its own.  Handlers and the monitor do not share anything else.  The receiver's mailbox is the log; `raised` in the log
marks the moment at which a handler starts.
-/
namespace Verif.Signals

/-- What happened, for the record. -/
inductive Event where
  | raised (sig : Nat)
  | sent (sig : Nat)
deriving DecidableEq

/-- Where the monitor's loop is (signal_monitor.cpp:62-80): asleep, after it has seen `signals[0]` and before it clears it, about to look
at flag `i` of the loop over all signals, after it has seen flag `i` and before it clears it, or after that and before it sends the
signal. -/
inductive Pc where
  | asleep
  | noticed
  | scan (i : Nat)
  | caught (i : Nat)
  | sending (i : Nat)
deriving DecidableEq

/-- `SIGINT` and `SIGTERM`. -/
def terminating (sig : Nat) : Bool := sig = 2 || sig = 15

/-- The flags (`signals[0]` is `any`), the handlers that have set `any` but not yet the flag of their signal, the signals with the
default disposition, whether the system terminated the process, the monitor, and the log. -/
structure State where
  any : Bool := false
  flag : Nat → Bool := fun _ => false
  handlers : List Nat := []
  default : List Nat := []
  killed : Bool := false
  pc : Pc := .asleep
  log : List Event := []

/-- A flag is set or cleared. -/
def set (f : Nat → Bool) (i : Nat) (b : Bool) : Nat → Bool := fun j => if j = i then b else f j

/-- One step of the process. -/
inductive Step where
  /-- A signal arrives: the handler runs up to `signals[0] = true`. -/
  | raise (sig : Nat)
  /-- A handler that has come so far goes on to its end. -/
  | finish (sig : Nat)
  /-- The monitor makes a step. -/
  | monitor
deriving DecidableEq

/-- `signal_monitor_handler` (signal_monitor.cpp:35-45) in two parts, and the loop of `signal_monitor::run` (62-80). -/
def step (s : State) : Step → State
  | .raise sig =>
    if s.killed then s
    else if sig ∈ s.default then { s with killed := true }
    else { s with
      default := if terminating sig then sig :: s.default else s.default
      any := true
      handlers := s.handlers ++ [sig]
      log := s.log ++ [.raised sig] }
  | .finish sig =>
    if s.killed then s
    else if sig ∈ s.handlers then { s with handlers := s.handlers.erase sig, flag := set s.flag sig true } else s
  | .monitor =>
    if s.killed then s
    else match s.pc with
      | .asleep => if s.any then { s with pc := .noticed } else s
      | .noticed => { s with any := false, pc := .scan 1 }
      | .scan i =>
        if i < 32 then
          if s.flag i then { s with pc := .caught i } else { s with pc := .scan (i + 1) }
        else { s with pc := .asleep }
      | .caught i => { s with flag := set s.flag i false, pc := .sending i }
      | .sending i => { s with pc := .scan (i + 1), log := s.log ++ [.sent i] }

/-- A schedule. -/
def run (s : State) (steps : List Step) : State := steps.foldl step s

/-- The monitor runs on its own for `n` steps. -/
def alone (n : Nat) : List Step := List.replicate n .monitor

end Verif.Signals
