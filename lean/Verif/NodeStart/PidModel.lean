import Mathlib.Data.Nat.Digits.Defs
/-!
# The PID file of a node

Models `acquire_pid_file` of libvast/src/detail/pid_file.cpp:30-83 and its use by `spawn_node`
(libvast/src/system/spawn_node.cpp:75-79, 92-102): any number of processes that start a node on the same directory, one system call
after the other, with any interleaving.

Simplifications: looking at the file (`exists`, `load_contents` and `getpgid`) is one step, and so are `write` and `close`.  The
directory is empty at first, so the file never holds anything but decimal digits.  Numbers of processes have at most nine digits
(on Linux they are at most 4194304), so that no number overflows `int32_t`.
-/
namespace Verif.NodeStart

/-- The decimal digits of a number, the most significant first (`to_string`, pid_file.cpp:72). -/
def digits (p : Nat) : List Nat := (Nat.digits 10 p).reverse

/-- `to<int32_t>` (pid_file.cpp:43): there must be a digit. -/
def readPid (text : List Nat) : Option Nat :=
  if text = [] then none else some (Nat.ofDigits 10 text.reverse)

/-- What a process is doing. -/
inductive Phase where
  /-- Something else than a node. -/
  | other
  /-- It wants to start a node. -/
  | starting
  /-- It has looked at the file and goes on (pid_file.cpp:52-54). -/
  | checked
  /-- It has opened the file (57). -/
  | opened (inode : Nat)
  /-- It has locked the file (64). -/
  | locked (inode : Nat)
  /-- Its node is running. -/
  | node
  /-- It was refused, or its node has ended. -/
  | done
deriving DecidableEq

/-- The processes and the file.  `link` is the inode that the name of the file refers to. -/
structure World where
  procs : Nat → Option Phase
  link : Option Nat
  next : Nat
  content : Nat → List Nat
  lock : Nat → Option Nat

/-- No processes and no file. -/
def World.empty : World := ⟨fun _ => none, none, 0, fun _ => [], fun _ => none⟩

/-- What happens next. -/
inductive Action where
  /-- A process is created, to start a node or for something else. -/
  | spawn (p : Nat) (vast : Bool)
  /-- A process is gone, with all its locks, at any time: a crash or its end. -/
  | exit (p : Nat)
  | check (p : Nat)
  | openFile (p : Nat)
  | lockFile (p : Nat)
  | write (p : Nat)
  /-- A system call fails. -/
  | fail (p : Nat)
  /-- The node ends and removes the file (spawn_node.cpp:92-96). -/
  | stop (p : Nat)

/-- `procs` after a change of one process. -/
def World.set (w : World) (p : Nat) (ph : Option Phase) : World := { w with procs := fun q => if q = p then ph else w.procs q }

/-- Without the locks of a process. -/
def World.unlock (w : World) (p : Nat) : World := { w with lock := fun i => if w.lock i = some p then none else w.lock i }

/-- pid_file.cpp:33-55. -/
def World.check (w : World) (p : Nat) : World :=
  match w.link with
  | none => w.set p (some .checked)
  | some i => match readPid (w.content i) with
    | none => w.set p (some .done)
    | some q =>
      if q = p then w.set p (some .node)
      else if w.procs q = none then w.set p (some .checked)
      else w.set p (some .done)

/-- pid_file.cpp:57: the file is created if there is none, and not truncated. -/
def World.openFile (w : World) (p : Nat) : World :=
  match w.link with
  | some i => w.set p (some (.opened i))
  | none => { w with link := some w.next, next := w.next + 1, content := fun j => if j = w.next then [] else w.content j }.set p
      (some (.opened w.next))

/-- pid_file.cpp:64-68. -/
def World.lockFile (w : World) (p i : Nat) : World :=
  match w.lock i with
  | none => { w with lock := fun j => if j = i then some p else w.lock j }.set p (some (.locked i))
  | some _ => w.set p (some .done)

/-- pid_file.cpp:70-81: the digits go over the beginning of what is there. -/
def World.write (w : World) (p i : Nat) : World :=
  ({ w with content := fun j => if j = i then digits p ++ (w.content i).drop (digits p).length else w.content j }.unlock p).set p
    (some .node)

/-- One action; one that is not possible has no effect. -/
def step (w : World) : Action → World
  | .spawn p vast => match w.procs p with
    | none => w.set p (some (if vast then .starting else .other))
    | some _ => w
  | .exit p => (w.unlock p).set p none
  | .check p => match w.procs p with
    | some .starting => w.check p
    | _ => w
  | .openFile p => match w.procs p with
    | some .checked => w.openFile p
    | _ => w
  | .lockFile p => match w.procs p with
    | some (.opened i) => w.lockFile p i
    | _ => w
  | .write p => match w.procs p with
    | some (.locked i) => w.write p i
    | _ => w
  | .fail p => match w.procs p with
    | some .checked => w.set p (some .done)
    | some (.opened _) => w.set p (some .done)
    | some (.locked _) => (w.unlock p).set p (some .done)
    | _ => w
  | .stop p => match w.procs p with
    | some .node => { w with link := none }.set p (some .done)
    | _ => w

/-- One action after the other. -/
def run (w : World) (as : List Action) : World := as.foldl step w

end Verif.NodeStart
