/-!
# Readiness and the journal

Models how the logger finds out whether it writes to the journal, libvast/src/systemd.cpp:20-45, and how a node tells the service manager that it is ready: libvast/src/systemd.cpp:51-67 and
libvast/src/detail/posix.cpp:247-272, with what Linux makes of the address of a socket (unix(7)).

Texts are lists of bytes.  Logging is left out, and that `unsetenv` fails, which it does only for names with `=`.
-/
namespace Verif.Notify

/-- The size of `sun_path` in Linux (sys/un.h). -/
def pathSize : Nat := 108

/-- An address of a Unix domain socket, as the kernel sees it. -/
inductive Address where
  | path (name : List Nat)
  | abstract (name : List Nat)
  | unnamed
deriving DecidableEq

/-- unix(7): what `sun_path` and the length of the address say.  Without a name, it is unnamed; if the first byte is NUL, all bytes
after it are the name of an abstract socket; otherwise, the bytes in front of the first NUL are a path. -/
def kernel (sunPath : List Nat) (len : Nat) : Address :=
  match sunPath.take len with
  | [] => .unnamed
  | 0 :: name => .abstract name
  | xs => .path (xs.takeWhile (· != 0))

/-- `strncpy` into a buffer of zeros, whose last byte it leaves alone (posix.cpp:249-250, 254). -/
def copy (s : List Nat) : List Nat :=
  let t := (s.takeWhile (· != 0)).take (pathSize - 1)
  t ++ List.replicate (pathSize - t.length) 0

/-- The length of the path (posix.cpp:266-267).  64 is `@`. -/
def pathLen (dest : List Nat) : Nat :=
  if dest.head? = some 64 then dest.length else (dest.takeWhile (· != 0)).length + 1

/-- The address that `uds_sendmsg` sends to (posix.cpp:247-272); `none` is `EINVAL`. -/
def destination (dest : List Nat) : Option Address :=
  if dest.isEmpty || decide (dest.length ≥ pathSize) then none else some (kernel (copy dest) (pathLen dest))

/-- What a process has and does.
* `notifySocket`: the environment variable `NOTIFY_SOCKET`
* `sent`: the messages that were delivered, and where
* `sockets`: the number of open sockets -/
structure World where
  notifySocket : Option (List Nat)
  sent : List (Address × List Nat)
  sockets : Nat
deriving DecidableEq

/-- `READY=1` and a line feed. -/
def readyText : List Nat := [82, 69, 65, 68, 89, 61, 49, 10]

/-- `notify_ready` (systemd.cpp:51-67).  The result says whether there was no error.
* `canOpen`: does `socket` succeed?
* `listens`: the addresses at which somebody receives, so that `sendmsg` succeeds -/
def notifyReady (canOpen : Bool) (listens : Address → Bool) (w : World) : Bool × World :=
  let cleared := { w with notifySocket := none } -- the guard: 52-56
  match w.notifySocket with
  | none => (true, cleared)
  | some dest =>
    if !canOpen then (false, cleared)
    else
      let opened := { cleared with sockets := w.sockets + 1 } -- nobody closes it
      match destination dest with
      | none => (false, opened)
      | some a =>
        if listens a then (true, { opened with sent := w.sent ++ [(a, readyText)] }) else (false, opened)

/-- `isdigit` (parseable/numeric/integral.hpp:45-53). -/
def isDigit (b : Nat) : Bool := decide (48 ≤ b) && decide (b ≤ 57)

/-- `parsers::u64` (parseable/numeric/integral.hpp:55-74, 103-125): up to 20 digits, in 64 bits without a check. -/
def number (s : List Nat) : Option (Nat × List Nat) :=
  let ds := (s.takeWhile isDigit).take 20
  if ds.isEmpty then none
  else some (ds.foldl (fun a b => (a * 10 + (b - 48)) % 2 ^ 64) 0, s.drop ds.length)

/-- `connected_to_journal` (systemd.cpp:20-45).  58 is `:`.
* `env`: `JOURNAL_STREAM`
* `stat`: the device and the inode of the standard error, if `fileno` and `fstat` succeed -/
def connectedToJournal (env : Option (List Nat)) (stat : Option (Nat × Nat)) : Bool :=
  match env with
  | none => false
  | some s =>
    match number s with
    | some (dev, 58 :: rest) =>
      match number rest with
      | some (ino, []) => stat == some (dev, ino)
      | _ => false
    | _ => false

end Verif.Notify
