/-!
# Saving files

Models /repo/libvast/src/io/save.cpp, io/write.cpp, file.cpp (`open`, `write`) and detail/posix.cpp (`write`).

* A file system maps names to contents. A function yields the file system after every system call: a crash
  leaves one of these. A crash in the middle of a `write(2)` leaves the state after a shorter write.
* What the system calls return is a parameter (`Env`). Interrupted calls are repeated (posix.cpp:398-400) and do not appear.
* Files reach the disk in the order of the system calls: the code never calls `fsync`, so that a power failure
  may leave other states, which are not modelled. The creation of the parent directory is left out.
-/

namespace Verif.Save

/-- A name or the contents of a file. -/
abbrev Bytes := List UInt8

/-- The files. -/
abbrev Fs := Bytes → Option Bytes

/-- Creates or replaces a file (`some`), or removes it (`none`). -/
def Fs.set (fs : Fs) (name : Bytes) (content : Option Bytes) : Fs := fun n => if n = name then content else fs n

/-- What the system calls return. -/
structure Env where
  /-- Whether `open(2)` succeeds. -/
  opens : Bool
  /-- The number of bytes that each `write(2)` writes; `none` is an error. -/
  writes : List (Option Nat)
  /-- Whether `rename(2)` succeeds. -/
  renames : Bool
  /-- Whether `remove` succeeds. -/
  removes : Bool

/-- file.cpp:63 and 82: `open(2)` with O_CREAT, without O_TRUNC. -/
def openFile (fs : Fs) (name : Bytes) : Fs := fs.set name (some ((fs name).getD []))

/-- `write(2)` at a position of a file. -/
def overwrite (old : Bytes) (pos : Nat) (new : Bytes) : Bytes := old.take pos ++ new ++ old.drop (pos + new.length)

/-- The largest number of bytes in one call (posix.cpp:396). -/
def writeMax : Nat := 2 ^ 31 - 1

/-- posix.cpp:388-411 `write`, from the position `total` on: the file systems after each call, and whether it succeeds. A call that writes
nothing is an error (406-407); more than the requested bytes are never written. -/
def writeLoop (name xs : Bytes) : Fs → Nat → List (Option Nat) → List Fs × Bool
  | fs, total, ws =>
    if xs.length ≤ total then ([], true)
    else match ws with
      | [] => ([], false)
      | none :: _ => ([], false)
      | some 0 :: _ => ([], false)
      | some (n + 1) :: ws =>
        let request := min writeMax (xs.length - total)
        let count := min (n + 1) request
        let fs' := fs.set name (some (overwrite ((fs name).getD []) total ((xs.drop total).take count)))
        let rest := writeLoop name xs fs' (total + count) ws
        (fs' :: rest.1, rest.2)

/-- io/write.cpp:20-26 `write` (and file.cpp:114-125). -/
def write (env : Env) (fs : Fs) (name xs : Bytes) : List Fs × Bool :=
  if env.opens then
    let fs' := openFile fs name
    let r := writeLoop name xs fs' 0 env.writes
    (fs' :: r.1, r.2)
  else ([], false)

/-- The last of some file systems. -/
def lastOr (fs : Fs) (trace : List Fs) : Fs := trace.getLast?.getD fs

/-- `.tmp` -/
def suffix : Bytes := [46, 116, 109, 112]

/-- `remove` -/
def remove (env : Env) (fs : Fs) (name : Bytes) : List Fs := if env.removes then [fs.set name none] else []

/-- `rename(2)` -/
def rename (fs : Fs) (old new : Bytes) : Fs := (fs.set new (fs old)).set old none

/-- io/save.cpp:24-43 `save`: the file systems after each call, and whether it succeeds. -/
def save (env : Env) (fs : Fs) (name xs : Bytes) : List Fs × Bool :=
  let w := write env fs (name ++ suffix) xs
  let fs' := lastOr fs w.1
  if w.2 then
    if env.renames then (w.1 ++ [rename fs' (name ++ suffix) name], true)
    else (w.1 ++ remove env fs' (name ++ suffix), false)
  else (w.1 ++ remove env fs' (name ++ suffix), false)

end Verif.Save
