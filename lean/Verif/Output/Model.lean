import Verif.Options.Model
/-!
Output to a descriptor, and the size of the database.

Models `libvast/src/detail/fdoutbuf.cpp` below a `std::ostream`, `write_buf` and `flush` of `libvast/src/format/ostream_writer.cpp` and
how the sink uses them (`libvast/src/system/sink.cpp:81-117`); and `compute_dbdir_size` (`libvast/src/system/disk_monitor.cpp:71-91`)
with `execute_blocking` (`libvast/src/detail/process.cpp:176-198`) and `recursive_size` (`libvast/vast/detail/recursive_size.hpp`).
-/
namespace Verif.Output
open Verif.Data Verif.DataText

/-! ## Output -/

/-- What `write(2)` does at its n-th call if asked to write a number of bytes: the number of bytes written (never more than asked), or
an error. -/
abbrev Writes := Nat → Nat → Option Nat

/-- A `std::ostream` over a descriptor: whether an error occurred (`badbit` or `failbit`), the bytes that arrived, and the number of calls of
`write(2)`. -/
structure Stream where
  bad : Bool := false
  fd : Str := []
  calls : Nat := 0
deriving DecidableEq

/-- `fdoutbuf::xsputn` (fdoutbuf.cpp:29-31): the stream, and the return value. -/
def xsputn (w : Writes) (s : Stream) (bytes : Str) : Stream × Option Nat :=
  match w s.calls bytes.length with
  | none => ({ s with calls := s.calls + 1 }, none)
  | some k => ({ s with fd := s.fd ++ bytes.take k, calls := s.calls + 1 }, some (min k bytes.length))

/-- `std::ostream::write`: nothing if there was an error before; an error if not everything was written. -/
def write (w : Writes) (s : Stream) (bytes : Str) : Stream :=
  if s.bad then s
  else
    let (s, r) := xsputn w s bytes
    if r = some bytes.length then s else { s with bad := true }

/-- `ostream_writer::print` (ostream_writer.hpp:127-146) of rows whose texts are given: one `write_buf` for each row. -/
def printRows (w : Writes) (s : Stream) (rows : List Str) : Stream := rows.foldl (write w) s

/-- `ostream_writer::flush` (ostream_writer.cpp:23-30): whether it succeeds.  A `fdoutbuf` has nothing to flush. -/
def flush (s : Stream) : Bool := !s.bad

/-- The sink: the stream and the number of events it reports as processed. -/
structure Sink where
  out : Stream := {}
  processed : Nat := 0
deriving DecidableEq

/-- A slice arrives at the sink (sink.cpp:99-113); the result of `flush` is not used. -/
def onSlice (w : Writes) (s : Sink) (rows : List Str) : Sink :=
  { out := printRows w s.out rows, processed := s.processed + rows.length }

/-- A sink after some slices. -/
def session (w : Writes) (slices : List (List Str)) : Sink := slices.foldl (onSlice w) {}

/-! ## The size of the database -/

/-- What a command printed, whether reading it failed at the end, its exit status, and whether `pclose` failed. -/
structure Command where
  output : Str
  readError : Bool := false
  status : Nat := 0
  closeError : Bool := false

/-- The loop of `execute_blocking` (process.cpp:184-188) over what is left of the output: `fread` gives as much as fits into the
buffer.  `fuel` bounds the number of rounds; one more than the bytes left is enough. -/
def readAll : (fuel : Nat) → Str → Str
  | 0, _ => []
  | fuel + 1, rest =>
    let part := rest.take 4096
    if part.length = 4096 then part ++ readAll fuel (rest.drop 4096) else part

/-- `execute_blocking` (process.cpp:176-198), if the command can be started. -/
def execute (c : Command) : Option Str :=
  let r := readAll (c.output.length + 1) c.output
  if c.closeError then none
  else if c.readError then none
  else some r

/-- How the size is computed: a number, an error, or undefined behaviour (`back` of an empty string). -/
inductive Res where
  | size (n : Nat)
  | error
  | undefined
deriving DecidableEq

/-- `compute_dbdir_size` with a command (disk_monitor.cpp:76-90); `parsers::count` is the parser of sizes without `B`
(`libvast/vast/concept/parseable/vast/si.hpp:54`). -/
def commandSize (c : Command) : Res :=
  match execute c with
  | none => .error
  | some out => match out.getLast? with
    | none => .undefined
    | some l =>
      let text := if l = 10 then out.dropLast else out
      match Options.countP text with
      | some (n, []) => .size n
      | _ => .error

/-- What `file_size` says about a file. -/
inductive Stat where
  | size (n : Nat)
  | gone
  | error
deriving DecidableEq

/-- An entry of the directory, in the order of the traversal: a file, something else, or a failure of the traversal itself. -/
inductive Entry where
  | file (s : Stat)
  | other
  | fails
deriving DecidableEq

/-- `recursive_size` (recursive_size.hpp:24-44), after the traversal could be started; a failure to go on throws. -/
def recursiveSize : List Entry → Nat → Option (Option Nat)
  | [], n => some (some n)
  | .file (.size k) :: r, n => recursiveSize r ((n + k) % 2 ^ 64)
  | .file .gone :: r, n => recursiveSize r n
  | .file .error :: _, _ => some none
  | .other :: r, n => recursiveSize r n
  | .fails :: _, _ => none

end Verif.Output
