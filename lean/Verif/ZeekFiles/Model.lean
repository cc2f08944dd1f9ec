import Verif.Data.Model
/-!
# The files of the Zeek writer

`writer::write` and `writer_child` of `libvast/src/format/zeek.cpp`, with `ostream_writer` (`libvast/vast/format/ostream_writer.hpp`,
`libvast/src/format/ostream_writer.cpp`): which rows and headers go to which stream.  The text of a row is given (see C97 for it).
-/
namespace Verif.ZeekFiles
open Verif.Data

/-- `slice.layout()`: its name, and all the rest of it. -/
structure Layout (F : Type) where
  name : Str
  rest : F
deriving DecidableEq

/-- A row: what the printer appends to the buffer, and whether it succeeds (it does not for maps, zeek.cpp:490-493).  A row that fails has the
text up to the value that cannot be printed. -/
structure Row where
  text : Str
  ok : Bool
deriving DecidableEq

/-- A table slice. -/
structure Slice (F : Type) where
  layout : Layout F
  rows : List Row

/-- What is in a stream: the lines of a header (`print_header`, zeek.cpp:154-181) count as one. -/
inductive Line (F : Type)
  | header (l : Layout F)
  | row (text : Str)
deriving DecidableEq

/-- `writer_child` (zeek.cpp:539-566): what has been written to its stream, `buf_`, and whether the stream could be opened.  The destructor's line
is left out. -/
structure Child (F : Type) where
  lines : List (Line F) := []
  buf : Str := []
  good : Bool

variable {F : Type}

/-- Output to a stream: nothing happens to one that has failed. -/
def Child.put (c : Child F) (l : Line F) : Child F := if c.good then { c with lines := c.lines ++ [l] } else c

/-- `ostream_writer::print` (ostream_writer.hpp:116-134) with `write_buf` (ostream_writer.cpp:36-40): the rows up to the first that fails, whose beginning stays
in the buffer. -/
def Child.write : Child F → List Row → Child F × Bool
  | c, [] => (c, true)
  | c, r :: rs =>
    if r.ok then ({ c with buf := [] }.put (.row (c.buf ++ r.text))).write rs
    else ({ c with buf := c.buf ++ r.text }, false)

/-- `writer` (zeek.hpp:274-279): `writers_` for a directory, the one writer for the standard output, and `previous_layout_`. -/
structure Writer (F : Type) where
  files : Str → Option (Child F) := fun _ => none
  out : Option (Child F) := none
  previous : Option (Layout F) := none

/-- What is on the standard output. -/
def lines (w : Writer F) : List (Line F) := (w.out.map Child.lines).getD []

/-- `writer::write` without a directory (574-586, 621-622). -/
def Writer.writeOut [DecidableEq F] (w : Writer F) (x : Slice F) : Writer F × Bool :=
  let c := w.out.getD { good := true }
  let c := if some x.layout ≠ w.previous then c.put (.header x.layout) else c
  let r := c.write x.rows
  ({ w with out := some r.1, previous := some x.layout }, r.2)

/-- `writer::write` with a directory (587-622).  `dir`: the directory exists or can be created; `opens`: whether the file for a name can be opened,
which is not checked. -/
def Writer.writeFile (dir : Bool) (opens : Str → Bool) (w : Writer F) (x : Slice F) : Writer F × Bool :=
  match w.files x.layout.name with
  | some c =>
    let r := c.write x.rows
    ({ w with files := fun n => if n = x.layout.name then some r.1 else w.files n }, r.2)
  | none =>
    if dir then
      let r := (Child.put { good := opens x.layout.name } (.header x.layout)).write x.rows
      ({ w with files := fun n => if n = x.layout.name then some r.1 else w.files n }, r.2)
    else (w, false)

/-- Several calls: the writer after them, and which of them succeeded. -/
def runOut [DecidableEq F] : Writer F → List (Slice F) → Writer F × List Bool
  | w, [] => (w, [])
  | w, x :: xs => ((runOut (w.writeOut x).1 xs).1, (w.writeOut x).2 :: (runOut (w.writeOut x).1 xs).2)

/-- The same with a directory. -/
def runFiles (dir : Bool) (opens : Str → Bool) : Writer F → List (Slice F) → Writer F × List Bool
  | w, [] => (w, [])
  | w, x :: xs =>
    ((runFiles dir opens (w.writeFile dir opens x).1 xs).1, (w.writeFile dir opens x).2 :: (runFiles dir opens (w.writeFile dir opens x).1 xs).2)

end Verif.ZeekFiles
