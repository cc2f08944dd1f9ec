/-!
The writer of `vast export arrow`: `libvast/src/format/arrow.cpp`, driven by a sink (`libvast/src/system/sink.cpp:81-117`) that
stops at the first error.

Layouts are a name and the names of their fields; types and attributes are left out, as the writer only compares layouts and asks
whether there are fields.  Batches are numbers.  The operations of Arrow's writers (open a stream, write a batch, close a stream) are
parameters that may fail at any time; an operation that fails leaves nothing behind.
-/
namespace Verif.ArrowWriter

/-- `record_type`, simplified to names. -/
structure Layout where
  name : String := ""
  fields : List String := []
deriving DecidableEq

/-- A table slice: its layout and its contents. -/
structure Slice where
  layout : Layout
  batch : Nat
deriving DecidableEq

/-- What is in the output: the begin of a stream with its schema, a record batch, or the end of a stream. -/
inductive Out where
  | schema (l : Layout)
  | batch (n : Nat)
  | eos
deriving DecidableEq

/-- The state of the writer (`libvast/vast/format/arrow.hpp:50-55`): the current layout, whether there is a batch writer, the output, and the
number of operations on the output so far. -/
structure State where
  current : Layout := {}
  writer : Bool := false
  out : List Out := []
  ops : Nat := 0
deriving DecidableEq

/-- How `write` ends; a crash is a null pointer that is dereferenced. -/
inductive Res where
  | ok (s : State)
  | error (s : State)
  | crash
deriving DecidableEq

/-- `writer::layout` (arrow.cpp:64-89).  `ok n` tells whether the operation with number `n` succeeds.  The state, and whether the
function returns true. -/
def setLayout (ok : Nat → Bool) (l : Layout) (s : State) : State × Bool :=
  if s.current = l then (s, true)
  else
    match if s.writer then
        if ok s.ops then some { s with writer := false, out := s.out ++ [.eos], ops := s.ops + 1 } else none
      else some s with
    | none => ({ s with ops := s.ops + 1 }, false)
    | some s =>
      if l.fields = [] then (s, true)
      else
        let s := { s with current := l }
        if ok s.ops then ({ s with writer := true, out := s.out ++ [.schema l], ops := s.ops + 1 }, true)
        else ({ s with ops := s.ops + 1 }, false)

/-- `writer::write` (arrow.cpp:43-57). -/
def write (ok : Nat → Bool) (s : State) (x : Slice) : Res :=
  match setLayout ok x.layout s with
  | (s, false) => .error s
  | (s, true) =>
    if !s.writer then .crash
    else if ok s.ops then .ok { s with out := s.out ++ [.batch x.batch], ops := s.ops + 1 }
    else .error { s with ops := s.ops + 1 }

/-- A sink that writes slices until an error (sink.cpp:99-103): how it ended, and the number of slices that were written. -/
def session (ok : Nat → Bool) : State → List Slice → Res × Nat
  | s, [] => (.ok s, 0)
  | s, x :: xs => match write ok s x with
    | .ok s => let (r, n) := session ok s xs; (r, n + 1)
    | .error s => (.error s, 0)
    | .crash => (.crash, 0)

end Verif.ArrowWriter
