import Verif.Reader.Lines
/-!
# Readers that cut their input into table slices

Models `libvast/src/format/multi_layout_reader.cpp`, the `read_impl` of the JSON reader
(`libvast/vast/format/json.hpp`) and of the syslog reader (`libvast/src/format/syslog.cpp`), and the
wrapper `reader::read` (`libvast/vast/format/reader.hpp`).

The parsing of one line is a parameter: `classify` maps a line to what becomes of it.
-/
namespace Verif.Reader

/-- What becomes of one non-empty line.  `event`: a row for the layout.  `invalid`: not a JSON object, or
no layout matches (libvast/vast/format/json.hpp:186-209).  `fatal`: the cells do not fit the builder
(lines 220-223, libvast/src/format/syslog.cpp:128-136,147-151).  A conversion error of single fields still
yields a row (json.hpp:214-219 falls through to line 225), hence `event`. -/
inductive Parsed (L R : Type) where
  | event (l : L) (r : R)
  | invalid
  | fatal
  deriving DecidableEq, Repr

/-- A table slice: the layout and the rows. -/
abbrev Slice (L R : Type) := L × List R

/-- The state of a `multi_layout_reader` (libvast/vast/format/multi_layout_reader.hpp,
libvast/vast/format/reader.hpp:121-133): the lines, the builder of every layout seen so far with its rows,
`batch_events_`, and, as an observation, the slices handed to the consumer so far.  Simplifications: the
builders form a list in order of creation, the code iterates over an unordered map; the number of a row in a
builder is the number of complete rows. -/
structure State (L R : Type) where
  lines : LineRange
  builders : List (L × List R)
  batch : Nat
  out : List (Slice L R)
  deriving Repr

/-- The result of a call of `read`. -/
inductive Res where
  | ok | endOfInput | timeout | stalled | error
  /-- the call has not come back within the given number of rounds -/
  | running
  deriving DecidableEq, Repr

variable {L R : Type} [DecidableEq L]

/-- The rows in the builder of a layout. -/
def rowsOf (bs : List (L × List R)) (l : L) : List R :=
  match bs with
  | [] => []
  | (k, rs) :: r => if k = l then rs else rowsOf r l

/-- `multi_layout_reader::builder` (libvast/src/format/multi_layout_reader.cpp:62-77) followed by adding a
row to the builder it returns.  Simplification: the layouts of lines are record types and the factory makes a
builder for each, so that the null pointer of line 71 does not occur. -/
def addRow (bs : List (L × List R)) (l : L) (x : R) : List (L × List R) :=
  match bs with
  | [] => [(l, [x])]
  | (k, rs) :: r => if k = l then (k, rs ++ [x]) :: r else (k, rs) :: addRow r l x

/-- Empties the builder of a layout, as `builder_ptr->finish()` does. -/
def clearRows (bs : List (L × List R)) (l : L) : List (L × List R) :=
  match bs with
  | [] => []
  | (k, rs) :: r => if k = l then (k, []) :: r else (k, rs) :: clearRows r l

/-- `finish(f, builder_ptr, result)` for one builder
(libvast/src/format/multi_layout_reader.cpp:28-52).  Simplification: `builder_ptr->finish()` does not fail. -/
def finishOne (s : State L R) (l : L) : State L R :=
  let rows := rowsOf s.builders l
  if rows = [] then s
  else
    { s with
      batch := if s.batch ≥ rows.length then s.batch - rows.length else 0
      builders := clearRows s.builders l
      out := s.out ++ [(l, rows)] }

/-- The loop over all builders in `finish(f, result)`
(libvast/src/format/multi_layout_reader.cpp:54-60). -/
def finishAll (s : State L R) : State L R :=
  (s.builders.map Prod.fst).foldl finishOne s

/-- The JSON reader takes in an event (libvast/vast/format/json.hpp:210-229): adds the row, counts it, and
finishes this one builder if it is full. -/
def jsonEvent (maxSlice : Nat) (s : State L R) (l : L) (x : R) : State L R :=
  let s := { s with builders := addRow s.builders l x, batch := s.batch + 1 }
  if (rowsOf s.builders l).length = maxSlice then finishOne s l else s

/-- The syslog reader takes in an event (libvast/src/format/syslog.cpp:128-157): adds the row, finishes all
builders if this one is full, and only then counts the event. -/
def syslogEvent (maxSlice : Nat) (s : State L R) (l : L) (x : R) : State L R :=
  let s := { s with builders := addRow s.builders l x }
  let s := if (rowsOf s.builders l).length ≥ maxSlice then finishAll s else s
  { s with batch := s.batch + 1 }

/-- The loop shared by the two `read_impl` (libvast/vast/format/json.hpp:164-231,
libvast/src/format/syslog.cpp:95-159); `onEvent` is the part in which they differ.  `clock i` tells whether
in round `i` the time since the last batch exceeds the batch timeout (and that timeout is not zero).  The
fuel bounds the number of rounds; `readImpl` supplies enough. -/
def loop (classify : List UInt8 → Parsed L R) (onEvent : State L R → L → R → State L R) (maxEvents : Nat)
    (clock : Nat → Bool) : Nat → Nat → Nat → State L R → State L R × Res
  | 0, _, _, s => (s, .running)
  | f + 1, i, produced, s =>
    if produced < maxEvents then
      if s.lines.done then (finishAll s, .endOfInput)
      else if s.batch > 0 && clock i then (finishAll s, .timeout)
      else
        let (t, r) := nextTimeout s.lines
        let s := { s with lines := r }
        if t then (s, .stalled)
        else if r.line.isEmpty then loop classify onEvent maxEvents clock f (i + 1) produced s
        else
          match classify r.line with
          | .event l x => loop classify onEvent maxEvents clock f (i + 1) (produced + 1) (onEvent s l x)
          | .invalid => loop classify onEvent maxEvents clock f (i + 1) produced s
          | .fatal => (finishAll s, .error)
    else (finishAll s, .ok)

/-- `read_impl` (libvast/vast/format/json.hpp:157-232, libvast/src/format/syslog.cpp:91-160). -/
def readImpl (classify : List UInt8 → Parsed L R) (onEvent : State L R → L → R → State L R) (maxEvents : Nat)
    (clock : Nat → Bool) (s : State L R) : State L R × Res :=
  loop classify onEvent maxEvents clock (s.lines.input.arrivals.length + 4) 0 0 s

/-- A reader that has been given its input (`reader::reset`, libvast/vast/format/json.hpp:114-119). -/
def State.init (a : List Arr) : State L R := ⟨.init a, [], 0, []⟩

/-- One call of `read`: the limit on events and the clock during the call. -/
structure Call where
  maxEvents : Nat
  clock : Nat → Bool

/-- A sequence of calls of `read` (libvast/vast/format/reader.hpp:79-101); the last result is kept. -/
def calls (classify : List UInt8 → Parsed L R) (onEvent : State L R → L → R → State L R) :
    List Call → State L R × Res → State L R × Res
  | [], q => q
  | c :: cs, q => calls classify onEvent cs (readImpl classify onEvent c.maxEvents c.clock q.1)

end Verif.Reader
