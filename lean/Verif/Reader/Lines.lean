/-!
# Reading lines from a descriptor that may time out

Models `libvast/src/detail/line_range.cpp`, `libvast/vast/detail/absorb_line.hpp` and the parts of
`libvast/src/detail/fdinbuf.cpp` they depend on.
-/
namespace Verif.Reader

/-- What the file descriptor does when more input is asked for (`fdinbuf::underflow`,
libvast/src/detail/fdinbuf.cpp:40-91): it hands over the next byte, or `poll` times out first.  The
end of the list is the end of the file (`read` returning 0).  Simplification: the block buffer is not
modelled; a time-out can only be observed while the buffer is empty, and it may happen before any
byte, so the list ranges over every way the bytes can be cut into blocks.  Failures of `poll` and
`read` other than a time-out are not modelled. -/
inductive Arr where
  | byte (b : UInt8)
  | timeout
  deriving DecidableEq, Repr

/-- The input stream: what is still to arrive, the `eofbit` and `failbit` of the `std::istream`, and
`fdinbuf::timeout_fail_` (libvast/src/detail/fdinbuf.cpp:36-38,60-66).  A stream that is not backed by
an `fdinbuf` is the special case of a list of arrivals without time-outs. -/
structure Stream where
  arrivals : List Arr
  eof : Bool
  fail : Bool
  timeoutFail : Bool
  deriving DecidableEq, Repr

/-- The loop of `absorb_line` (libvast/vast/detail/absorb_line.hpp:34-58): appends to `line` up to a
line terminator, `n` counts the bytes taken in this call.  After a carriage return it peeks at the
next byte (lines 40-43), which may itself time out: `sgetc` then sets `timeout_fail_` but no bit of the
stream.  Each byte obtained after a time-out comes from a fresh block and resets `timeout_fail_`
(fdinbuf.cpp:66).  Simplification: the `max_size()` bound on the line is not modelled. -/
def absorbLoop (n : Nat) (line : List UInt8) : List Arr → Stream × List UInt8
  | [] => (⟨[], true, n == 0, false⟩, line)
  | .timeout :: r => (⟨r, true, n == 0, true⟩, line)
  | .byte c :: r =>
    if c = 10 then (⟨r, false, false, false⟩, line)
    else if c = 13 then
      match r with
      | .byte d :: r' =>
        if d = 10 then (⟨r', false, false, false⟩, line) else (⟨.byte d :: r', false, false, false⟩, line)
      | .timeout :: r' => (⟨r', false, false, true⟩, line)
      | [] => (⟨[], false, false, false⟩, line)
    else absorbLoop (n + 1) (line ++ [c]) r

/-- `detail::absorb_line` (libvast/vast/detail/absorb_line.hpp:26-59).  The `sentry` of line 30 fails,
and sets `failbit`, unless the stream is good. -/
def absorb (s : Stream) (line : List UInt8) : Stream × List UInt8 :=
  if s.eof || s.fail then ({ s with fail := true }, line) else absorbLoop 0 line s.arrivals

/-- The state of a `line_range` (libvast/vast/detail/line_range.hpp). -/
structure LineRange where
  input : Stream
  line : List UInt8
  lineNumber : Nat
  timedOut : Bool
  deriving DecidableEq, Repr

/-- The `do … while` of `line_range::next_impl` (libvast/src/detail/line_range.cpp:29-34): reads lines
until one is not empty or the stream fails.  The fuel stands for the loop; `nextImpl` supplies enough. -/
def nextLoop : Nat → Stream → List UInt8 → Nat → Stream × List UInt8 × Nat
  | 0, s, l, k => (s, l, k)
  | f + 1, s, l, k =>
    let (s', l') := absorb s l
    if s'.fail then (s', l', k)
    else if l'.isEmpty then nextLoop f s' l' (k + 1)
    else (s', l', k + 1)

/-- `line_range::next_impl` (libvast/src/detail/line_range.cpp:25-35). -/
def nextImpl (r : LineRange) : LineRange :=
  if r.input.fail then r
  else
    let (s, l, k) := nextLoop (r.input.arrivals.length + 2) r.input r.line r.lineNumber
    { r with input := s, line := l, lineNumber := k }

/-- `line_range::next_timeout` (libvast/src/detail/line_range.cpp:43-63): keeps the line read so far if
the previous call timed out, reads on, and reports whether this call timed out. -/
def nextTimeout (r : LineRange) : Bool × LineRange :=
  let r1 := if r.timedOut then r else { r with line := [] }
  let r2 := nextImpl r1
  let t := r2.input.timeoutFail
  let s := if t then { r2.input with eof := false, fail := false } else r2.input
  (t, { r2 with input := s, timedOut := t })

/-- `line_range::done` (libvast/src/detail/line_range.cpp:65-67). -/
def LineRange.done (r : LineRange) : Bool := r.line.isEmpty && r.input.fail

/-- A fresh `line_range` on a fresh stream (libvast/src/detail/line_range.cpp:18-19). -/
def LineRange.init (a : List Arr) : LineRange := ⟨⟨a, false, false, false⟩, [], 0, false⟩

/-- How every reader uses a `line_range`: ask for the next line until `done`, skip over time-outs and
empty lines (libvast/vast/format/json.hpp:164-185, libvast/src/format/syslog.cpp:95-115,
libvast/src/format/csv.cpp:443-462).  `n` bounds the number of requests; the result is the lines
obtained and the state afterwards. -/
def request : Nat → LineRange → List (List UInt8) × LineRange
  | 0, r => ([], r)
  | n + 1, r =>
    if r.done then ([], r)
    else
      let (t, r') := nextTimeout r
      let (ls, r'') := request n r'
      (if t || r'.line.isEmpty then ls else r'.line :: ls, r'')

end Verif.Reader
