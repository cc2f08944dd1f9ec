import Verif.Reader.Spec
/-!
# The source actor

Models `libvast/src/system/source.cpp`: the handler that drives the reader, the limit on events, the
filter, and the exit handler.  The reader is the JSON reader of `Verif.Reader.Model`.
-/
namespace Verif.Reader

variable {L R : Type} [DecidableEq L]

/-- What the source sends downstream: a slice, or the end-of-stream marker
(`detail::framed<table_slice>`). -/
inductive Frame (L R : Type) where
  | slice (s : Slice L R)
  | eof
  deriving Repr

/-- The fixed parameters of a source: the meaning of a line, the slice size, the limit
(`source_state::requested`, libvast/vast/system/source.hpp:84-85) and the filter
(`source_state::filter`, none is `fun _ _ => true`). -/
structure Cfg (L R : Type) where
  classify : List UInt8 → Parsed L R
  sliceSize : Nat
  requested : Option Nat
  keep : L → R → Bool

/-- `source_state` (libvast/vast/system/source.hpp:32-106) as far as it matters here, and the frames
sent so far.  `quit` says that the actor has terminated, `abort` that an assertion failed. -/
structure Src (L R : Type) where
  reader : State L R
  count : Nat
  sent : List (Frame L R)
  waiting : Bool
  quit : Bool
  abort : Bool

/-- A source with a fresh reader (libvast/src/system/source.cpp:139-150). -/
def Src.init (a : List Arr) : Src L R := ⟨.init a, 0, [], false, false, false⟩

/-- `source_state::filter_and_push` (libvast/src/system/source.cpp:112-130): the rows the filter keeps, if
any are left. -/
def push (cfg : Cfg L R) (s : Slice L R) : List (Frame L R) :=
  let rows := s.2.filter (cfg.keep s.1)
  if rows = [] then [] else [.slice (s.1, rows)]

/-- The number of events a run may ask the reader for (libvast/src/system/source.cpp:222-225), computed on
64-bit unsigned integers. -/
def budget (cfg : Cfg L R) (s : Src L R) (num : Nat) : Nat :=
  let events := num * cfg.sliceSize % 2 ^ 64
  match cfg.requested with
  | none => events
  | some q => min events ((q + 2 ^ 64 - s.count) % 2 ^ 64)

/-- `finish` (libvast/src/system/source.cpp:232-238). -/
def Src.finish (s : Src L R) : Src L R := { s with sent := s.sent ++ [.eof], quit := true }

/-- The handler for `atom::internal, atom::run` (libvast/src/system/source.cpp:213-278).  `read` asserts
that the number of events is positive (libvast/vast/format/reader.hpp:82). -/
def run (cfg : Cfg L R) (num : Nat) (clock : Nat → Bool) (s : Src L R) : Src L R :=
  let events := budget cfg s num
  if events = 0 then { s with abort := true }
  else
    let (r, res) := readImpl cfg.classify (jsonEvent cfg.sliceSize) events clock s.reader
    let fresh := r.out.drop s.reader.out.length
    let s := { s with reader := r, count := s.count + total fresh, sent := s.sent ++ fresh.flatMap (push cfg) }
    if cfg.requested.any (fun q => s.count ≥ q) then s.finish
    else
      match res with
      | .stalled => { s with waiting := true }
      | .timeout | .ok => s
      | _ => s.finish

/-- What happens to a source. -/
inductive Msg where
  /-- the stream asks for messages -/
  | run (num : Nat) (clock : Nat → Bool)
  /-- the actor is told to exit (libvast/src/system/source.cpp:159-178) -/
  | exit

/-- One message; a source that has terminated or aborted handles none.  Simplification: `atom::wakeup`
(libvast/src/system/source.cpp:334-341) makes the stream ask for messages, which is a `run`. -/
def step (cfg : Cfg L R) (s : Src L R) (m : Msg) : Src L R :=
  if s.quit || s.abort then s
  else
    match m with
    | .run num clock => run cfg num clock s
    | .exit => s.finish

/-- A history of messages. -/
def history (cfg : Cfg L R) (a : List Arr) (ms : List Msg) : Src L R := ms.foldl (step cfg) (.init a)

/-- The slices among the frames. -/
def slicesOf (fs : List (Frame L R)) : List (Slice L R) :=
  fs.filterMap fun | .slice s => some s | .eof => none

/-- The number of end-of-stream markers among the frames. -/
def eofs (fs : List (Frame L R)) : Nat := (fs.filter fun | .slice _ => false | .eof => true).length

end Verif.Reader
