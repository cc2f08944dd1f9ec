import Verif.Data.Model
/-!
# The accountant

The component to which the other components of a node report metrics. It passes
them back to the importer as table slices, and writes them to a file or a UNIX
domain socket.
-/
namespace Verif.Accountant
open Verif.Data

/-- What the code needs to know of `double`: `std::isfinite`, the conversions, zero, the largest
number, and `std::round(events * 1e9 / ns)` for a positive number of nanoseconds
(libvast/vast/system/instrumentation.hpp:43-49). Simplification: arithmetic of doubles is not
modelled; every theorem holds for all of these functions. -/
structure Dbl (R : Type) where
  finite : R → Bool
  ms : Int → R
  ofInt : Int → R
  ofNat : Nat → R
  zero : R
  max : R
  rate : Nat → Int → R

/-- The value of a metric (libvast/vast/system/report.hpp:22-25 and the handlers at
libvast/src/system/accountant.cpp:304-332). Simplification: 64-bit integers are unbounded. -/
inductive Value (R : Type) where
  | duration (ns : Int)
  | time (ns : Int)
  | integer (i : Int)
  | count (n : Nat)
  | real (x : R)
  deriving DecidableEq

/-- `measurement` (libvast/vast/system/instrumentation.hpp:24-50). -/
structure Measurement where
  ns : Int
  events : Nat
  deriving DecidableEq

/-- A row of `vast.metrics`, or a line in a file (libvast/src/system/accountant.cpp:112-118, 124-143).
Simplification: of a line the four fields are modelled, not its text. -/
structure Row (R : Type) where
  ts : Int
  actor : Str
  key : Str
  value : R
  deriving DecidableEq

/-- `detail::socket_type` (libvast/vast/detail/posix.hpp:22). -/
inductive Sock where
  | datagram | stream | fd
  deriving DecidableEq

/-- `table_slice_encoding` (libvast/vast/table_slice_encoding.hpp:23-27), without `none`, which cannot be configured. -/
inductive Encoding where
  | arrow | msgpack
  deriving DecidableEq

/-- `accountant_config` (libvast/vast/accountant/config.hpp:19-44). The type of the socket has no
default: `none` is an indeterminate value. -/
structure Cfg where
  selfEnable : Bool
  sliceSize : Int
  sliceType : Encoding
  fileEnable : Bool
  fileRealTime : Bool
  filePath : Str
  udsEnable : Bool
  udsRealTime : Bool
  udsPath : Str
  udsType : Option Sock
  deriving DecidableEq

/-- A default constructed configuration (libvast/vast/accountant/config.hpp:20-38). -/
def Cfg.default : Cfg :=
  { selfEnable := true, sliceSize := 128, sliceType := .arrow, fileEnable := false, fileRealTime := false, filePath := [],
    udsEnable := false, udsRealTime := false, udsPath := [], udsType := none }

/-- Which paths can be opened for writing, and to which sockets a connection can be made. -/
structure World where
  writable : Str → Bool
  connectable : Str → Bool

/-- Where text goes. -/
inductive Chan where
  | file (path : Str)
  | stream (path : Str)
  | datagram (path : Str)
  deriving DecidableEq

/-- `accountant_state_impl` (libvast/src/system/accountant.cpp:48-89), and what left the actor: the slices
pushed to the importer and the lines, each with whether it was flushed at once. `file` holds the path of the stream and
whether it is open. -/
structure State (R : Type) where
  names : Nat → Option Str
  builder : List (Row R)
  buffer : List (List (Row R))
  sent : List (List (Row R))
  file : Option (Str × Bool)
  uds : Option Str
  dgram : Option Str
  cfg : Cfg
  out : List (Chan × Row R × Bool)
  alive : Bool

variable {R : Type}

/-- `finish_slice` (libvast/src/system/accountant.cpp:93-102). `advance` lets the stream ask for slices; how many it asks for
is the environment's choice (`Ev.pull`). -/
def State.finish (s : State R) : State R :=
  if s.builder.length = 0 then s
  else { s with buffer := s.buffer ++ [s.builder], builder := [] }

/-- The rows of a builder as an unsigned 64-bit number compared with the configured slice size
(libvast/src/system/accountant.cpp:124). -/
def full (rows : Nat) (size : Int) : Bool := (rows : Int) == size % 2 ^ 64

/-- `record_internally` (libvast/src/system/accountant.cpp:104-126). `actor_map[id]` is the empty string for unknown
actors. -/
def State.internally (D : Dbl R) (s : State R) (sender : Nat) (key : Str) (x : R) (ts : Int) : State R :=
  if !D.finite x then s
  else
    let actor := (s.names sender).getD []
    let s := { s with names := fun i => if i = sender then some actor else s.names i,
                      builder := s.builder ++ [⟨ts, actor, key, x⟩] }
    if full s.builder.length s.cfg.sliceSize then s.finish else s

/-- `to_json_line` with the write to a channel (libvast/src/system/accountant.cpp:128-161). -/
def State.write (s : State R) (c : Chan) (rt : Bool) (sender : Nat) (key : Str) (x : R) (ts : Int) : State R :=
  let actor := (s.names sender).getD []
  { s with names := fun i => if i = sender then some actor else s.names i,
           out := s.out ++ [(c, ⟨ts, actor, key, x⟩, rt)] }

/-- `record` for the file (libvast/src/system/accountant.cpp:167-168): writing to a stream that is not open
does nothing. -/
def State.toFile (s : State R) (sender : Nat) (key : Str) (x : R) (ts : Int) : State R :=
  match s.file with
  | some (p, true) => s.write (.file p) s.cfg.fileRealTime sender key x ts
  | _ => s

/-- `record` for the stream socket (libvast/src/system/accountant.cpp:169-170). -/
def State.toStream (s : State R) (sender : Nat) (key : Str) (x : R) (ts : Int) : State R :=
  match s.uds with
  | some p => s.write (.stream p) s.cfg.udsRealTime sender key x ts
  | none => s

/-- `record` for the datagram socket (libvast/src/system/accountant.cpp:171-172). A datagram is sent at once.
Simplification: errors of `sendto`, which are ignored, are not modelled. -/
def State.toDgram (s : State R) (sender : Nat) (key : Str) (x : R) (ts : Int) : State R :=
  match s.dgram with
  | some p => s.write (.datagram p) true sender key x ts
  | none => s

/-- `record` (libvast/src/system/accountant.cpp:163-173). -/
def State.record (D : Dbl R) (s : State R) (sender : Nat) (key : Str) (x : R) (ts : Int) : State R :=
  let s := if s.cfg.selfEnable then s.internally D sender key x ts else s
  let s := s.toFile sender key x ts
  let s := s.toStream sender key x ts
  s.toDgram sender key x ts

/-- The overloads of `record` (libvast/src/system/accountant.cpp:163-184): durations and times, as time since the
epoch, in milliseconds; integers and counts converted to `double`. -/
def Dbl.toReal (D : Dbl R) : Value R → R
  | .duration ns => D.ms ns
  | .time ns => D.ms ns
  | .integer i => D.ofInt i
  | .count n => D.ofNat n
  | .real x => x

/-- `rate_per_sec` (libvast/vast/system/instrumentation.hpp:43-49). -/
def Dbl.ratePerSec (D : Dbl R) (m : Measurement) : R :=
  if 0 < m.ns then D.rate m.events m.ns else D.max

/-- The handler of a `report` (libvast/src/system/accountant.cpp:333-342). -/
def State.report (D : Dbl R) (s : State R) (sender : Nat) (ts : Int) : List (Str × Value R) → State R
  | [] => s
  | (k, v) :: rest => (s.record D sender k (D.toReal v) ts).report D sender ts rest

/-- The rate that is recorded for a measurement (libvast/src/system/accountant.cpp:350-359). -/
def Dbl.recordedRate (D : Dbl R) (m : Measurement) : R :=
  if m.events = 0 then D.zero
  else
    let rate := D.ratePerSec m
    if D.finite rate then rate else D.max

/-- The handler of a `performance_report` (libvast/src/system/accountant.cpp:343-367), without the log. -/
def State.performance (D : Dbl R) (s : State R) (sender : Nat) (ts : Int) : List (Str × Measurement) → State R
  | [] => s
  | (k, m) :: rest =>
    let s := s.record D sender (k ++ str ".events") (D.toReal (.count m.events)) ts
    let s := s.record D sender (k ++ str ".duration") (D.toReal (.duration m.ns)) ts
    let s := s.record D sender (k ++ str ".rate") (D.recordedRate m) ts
    s.performance D sender ts rest

/-- `apply_config`, for the file (libvast/src/system/accountant.cpp:199-217). `make_output_stream` for a regular file returns a stream
even if the file cannot be opened (libvast/src/detail/make_io_stream.cpp:126-130). Simplification: `-` for the
standard output is a path like another. -/
def applyFile (W : World) (old new : Cfg) (file : Option (Str × Bool)) : Option (Str × Bool) :=
  let start := new.fileEnable && !old.fileEnable
  let stop := !new.fileEnable && old.fileEnable
  let file := if stop then none else file
  if start then some (new.filePath, W.writable new.filePath) else file

/-- `apply_config`, for the stream socket (libvast/src/system/accountant.cpp:218-245). -/
def applyUds (W : World) (old new : Cfg) (uds : Option Str) : Option Str :=
  let start := new.udsEnable && !old.udsEnable
  let stop := !new.udsEnable && old.udsEnable
  let uds := if stop then none else uds
  if start && new.udsType != some .datagram && W.connectable new.udsPath then some new.udsPath else uds

/-- `apply_config`, for the datagram socket (libvast/src/system/accountant.cpp:224-234). Making a sender does not connect
(libvast/src/detail/posix.cpp:83-132). Simplification: it does not fail. An indeterminate type is taken for a stream. -/
def applyDgram (old new : Cfg) (dgram : Option Str) : Option Str :=
  let start := new.udsEnable && !old.udsEnable
  if start && new.udsType == some .datagram then some new.udsPath else dgram

/-- `apply_config` (libvast/src/system/accountant.cpp:199-247). -/
def State.apply (W : World) (s : State R) (c : Cfg) : State R :=
  { s with file := applyFile W s.cfg c s.file,
           uds := applyUds W s.cfg c s.uds,
           dgram := applyDgram s.cfg c s.dgram,
           cfg := c }

/-- The messages of an accountant (libvast/src/system/accountant.cpp:250-386). `pull` is the stream asking for slices. The
time of a metric is that of the clock when it is handled. -/
inductive Ev (R : Type) where
  | announce (sender : Nat) (name : Str)
  | down (sender : Nat)
  | metric (sender : Nat) (ts : Int) (key : Str) (value : Value R)
  | report (sender : Nat) (ts : Int) (points : List (Str × Value R))
  | performance (sender : Nat) (ts : Int) (samples : List (Str × Measurement))
  | pull (num : Nat)
  | config (c : Cfg)
  | exit

/-- "get next element" of the stream (libvast/src/system/accountant.cpp:276-289). -/
def pullLoop : Nat → List (List (Row R)) → List (List (Row R)) → List (List (Row R)) × List (List (Row R))
  | 0, buffer, sent => (buffer, sent)
  | _ + 1, [], sent => ([], sent)
  | num + 1, slice :: rest, sent => pullLoop num rest (sent ++ [slice])

/-- One message (libvast/src/system/accountant.cpp:250-386). An actor that quit does nothing. -/
def step (D : Dbl R) (W : World) (s : State R) : Ev R → State R := fun e =>
  if !s.alive then s
  else match e with
  | .announce sender name => { s with names := fun i => if i = sender then some name else s.names i }
  | .down sender => { s with names := fun i => if i = sender then none else s.names i }
  | .metric sender ts key v => s.record D sender key (D.toReal v) ts
  | .report sender ts ps => s.report D sender ts ps
  | .performance sender ts ps => s.performance D sender ts ps
  | .pull num =>
    let r := pullLoop num s.buffer s.sent
    { s with buffer := r.1, sent := r.2 }
  | .config c => s.apply W c
  | .exit => { s.finish with alive := false }

/-- The constructor (libvast/src/system/accountant.cpp:55-58): the configuration is applied over a default one. -/
def init (R : Type) (W : World) (c : Cfg) : State R :=
  State.apply W { names := fun _ => none, builder := [], buffer := [], sent := [], file := none, uds := none, dgram := none,
                  cfg := Cfg.default, out := [], alive := true } c

/-- An accountant after some messages. -/
def run (D : Dbl R) (W : World) (c : Cfg) (es : List (Ev R)) : State R := es.foldl (step D W) (init R W c)

/-! ## The configuration file -/

/-- Values in a configuration, as far as they matter here. -/
inductive CV where
  | bool (b : Bool)
  | int (i : Int)
  | str (s : Str)
  deriving DecidableEq

/-- The parser of `socket_type` (libvast/vast/concept/parseable/detail/posix.hpp:22-36); what follows is ignored. -/
def parseSock (t : Str) : Option Sock :=
  if (str "datagram").isPrefixOf t then some .datagram
  else if (str "stream").isPrefixOf t then some .stream
  else if (str "fd").isPrefixOf t then some .fd
  else none

/-- The parser of `table_slice_encoding` (libvast/vast/concept/parseable/vast/table_slice_encoding.hpp:19-30). -/
def parseEncoding (t : Str) : Option Encoding :=
  if (str "arrow").isPrefixOf t then some .arrow
  else if (str "msgpack").isPrefixOf t then some .msgpack
  else none

/-- `extract_settings` for a type of configuration values (libvast/vast/component_config.hpp:25-39). The result, whether there was
an error, is not used by the caller. -/
def extract {α : Type} (sel : CV → Option α) (to : α) : Option CV → α
  | none => to
  | some v => (sel v).getD to

/-- A boolean. -/
def CV.bool? : CV → Option Bool
  | .bool b => some b
  | _ => none

/-- An integer. -/
def CV.int? : CV → Option Int
  | .int i => some i
  | _ => none

/-- A string. -/
def CV.str? : CV → Option Str
  | .str s => some s
  | _ => none

/-- `extract_settings` for other types (libvast/vast/component_config.hpp:40-45). -/
def CV.parsed? {α : Type} (p : Str → Option α) : CV → Option α
  | .str s => p s
  | _ => none

/-- `to_accountant_config` (libvast/src/accountant/config.cpp:17-32). -/
def toConfig (opts : Str → Option CV) : Cfg :=
  let d := Cfg.default
  { selfEnable := extract CV.bool? d.selfEnable (opts (str "self-sink.enable"))
    sliceSize := extract CV.int? d.sliceSize (opts (str "self-sink.slice-size"))
    sliceType := extract (CV.parsed? parseEncoding) d.sliceType (opts (str "self-sink.slice-type"))
    fileEnable := extract CV.bool? d.fileEnable (opts (str "file-sink.enable"))
    filePath := extract CV.str? d.filePath (opts (str "file-sink.path"))
    fileRealTime := extract CV.bool? d.fileRealTime (opts (str "file_sink.real-time"))
    udsEnable := extract CV.bool? d.udsEnable (opts (str "uds-sink.enable"))
    udsPath := extract CV.str? d.udsPath (opts (str "uds-sink.path"))
    udsRealTime := extract CV.bool? d.udsRealTime (opts (str "uds-sink.real-time"))
    udsType := extract (fun v => (CV.parsed? parseSock v).map some) d.udsType (opts (str "uds-sink.type")) }

end Verif.Accountant
