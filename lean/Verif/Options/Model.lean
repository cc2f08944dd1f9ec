import Verif.Client.Model
import Verif.DiskMonitor.Model
/-!
Options that turn into limits.

Models sizes in bytes (`libvast/vast/concept/parseable/vast/si.hpp`, `get_bytesize` of `libvast/src/detail/settings.cpp`), the options
of the disk monitor (`libvast/src/system/spawn_disk_monitor.cpp`, `validate` of `disk_monitor.cpp`), of `vast explore`
(`libvast/src/system/spawn_explorer.cpp`) and of the sources of `vast import` (`libvast/src/system/make_source.cpp` and the
first lines of the handler in `source.cpp`).

What `caf::get_or` and `caf::get_if` do is trusted: a value of another type counts as missing.
-/
namespace Verif.Options
open Verif.DataText Verif.Data

/-- A value in the configuration: a number that fits into 64 bits without a sign, a negative number, a text, or anything else. -/
inductive Opt where
  | num (n : Nat)
  | neg (n : Nat)
  | text (s : Str)
  | other
deriving DecidableEq

/-! ## Sizes in bytes -/

/-- The units in the order of `si_parser` (si.hpp:35-47), with the literals of `libvast/vast/si_literals.hpp:14-60`. -/
def units : List (List Char × Nat) :=
  [(['K', 'i'], 2 ^ 10), (['M', 'i'], 2 ^ 20), (['G', 'i'], 2 ^ 30), (['T', 'i'], 2 ^ 40), (['P', 'i'], 2 ^ 50), (['E', 'i'], 2 ^ 60),
   (['k'], 10 ^ 3), (['M'], 10 ^ 6), (['G'], 10 ^ 9), (['T'], 10 ^ 12), (['P'], 10 ^ 15), (['E'], 10 ^ 18)]

/-- The choice between the units (si.hpp:34-47), after the number `n`: the product is computed in 64 bits. -/
def unitP (n : Nat) : List (List Char × Nat) → Str → Nat × Str
  | [], s => (n, s)
  | (u, f) :: us, s => match kw u (skipWs s) with
    | some r => (n * f % 2 ^ 64, r)
    | none => unitP n us s

/-- `si_parser<uint64_t>` (si.hpp:23-51). -/
def countP : P Nat := fun s => (uintP 64 20 1 s).map fun (n, r) => unitP n units r

/-- `parsers::bytesize` (si.hpp:55) on a whole string. -/
def bytesize (s : Str) : Option Nat := (countP s).bind fun (n, r) => match eat 'B' r with
  | some r => if r = [] then some n else none
  | none => if r = [] then some n else none

/-- `get_bytesize` (settings.cpp:73-95). -/
def getBytesize (v : Option Opt) (default : Nat) : Option Nat :=
  match v with
  | none => some default
  | some (.num n) => some n
  | some (.text s) => bytesize s
  | some _ => none

/-! ## The disk monitor -/

/-- The options, and which files exist. -/
structure DiskOpts where
  high : Option Opt := none
  low : Option Opt := none
  step : Option Opt := none
  interval : Option Opt := none
  binary : Option Opt := none

/-- `disk_monitor_config` (`libvast/vast/system/disk_monitor.hpp:20-40`). -/
structure DiskConfig where
  high : Nat
  low : Nat
  step : Nat
  binary : Option Str
  interval : Int
deriving DecidableEq

/-- How `spawn_disk_monitor` ends. -/
inductive Spawned where
  | error
  | disabled
  | started (c : DiskConfig)
deriving DecidableEq

/-- `validate` (disk_monitor.cpp:45-68). -/
def validate (files : Str → Bool) (c : DiskConfig) : Bool :=
  if c.step < 1 then false
  else if c.low > c.high then false
  else match c.binary with
    | none => true
    | some [] => false
    | some (b :: p) => if b ≠ ch '/' then false else files (b :: p)

/-- `defaults::system::disk_monitor_step_size` and `disk_scan_interval` (`libvast/vast/defaults.hpp`). -/
def defaultStep : Nat := 1
def defaultInterval : Int := 60

/-- `spawn_disk_monitor` (spawn_disk_monitor.cpp:25-79), given that there is an index.  `dir` tells whether the database directory
exists. -/
def spawnDisk (files : Str → Bool) (dir : Bool) (o : DiskOpts) : Spawned :=
  let command := match o.binary with | some (.text s) => some s | _ => none
  match getBytesize o.high 0, getBytesize o.low 0 with
  | some high, some low =>
    let low := if low = 0 then high else low
    let step := match o.step with | some (.num n) => n | _ => defaultStep
    let interval : Int := match o.interval with | some (.num n) => n | some (.neg n) => -(n : Int) | _ => defaultInterval
    let c : DiskConfig := ⟨high, low, step, command, interval⟩
    if !validate files c then .error
    else if high = 0 then .disabled
    else if !dir then .error
    else .started c
  | _, _ => .error

/-! ## Exploring -/

/-- The options of `vast explore`. -/
structure ExploreOpts where
  before : Option Opt := none
  after : Option Opt := none
  by' : Option Opt := none

/-- `caf::get_if<std::string>`. -/
def text : Option Opt → Option Str
  | some (.text s) => some s
  | _ => none

/-- `explorer_validate_args` (spawn_explorer.cpp:33-71): `true` if there is no error.  `dur` is the parser of durations, in
nanoseconds. -/
def exploreValid (dur : Str → Option Int) (o : ExploreOpts) : Bool :=
  if text o.before = none ∧ text o.after = none ∧ o.by' = none then false
  else match (text o.before).map dur with
    | some none => false
    | b => match (text o.after).map dur with
      | some none => false
      | a =>
        if o.by' = none then
          if (b.bind id).getD 0 ≤ 0 ∧ (a.bind id).getD 0 ≤ 0 then false else true
        else true

/-- What the explorer is spawned with (spawn_explorer.cpp:73-98): the times before and after, and the field. -/
def spawnExplorer (dur : Str → Option Int) (o : ExploreOpts) : Option (Option Int × Option Int × Option Str) :=
  if exploreValid dur o then some ((text o.before).bind dur, (text o.after).bind dur, text o.by') else none

/-! ## Sources -/

/-- The options of `vast import` that `make_source` looks at. -/
structure ImportOpts where
  maxEvents : Option Opt := none
  listen : Option Opt := none
  read : Option Opt := none
  batchSize : Option Opt := none

/-- Where a source gets its input and how much of it: the UDP port, if any, the size of the slices, and the number of events. -/
structure Source where
  udp : Option Nat
  slice : Nat
  requested : Option Nat
deriving DecidableEq

/-- `defaults::import::table_slice_size` (`libvast/vast/defaults.hpp`). -/
def defaultSlice : Nat := 1024

/-- `caf::get_if<size_t>`. -/
def number : Option Opt → Option Nat
  | some (.num n) => some n
  | _ => none

/-- `make_source` (make_source.cpp:49-115), with the reader and the schema given. -/
def makeSource (o : ImportOpts) : Option Source :=
  let requested := number o.maxEvents
  let slice := (number o.batchSize).getD defaultSlice
  let slice := if slice = 0 then 2 ^ 64 - 1 else slice
  match text o.listen with
  | none => some ⟨none, slice, requested⟩
  | some uri =>
    if (text o.read).isSome then none
    else match Client.parseEndpoint uri with
      | none => none
      | some e => match e.port with
        | none => none
        | some p =>
          let p := if p.proto = .unknown then { p with proto := .tcp } else p
          if p.proto = .udp then some ⟨some p.number, slice, requested⟩ else none

/-- The number of events that a source asks its reader for (source.cpp:222-228), if `credit` slices may be sent and `count` events
were read before.  `none` means that the assertion of `read` (`libvast/vast/format/reader.hpp:79`) fails. -/
def toRead (s : Source) (credit count : Nat) : Option Nat :=
  let events := credit * s.slice % 2 ^ 64
  let events := match s.requested with | some r => min events (r - count) | none => events
  if events = 0 then none else some events

end Verif.Options
