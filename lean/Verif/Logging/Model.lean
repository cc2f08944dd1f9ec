/-!
# Logging

Models which messages a process logs, and where: libvast/src/logger.cpp:48-297 and the macros of libvast/vast/logger.hpp:15-141.

Simplifications: files are written without errors, the format and the rotation of files, colors and the queue of the logger are left
out; so is which of the three console sinks it is (221-251).  Texts are lists of characters; `caf::atom_from_string` keeps those
that name a level, up to their case, apart from all others.
-/
namespace Verif.Logging

/-- The levels (libvast/vast/config.hpp.in:40-47). -/
inductive Level where
  | quiet | critical | error | warning | info | verbose | debug | trace
deriving DecidableEq

/-- Their numbers (config.hpp.in:40-47; those of CAF are 0, 3, 6, 9, 12 and 15). -/
def Level.toNat : Level → Nat
  | .quiet => 0
  | .critical => 1
  | .error => 3
  | .warning => 6
  | .info => 9
  | .verbose => 11
  | .debug => 12
  | .trace => 15

/-- `loglevel_to_int` (logger.cpp:48-67); `none` is the default, -1. -/
def level? (s : List Char) : Option Level :=
  let t := s.map Char.toLower
  if t = ['q', 'u', 'i', 'e', 't'] then some .quiet
  else if t = ['e', 'r', 'r', 'o', 'r'] then some .error
  else if t = ['w', 'a', 'r', 'n', 'i', 'n', 'g'] then some .warning
  else if t = ['i', 'n', 'f', 'o'] then some .info
  else if t = ['v', 'e', 'r', 'b', 'o', 's', 'e'] then some .verbose
  else if t = ['d', 'e', 'b', 'u', 'g'] then some .debug
  else if t = ['t', 'r', 'a', 'c', 'e'] then some .trace
  else none

/-- `vast_loglevel_to_spd` (logger.cpp:86-112), as the numbers of spdlog: 0 is trace, 1 debug, 2 info, 3 warn, 4 err, 5 critical, 6
off.  `critical` is not a level that one can configure (71-83). -/
def Level.toSpd : Level → Nat
  | .quiet => 6
  | .critical => 6
  | .error => 4
  | .warning => 3
  | .info => 2
  | .verbose => 1
  | .debug => 0
  | .trace => 0

/-- The level of spdlog at which a macro logs (logger.hpp:60-141). -/
def macroSpd : Level → Nat
  | .quiet => 6
  | .critical => 5
  | .error => 4
  | .warning => 3
  | .info => 2
  | .verbose => 1
  | .debug => 0
  | .trace => 0

/-- The options.
* `server`: is it `vast start`, or `--node`? (logger.cpp:124-125)
* `consoleVerbosity`, `fileVerbosity`: in the configuration, into which the command line has been merged (vast/vast.cpp:78-81)
* `verbosity`: on the command line
* `logFile`, `cmdLogFile`: `vast.log-file` in the configuration and on the command line
* `clientLogFile`, `cmdClientLogFile`: `vast.client-log-file`
* `dbDirectory`: `vast.db-directory` in the configuration, or its default -/
structure Options where
  server : Bool
  consoleVerbosity : Option (List Char)
  verbosity : Option (List Char)
  fileVerbosity : Option (List Char)
  logFile : Option (List Char)
  cmdLogFile : Option (List Char)
  clientLogFile : Option (List Char)
  cmdClientLogFile : Option (List Char)
  dbDirectory : List Char

/-- The logger. -/
structure Logger where
  level : Nat
  console : Nat
  file : Option (List Char × Nat)
deriving DecidableEq

/-- `defaults::logger::log_file` (vast/defaults.hpp:150): `server.log`. -/
def defaultLogFile : List Char := ['s', 'e', 'r', 'v', 'e', 'r', '.', 'l', 'o', 'g']

/-- An option with a verbosity (logger.cpp:127-141, 144-153, 154-167): what is not a level is an error. -/
def pick (text : Option (List Char)) (default : Level) : Option Level :=
  match text with
  | none => some default
  | some s => level? s

/-- The name of the file, if there is one (logger.cpp:181-216, 261). -/
def fileName (o : Options) (v : Level) : Option (List Char) :=
  let f := o.cmdLogFile.getD (o.logFile.getD defaultLogFile)
  if o.server then
    if v = .quiet then none
    else if f = defaultLogFile then some (o.dbDirectory ++ '/' :: f) else some f
  else
    match o.cmdClientLogFile.orElse (fun _ => o.clientLogFile) with
    | none => none
    | some g => if v = .quiet then none else some g

/-- `setup_spdlog` (logger.cpp:118-293); `none` if it fails. -/
def setup (o : Options) : Option Logger := do
  let console ← pick o.consoleVerbosity .info
  let console ← pick o.verbosity console
  let file ← pick o.fileVerbosity .debug
  let both := if file.toNat < console.toNat then console else file -- std::max
  return ⟨both.toSpd, console.toSpd, (fileName o file).map (·, file.toSpd)⟩

/-- Does a message get to the console?  `built` is the level that VAST is built with, `VAST_LOG_LEVEL` (logger.hpp:45-141).
spdlog: the logger and the sink let messages pass from their level on. -/
def onConsole (built : Level) (l : Logger) (m : Level) : Bool :=
  decide (m.toNat ≤ built.toNat) && decide (l.level ≤ macroSpd m) && decide (l.console ≤ macroSpd m)

/-- The file that a message gets to. -/
def inFile (built : Level) (l : Logger) (m : Level) : Option (List Char) :=
  match l.file with
  | none => none
  | some (f, v) =>
    if decide (m.toNat ≤ built.toNat) && decide (l.level ≤ macroSpd m) && decide (v ≤ macroSpd m) then some f else none

end Verif.Logging
