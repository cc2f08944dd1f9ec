import Verif.Logging.Model
/-!
# What is asked of logging
-/
namespace Verif.Logging.Spec

/-- Messages have a level of their own; `quiet` is none. -/
def Message (m : Level) : Prop := m ≠ .quiet

/-- The order of the levels, from few to many messages. -/
def rank : Level → Nat
  | .quiet => 0
  | .critical => 1
  | .error => 2
  | .warning => 3
  | .info => 4
  | .verbose => 5
  | .debug => 6
  | .trace => 7

/-- The names of the levels that one can configure. -/
def name : Level → String
  | .quiet => "quiet"
  | .critical => "critical"
  | .error => "error"
  | .warning => "warning"
  | .info => "info"
  | .verbose => "verbose"
  | .debug => "debug"
  | .trace => "trace"

/-- A text names a level, in upper or lower case. -/
def Names (s : List Char) (v : Level) : Prop := v ≠ .critical ∧ s.map Char.toLower = (name v).toList

/-- The verbosity on the console: from the command line, or else from the configuration, or else `info`. -/
def ConsoleVerbosity (o : Options) (v : Level) : Prop :=
  match o.verbosity, o.consoleVerbosity with
  | some s, _ => Names s v
  | none, some s => Names s v
  | none, none => v = .info

/-- The verbosity in the file: from the configuration, or else `debug`. -/
def FileVerbosity (o : Options) (v : Level) : Prop :=
  match o.fileVerbosity with
  | some s => Names s v
  | none => v = .debug

/-- The one of two options that counts: the one on the command line. -/
def Given (cmd config : Option (List Char)) (g : List Char) : Prop := cmd = some g ∨ (cmd = none ∧ config = some g)

/-- The log file.  That of a server is `server.log` in the directory of its database, unless another name is given.  Clients have
none, unless one is given for clients. -/
def LogFile (o : Options) (g : List Char) : Prop :=
  if o.server then
    (∃ f, Given o.cmdLogFile o.logFile f ∧ f ≠ "server.log".toList ∧ g = f) ∨
    ((∀ f, Given o.cmdLogFile o.logFile f → f = "server.log".toList) ∧ g = o.dbDirectory ++ "/server.log".toList)
  else Given o.cmdClientLogFile o.clientLogFile g

end Verif.Logging.Spec
