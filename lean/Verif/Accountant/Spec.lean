import Verif.Accountant.Model
/-!
# What an accountant owes to those who report to it
-/
namespace Verif.Accountant.Spec
open Verif.Data Verif.Accountant

variable {R : Type}

/-- The configuration in force after some messages, the last message first. -/
def cfgAfter (c : Cfg) : List (Ev R) → Cfg
  | [] => c
  | .config c' :: _ => c'
  | _ :: past => cfgAfter c past

/-- The name of an actor after some messages, the last message first: the one that it announced last, and
none if it never announced one or went down since. -/
def nameAfter (a : Nat) : List (Ev R) → Str
  | [] => []
  | .announce a' n :: past => if a' = a then n else nameAfter a past
  | .down a' :: past => if a' = a then [] else nameAfter a past
  | _ :: past => nameAfter a past

/-- The number for a value: durations, and times since 1970, in milliseconds. -/
def number (D : Dbl R) : Value R → R
  | .duration ns | .time ns => D.ms ns
  | .integer i => D.ofInt i
  | .count n => D.ofNat n
  | .real x => x

/-- The rate of a measurement: 0 if there were no events, and the largest number if it is too large. -/
def rate (D : Dbl R) (m : Measurement) : R :=
  if m.events = 0 then D.zero
  else if m.ns ≤ 0 then D.max
  else if D.finite (D.rate m.events m.ns) then D.rate m.events m.ns
  else D.max

/-- The metrics in a message: sender, time, key and number. -/
def metrics (D : Dbl R) : Ev R → List (Nat × Int × Str × R)
  | .metric a ts k v => [(a, ts, k, number D v)]
  | .report a ts ps => ps.map fun (k, v) => (a, ts, k, number D v)
  | .performance a ts ps => ps.flatMap fun (k, m) =>
      [(a, ts, k ++ str ".events", D.ofNat m.events),
       (a, ts, k ++ str ".duration", D.ms m.ns),
       (a, ts, k ++ str ".rate", rate D m)]
  | _ => []

/-- The metrics in some messages up to an exit, each with the configuration in force and with the name of
its sender at that time. `past` are the earlier messages, the last one first. -/
def reported (D : Dbl R) (c : Cfg) (past : List (Ev R)) : List (Ev R) → List (Cfg × Row R)
  | [] => []
  | .exit :: _ => []
  | e :: es =>
    (metrics D e).map (fun (a, ts, k, x) => (cfgAfter c past, ⟨ts, nameAfter a past, k, x⟩))
      ++ reported D c (e :: past) es

/-- The rows for the importer: finite numbers that were reported while metrics are ingested. -/
def rows (D : Dbl R) (c : Cfg) (es : List (Ev R)) : List (Row R) :=
  ((reported D c [] es).filter fun (cfg, r) => cfg.selfEnable && D.finite r.value).map (·.2)

/-- All configurations of an accountant. -/
def configs (c : Cfg) (es : List (Ev R)) : List Cfg :=
  c :: es.filterMap fun | .config c' => some c' | _ => none

/-- Successive configurations. -/
def Successive (P : Cfg → Cfg → Prop) : List Cfg → Prop
  | a :: b :: rest => P a b ∧ Successive P (b :: rest)
  | _ => True

/-- The lines for the file: those that were reported while it is configured, and flushed at once if so configured. -/
def fileLines (D : Dbl R) (W : World) (c : Cfg) (es : List (Ev R)) : List (Str × Row R × Bool) :=
  ((reported D c [] es).filter fun (cfg, _) => cfg.fileEnable && W.writable cfg.filePath).map
    fun (cfg, r) => (cfg.filePath, r, cfg.fileRealTime)

/-- The lines for stream sockets. -/
def streamLines (D : Dbl R) (W : World) (c : Cfg) (es : List (Ev R)) : List (Str × Row R × Bool) :=
  ((reported D c [] es).filter fun (cfg, _) => cfg.udsEnable && decide (cfg.udsType ≠ some .datagram) && W.connectable cfg.udsPath).map
    fun (cfg, r) => (cfg.udsPath, r, cfg.udsRealTime)

/-- The datagrams. -/
def datagrams (D : Dbl R) (c : Cfg) (es : List (Ev R)) : List (Str × Row R) :=
  ((reported D c [] es).filter fun (cfg, _) => cfg.udsEnable && decide (cfg.udsType = some .datagram)).map
    fun (cfg, r) => (cfg.udsPath, r)

/-- What was written to files. -/
def toFiles (out : List (Chan × Row R × Bool)) : List (Str × Row R × Bool) :=
  out.filterMap fun | (.file p, r, rt) => some (p, r, rt) | _ => none

/-- What was written to stream sockets. -/
def toStreams (out : List (Chan × Row R × Bool)) : List (Str × Row R × Bool) :=
  out.filterMap fun | (.stream p, r, rt) => some (p, r, rt) | _ => none

/-- What was sent as datagrams. -/
def toDatagrams (out : List (Chan × Row R × Bool)) : List (Str × Row R) :=
  out.filterMap fun | (.datagram p, r, _) => some (p, r) | _ => none

/-- An option is set to a value of its type. -/
inductive Sets : (Str → Option CV) → String → CV → Prop
  | mk {opts : Str → Option CV} {k : String} {v : CV} : opts (str k) = some v → Sets opts k v

end Verif.Accountant.Spec
