import Verif.Calendar.TextSpec
import Verif.Syslog.Model
/-!
# Messages of RFC 5424

The grammar of section 6 of the RFC, with what it says about the values.
-/
namespace Verif.Syslog.Spec
open Verif.Data Verif.DataText Verif.Calendar

/-- Decimal digits. -/
def Digits (t : Str) : Prop := t ≠ [] ∧ t.length ≤ 3 ∧ ∀ b ∈ t, 48 ≤ b.toNat ∧ b.toNat ≤ 57

/-- The number they stand for. -/
def number (t : Str) : Nat := t.foldl (fun n b => n * 10 + (b.toNat - 48)) 0

/-- A point in time, in Universal Time (`Z`) or with an offset; `n` is the day since 1970 and `frac` has the number of digits of the fraction of
the second and their value. -/
structure Stamp where
  n : Int
  y : Nat
  m : Nat
  d : Nat
  h : Nat
  mi : Nat
  s : Nat
  frac : Option (Nat × Nat)
  zone : Option (Bool × Nat × Nat)

/-- `TIMESTAMP` -/
def Stamp.text (t : Stamp) : Str :=
  dateText t.y t.m t.d ++ [ch 'T'] ++ clockText t.h t.mi t.s ++
    (match t.frac with
    | none => []
    | some (k, f) => [ch '.'] ++ field k f) ++
    match t.zone with
    | none => [ch 'Z']
    | some (neg, zh, zm) => zoneText neg zh zm

/-- A day that exists, from 1900 on and before the end of 64-bit nanoseconds, and a time of this day. -/
def Stamp.Valid (t : Stamp) : Prop :=
  DaysSince1970 t.n ⟨t.y, t.m, t.d⟩ ∧ 1900 ≤ t.y ∧ t.y ≤ 2261 ∧ t.h < 24 ∧ t.mi < 60 ∧ t.s < 60 ∧
    (∀ k f, t.frac = some (k, f) → 1 ≤ k ∧ k ≤ 6 ∧ f < 10 ^ k) ∧ ∀ neg zh zm, t.zone = some (neg, zh, zm) → zh < 24 ∧ zm < 60

/-- The nanoseconds since 1970. -/
def Stamp.instant (t : Stamp) : Int :=
  let offset : Int := match t.zone with
    | none => 0
    | some (neg, zh, zm) => (if neg then -1 else 1) * (zh * 60 + zm)
  let sub : Nat := match t.frac with
    | none => 0
    | some (k, f) => f * 10 ^ (9 - k)
  ((((t.n * 24 + t.h) * 60 + t.mi) - offset) * 60 + t.s) * 10 ^ 9 + sub

/-- A message.  `none` is the value `-` of the RFC; in `msg`, the text with or without a byte order mark before it. -/
structure Msg where
  pri : Str
  version : Str
  stamp : Option Stamp
  host : Option Str
  app : Option Str
  proc : Option Str
  mid : Option Str
  data : List (Str × List (Str × Str))
  msg : Option (Bool × Str)

/-- `PRINTUSASCII` -/
def Ascii (b : UInt8) : Prop := 33 ≤ b.toNat ∧ b.toNat ≤ 126

/-- A name of at most `max` characters that is not `-`. -/
def Name (max : Nat) (t : Option Str) : Prop := ∀ x, t = some x → x ≠ [] ∧ x.length ≤ max ∧ (∀ b ∈ x, Ascii b) ∧ x ≠ [ch '-']

/-- `SD-NAME` -/
def SdName (t : Str) : Prop := t ≠ [] ∧ t.length ≤ 32 ∧ ∀ b ∈ t, Ascii b ∧ b ≠ ch '=' ∧ b ≠ ch ']' ∧ b ≠ ch '"'

/-- A value or `-`. -/
def dash (t : Option Str) : Str := t.getD [ch '-']

/-- `PARAM-VALUE`: three characters get a backslash. -/
def escape (v : Str) : Str := v.flatMap fun b => if b = ch '"' ∨ b = ch '\\' ∨ b = ch ']' then [ch '\\', b] else [b]

/-- `SP SD-PARAM` -/
def paramText (p : Str × Str) : Str := [ch ' '] ++ p.1 ++ [ch '=', ch '"'] ++ escape p.2 ++ [ch '"']

/-- `SD-ELEMENT` -/
def elementText (e : Str × List (Str × Str)) : Str := [ch '['] ++ e.1 ++ e.2.flatMap paramText ++ [ch ']']

/-- `STRUCTURED-DATA` -/
def dataText (d : List (Str × List (Str × Str))) : Str := if d = [] then [ch '-'] else d.flatMap elementText

/-- The byte order mark. -/
def bom : Str := [0xEF, 0xBB, 0xBF]

/-- `[SP MSG]` -/
def tail : Option (Bool × Str) → Str
  | none => []
  | some (mark, t) => [ch ' '] ++ (if mark then bom else []) ++ t

/-- `SYSLOG-MSG` -/
def Msg.text (m : Msg) : Str :=
  [ch '<'] ++ m.pri ++ [ch '>'] ++ m.version ++ [ch ' '] ++ dash (m.stamp.map Stamp.text) ++ [ch ' '] ++ dash m.host ++ [ch ' '] ++ dash m.app ++
    [ch ' '] ++ dash m.proc ++ [ch ' '] ++ dash m.mid ++ [ch ' '] ++ dataText m.data ++ tail m.msg

/-- The message follows the RFC. -/
structure Msg.Valid (m : Msg) : Prop where
  pri : Digits m.pri ∧ number m.pri ≤ 191
  version : Digits m.version ∧ 0 < number m.version
  stamp : ∀ t, m.stamp = some t → t.Valid
  host : Name 255 m.host
  app : Name 48 m.app
  proc : Name 128 m.proc
  mid : Name 32 m.mid
  ids : ∀ e ∈ m.data, SdName e.1
  names : ∀ e ∈ m.data, ∀ p ∈ e.2, SdName p.1
  msg : ∀ t, m.msg = some (false, t) → ¬ bom <+: t

/-- The parser has more demands: if there are no structured data then there is a text; elements have parameters; their values have no control
characters; after a byte order mark there is something. -/
structure Msg.Demanded (m : Msg) : Prop where
  text : m.data = [] → m.msg ≠ none
  params : ∀ e ∈ m.data, e.2 ≠ []
  values : ∀ e ∈ m.data, ∀ p ∈ e.2, ∀ b ∈ p.2, 32 ≤ b.toNat ∧ b.toNat ≠ 127
  mark : ∀ t, m.msg = some (true, t) → t ≠ []

/-- What a line consists of, whatever the text `ts` of its point in time. -/
structure Parts where
  pri : Str
  version : Str
  ts : Str
  host : Option Str
  app : Option Str
  proc : Option Str
  mid : Option Str
  data : List (Str × List (Str × Str))
  msg : Option (Bool × Str)

/-- The line. -/
def Parts.text (m : Parts) : Str :=
  [ch '<'] ++ m.pri ++ [ch '>'] ++ m.version ++ [ch ' '] ++ m.ts ++ [ch ' '] ++ dash m.host ++ [ch ' '] ++ dash m.app ++
    [ch ' '] ++ dash m.proc ++ [ch ' '] ++ dash m.mid ++ [ch ' '] ++ dataText m.data ++ tail m.msg

/-- A field of a line: its text is not empty, not `-` and has no spaces. -/
def Field (max : Nat) (t : Option Str) : Prop := ∀ x, t = some x → x ≠ [] ∧ x.length ≤ max ∧ ch ' ' ∉ x ∧ x ≠ [ch '-']

/-- The event that a message stands for, with this point in time: a value `-` of a name is an empty string. -/
def Msg.event (m : Msg) (ts : Option Int) : Event :=
  .rfc5424 (number m.pri / 8) (number m.pri % 8) (number m.version) ts (m.host.getD []) (m.app.getD []) (m.proc.getD []) (m.mid.getD [])
    (m.msg.map Prod.snd)

end Verif.Syslog.Spec
