import Verif.DataText.Model
/-!
# The syslog parser

Models the parser of syslog messages (`libvast/vast/format/syslog.hpp:39-249`) and the events that the reader makes from lines
(`libvast/src/format/syslog.cpp:110-155`).  How the reader gets lines and gathers events is in `Verif.Reader`.
-/
namespace Verif.Syslog
open Verif.Data Verif.DataText

/-- `parsers::printable` (concept/parseable/string/char_class.hpp:107): all but control characters. -/
def printable (b : UInt8) : Bool := !isCntrl b

/-- `printable - ' '` -/
def plain (b : UInt8) : Bool := printable b && b != ch ' '

/-- The loop of `parse_repeat` (concept/parseable/core/repeat.hpp:22-37). -/
def takeN (p : UInt8 → Bool) : Nat → Str → Str × Str
  | 0, s => ([], s)
  | _ + 1, [] => ([], [])
  | n + 1, b :: s => if p b then (b :: (takeN p n s).1, (takeN p n s).2) else ([], b :: s)

/-- `rep(p, 1, max)` -/
def rep (p : UInt8 → Bool) (max : Nat) : P Str := fun s =>
  if (takeN p max s).1 = [] then none else some (takeN p max s)

/-- `maybe_nil_parser::parse` (syslog.hpp:50-58): a dash and then, not read, a space; or else `p`. -/
def maybeNil {α : Type} (nil : α) (p : P α) : P α := fun s =>
  match (eat '-' s).bind fun r => (eat ' ' r).map fun _ => r with
  | some r => some (nil, r)
  | none => p s

/-- `header` (syslog.hpp:70-80) -/
structure Header where
  facility : Nat
  severity : Nat
  version : Nat
  ts : Option Int
  hostname : Str
  appName : Str
  processId : Str
  msgId : Str
deriving DecidableEq

/-- `pri` (syslog.hpp:92-102): the number is at most 191. -/
def priP : P Nat := fun s =>
  (eat '<' s).bind fun s => (uintP 16 3 1 s).bind fun (n, s) => if n ≤ 191 then (eat '>' s).map fun s => (n, s) else none

/-- `version` (syslog.hpp:103-104) -/
def versionP : P Nat := fun s => (uintP 16 3 1 s).bind fun (n, s) => if 0 < n then some (n, s) else none

/-- `timestamp` (syslog.hpp:109) -/
def stampP (env : Env) : P (Option Int) := maybeNil none fun s => (timeP env s).map fun (t, s) => (some t, s)

/-- A space and then one of the four names (syslog.hpp:105-108 and 110-111). -/
def nameP (max : Nat) : P Str := fun s => (eat ' ' s).bind (maybeNil [] (rep plain max))

/-- `header_parser::parse` (syslog.hpp:87-117) -/
def headerP (env : Env) : P Header := fun s =>
  (priP s).bind fun (pri, s) => (versionP s).bind fun (version, s) => (eat ' ' s).bind fun s => (stampP env s).bind fun (ts, s) =>
    (nameP 255 s).bind fun (hostname, s) => (nameP 48 s).bind fun (appName, s) => (nameP 128 s).bind fun (processId, s) =>
      (nameP 32 s).map fun (msgId, s) => (⟨pri / 8, pri % 8, version, ts, hostname, appName, processId, msgId⟩, s)

/-- `printable - '=' - ' ' - ']' - '"'` (syslog.hpp:133 and 184-188) -/
def nameChar (b : UInt8) : Bool := plain b && b != ch '=' && b != ch ']' && b != ch '"'

/-- `ch<']'> | ch<'\\'> | ch<'"'>` (syslog.hpp:137) -/
def special (b : UInt8) : Bool := b == ch ']' || b == ch '\\' || b == ch '"'

/-- `*value` (syslog.hpp:135-139) -/
def values : Str → Str × Str
  | [] => ([], [])
  | [b] => if printable b && !special b then ([b], []) else ([], [b])
  | b :: c :: s =>
    if b = ch '\\' then if special c then (c :: (values s).1, (values s).2) else ([], b :: c :: s)
    else if printable b && !special b then (b :: (values (c :: s)).1, (values (c :: s)).2)
    else ([], b :: c :: s)

/-- `parameter_parser::parse` (syslog.hpp:129-145) -/
def paramP : P (Str × Str) := fun s =>
  (eat ' ' s).bind fun s => (rep nameChar 32 s).bind fun (key, s) => (eat '=' s).bind fun s => (eat '"' s).bind fun s =>
    (eat '"' (values s).2).map fun r => ((key, (values s).1), r)

/-- A loop that parses until it fails; `fuel` is the length of the input, as each round reads something. -/
def many {α : Type} (p : P α) : Nat → Str → List α × Str
  | 0, s => ([], s)
  | n + 1, s => match p s with
    | none => ([], s)
    | some (a, r) => (a :: (many p n r).1, (many p n r).2)

/-- `+p` (concept/parseable/core/plus.hpp) -/
def plus {α : Type} (p : P α) : P (List α) := fun s =>
  (p s).map fun (a, r) => (a :: (many p r.length r).1, (many p r.length r).2)

/-- `structured_data_element_parser::parse` (syslog.hpp:179-198).  The parameters become a map (152-168); the model keeps the list. -/
def elementP : P (Str × List (Str × Str)) := fun s =>
  (eat '[' s).bind fun s => (rep nameChar 32 s).bind fun (id, s) => (plus paramP s).bind fun (params, s) =>
    (eat ']' s).map fun s => ((id, params), s)

/-- `structured_data_parser::parse` (syslog.hpp:209-222).  The elements become a map; the model keeps the list. -/
def dataP : P (List (Str × List (Str × Str))) := maybeNil [] (plus elementP)

/-- `message_content_parser::parse` (syslog.hpp:230-239): the rest of the line, without a byte order mark if something follows it. -/
def content (s : Str) : Str :=
  match s with
  | 0xEF :: 0xBB :: 0xBF :: b :: r => b :: r
  | _ => s

/-- `message` (syslog.hpp:242-246) -/
structure Message where
  hdr : Header
  data : List (Str × List (Str × Str))
  msg : Option Str
deriving DecidableEq

/-- `message_parser`, for a whole line (syslog.hpp:250-263; core/parser.hpp:60-67). -/
def messageP (env : Env) (s : Str) : Option Message :=
  (headerP env s).bind fun (hdr, s) => (eat ' ' s).bind fun s => (dataP s).bind fun (data, s) =>
    match eat ' ' s with
    | some r => some ⟨hdr, data, some (content r)⟩
    | none => if s = [] then some ⟨hdr, data, none⟩ else none

/-- The events of the two layouts (syslog.cpp:24-58). -/
inductive Event where
  | rfc5424 (facility severity version : Nat) (ts : Option Int) (hostname appName processId msgId : Str) (message : Option Str)
  | unknown (line : Str)
deriving DecidableEq

/-- What the reader makes of a line that is not empty (syslog.cpp:117-155). -/
def event (env : Env) (line : Str) : Event :=
  match messageP env line with
  | some m => .rfc5424 m.hdr.facility m.hdr.severity m.hdr.version m.hdr.ts m.hdr.hostname m.hdr.appName m.hdr.processId m.hdr.msgId m.msg
  | none => .unknown line

end Verif.Syslog
