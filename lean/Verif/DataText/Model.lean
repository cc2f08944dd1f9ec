import Verif.Data.Model
/-
Model of the textual form of data values: what `to_string(data)` prints and
what `to<data>(string)` reads.

Modelled code: libvast/vast/concept/printable/vast/data.hpp and the printers it
uses, libvast/vast/concept/parseable/vast/data.hpp and the parsers it uses.

A parser gets the remaining input and returns a value with the rest of the
input, or `none`. The C++ parsers advance an iterator instead. Most of them put
it back on failure (`sequence_parser`, `choice_parser`); where one does not and
the difference is visible, the model says so.
-/
namespace Verif.DataText
open Verif.Data Verif.Address

/-- The byte of an ASCII character. -/
def ch (c : Char) : UInt8 := c.toNat.toUInt8

/-- A parser for values of type `α`. -/
abbrev P (α : Type) := Str → Option (α × Str)

-- Character classes (concept/parseable/string/char_class.hpp:54-65) in the "C"
-- locale.

def isDigit (b : UInt8) : Bool := decide (48 ≤ b.toNat) && decide (b.toNat ≤ 57)
def isXDigit (b : UInt8) : Bool :=
  isDigit b || (decide (65 ≤ b.toNat) && decide (b.toNat ≤ 70)) || (decide (97 ≤ b.toNat) && decide (b.toNat ≤ 102))
def isAlnum (b : UInt8) : Bool :=
  isDigit b || (decide (65 ≤ b.toNat) && decide (b.toNat ≤ 90)) || (decide (97 ≤ b.toNat) && decide (b.toNat ≤ 122))
def isSpace (b : UInt8) : Bool := b.toNat == 32 || (decide (9 ≤ b.toNat) && decide (b.toNat ≤ 13))
def isCntrl (b : UInt8) : Bool := decide (b.toNat < 32) || b.toNat == 127
def isPrint (b : UInt8) : Bool := decide (32 ≤ b.toNat) && decide (b.toNat < 127)

/-- A single character (concept/parseable/string/char.hpp). -/
def eat (c : Char) : Str → Option Str
  | [] => none
  | b :: s => if b = ch c then some s else none

/-- A literal (concept/parseable/string/literal.hpp). -/
def kw : List Char → Str → Option Str
  | [], s => some s
  | c :: cs, s => match eat c s with
    | none => none
    | some r => kw cs r

/-- `ignore(*parsers::space)`. -/
def skipWs : Str → Str
  | [] => []
  | b :: s => if isSpace b then skipWs s else b :: s

/-! Numbers -/

/-- The loop of `integral_parser::accumulate` (concept/parseable/numeric/integral.hpp:55-70):
at most `max` decimal digits. The loop condition looks at `*f` before it
compares `f` with `l`, so at the end of the input it reads one character past
it; the model takes that character to be no digit, as the zero at the end of
a `std::string` is. -/
def takeDigits : Nat → Str → List Nat × Str
  | 0, s => ([], s)
  | _ + 1, [] => ([], [])
  | n + 1, b :: s => if isDigit b then ((b.toNat - 48) :: (takeDigits n s).1, (takeDigits n s).2) else ([], b :: s)

/-- The number that a list of digits denotes. -/
def value (ds : List Nat) : Nat := ds.foldl (fun a d => a * 10 + d) 0

/-- `detail::parse_sign` (numeric/integral.hpp:19-27). -/
def takeSign : Str → Bool × Str
  | [] => (false, [])
  | b :: s => if b = ch '-' then (true, s) else if b = ch '+' then (false, s) else (false, b :: s)

/-- `integral_parser<uintN_t, max, min>` (numeric/integral.hpp:72-83 and 103-125). The
accumulator is an unsigned number of `bits` bits, so it wraps. -/
def uintP (bits max min : Nat) : P Nat := fun s =>
  if min ≤ (takeDigits max s).1.length then some (value (takeDigits max s).1 % 2 ^ bits, (takeDigits max s).2) else none

/-- `integral_parser<int, n, n>` (numeric/integral.hpp:98-125) for two or four
digits. -/
def fixedP (n : Nat) : P Int := fun s =>
  if s = [] then none
  else if (takeDigits n (takeSign s).2).1.length = n then
    some (if (takeSign s).1 then -(value (takeDigits n (takeSign s).2).1 : Int) else value (takeDigits n (takeSign s).2).1,
      (takeDigits n (takeSign s).2).2)
  else none

/-- What `real_parser` reads: a sign, the digits of the integral part and those
of the fraction. -/
structure Lit where
  neg : Bool
  int : List Nat
  frac : List Nat
deriving DecidableEq

/-- `real_parser::parse` (numeric/real.hpp:67-108). Without a dot the digits
after the 20th become the fraction. -/
def realP (requireDot : Bool) : P Lit := fun s =>
  if s = [] then none
  else match eat '.' (takeDigits 20 (takeSign s).2).2 with
    | some r =>
      if (takeDigits 20 (takeSign s).2).1 = [] ∧ (takeDigits 20 r).1 = [] then none
      else some (⟨(takeSign s).1, (takeDigits 20 (takeSign s).2).1, (takeDigits 20 r).1⟩, (takeDigits 20 r).2)
    | none =>
      if requireDot = true ∨ (takeDigits 20 (takeSign s).2).1 = [] then none
      else some (⟨(takeSign s).1, (takeDigits 20 (takeSign s).2).1,
        (takeDigits 20 (takeDigits 20 (takeSign s).2).2).1⟩, (takeDigits 20 (takeDigits 20 (takeSign s).2).2).2)

/-- The first entry of a table whose name is a prefix of the input: a choice
between literals. -/
def lookup (table : List (List Char × Nat)) (s : Str) : Option (Nat × Str) :=
  match table with
  | [] => none
  | (name, v) :: more => match kw name s with
    | some r => some (v, r)
    | none => lookup more s

/-- The suffixes of `si_parser` (concept/parseable/vast/si.hpp:34-45) with their
factors (vast/si_literals.hpp:14-60). -/
def suffixes : List (List Char × Nat) :=
  [(['K', 'i'], 2 ^ 10), (['M', 'i'], 2 ^ 20), (['G', 'i'], 2 ^ 30), (['T', 'i'], 2 ^ 40), (['P', 'i'], 2 ^ 50),
    (['E', 'i'], 2 ^ 60), (['k'], 10 ^ 3), (['M'], 10 ^ 6), (['G'], 10 ^ 9), (['T'], 10 ^ 12), (['P'], 10 ^ 15),
    (['E'], 10 ^ 18)]

/-- `si_parser<count>` (si.hpp:22-54): a number of at most 20 digits, then
possibly white space and a suffix. The product wraps. -/
def countP : P Nat := fun s =>
  match uintP 64 20 1 s with
  | none => none
  | some (v, r) => match lookup suffixes (skipWs r) with
    | some (f, r') => some (v * f % 2 ^ 64, r')
    | none => some (v, r)

/-- Two's complement with 64 bits: the conversion from `unsigned long long` to
`int64_t`. -/
def wrap64 (i : Int) : Int := (i + 2 ^ 63) % 2 ^ 64 - 2 ^ 63

/-- What the model leaves open: floating-point arithmetic, the clock, and what
a compiler makes of an overflow of a signed integer. Theorems hold for every
choice. -/
structure Env where
  /-- The `double` that a literal stands for. -/
  real : Lit → Real
  /-- A literal times a unit in nanoseconds, as in `duration_parser` (vast/time.hpp:80-84). -/
  scale : Lit → Nat → Int
  /-- The guard on seconds, `x >= 0.0 && x <= 60.0` (vast/time.hpp:162-163). -/
  secOk : Lit → Bool
  /-- The point in time of year, month, day, hour, minute, seconds and offset
  in minutes (vast/time.hpp:195-199). -/
  civil : Int → Int → Int → Int → Int → Option Lit → Int → Int
  /-- A time in seconds since the epoch (vast/time.hpp:210-214). -/
  unix : Lit → Int
  /-- `time::clock::now()`. -/
  now : Int
  /-- The value of an `int64_t` after a computation whose exact result is out of range. -/
  overflow : Int → Int
  /-- The texts of floating-point numbers, durations and times. -/
  printReal : Real → Str
  printDuration : Int → Str
  printTime : Int → Str

/-- The value of an `int64_t` whose exact value is `i`. -/
def Env.int64 (env : Env) (i : Int) : Int := if -(2 ^ 63) ≤ i ∧ i < 2 ^ 63 then i else env.overflow i

/-- `integral_parser<int64_t>` (numeric/integral.hpp:85-125): at most 19
digits. -/
def int64P (env : Env) : P Int := fun s =>
  if s = [] then none
  else if (takeDigits 19 (takeSign s).2).1 = [] then none
  else some (env.int64 (if (takeSign s).1 then -(value (takeDigits 19 (takeSign s).2).1 : Int)
      else value (takeDigits 19 (takeSign s).2).1), (takeDigits 19 (takeSign s).2).2)

/-- `integer_parser` (concept/parseable/vast/integer.hpp:20-32): `si_parser` on `int64_t`.
The product is computed on `unsigned long long`. -/
def integerP (env : Env) : P Int := fun s =>
  match int64P env s with
  | none => none
  | some (v, r) => match lookup suffixes (skipWs r) with
    | some (f, r') => some (wrap64 (v * f), r')
    | none => some (v, r)

/-! Durations and times -/

/-- The units of `duration_parser` (concept/parseable/vast/time.hpp:41-74) in
nanoseconds. -/
def units : List (List Char × Nat) :=
  [("nanoseconds".toList, 1), ("nsecs".toList, 1), ("nsec".toList, 1), ("ns".toList, 1),
    ("microseconds".toList, 1000), ("usecs".toList, 1000), ("usec".toList, 1000), ("us".toList, 1000),
    ("milliseconds".toList, 1000000), ("msecs".toList, 1000000), ("msec".toList, 1000000), ("ms".toList, 1000000),
    ("seconds".toList, 1000000000), ("secs".toList, 1000000000), ("sec".toList, 1000000000), ("s".toList, 1000000000),
    ("minutes".toList, 60000000000), ("mins".toList, 60000000000), ("min".toList, 60000000000), ("m".toList, 60000000000),
    ("hours".toList, 3600000000000), ("hour".toList, 3600000000000), ("hrs".toList, 3600000000000), ("h".toList, 3600000000000),
    ("days".toList, 86400000000000), ("day".toList, 86400000000000), ("d".toList, 86400000000000),
    ("weeks".toList, 604800000000000), ("week".toList, 604800000000000), ("w".toList, 604800000000000),
    ("years".toList, 31536000000000000), ("year".toList, 31536000000000000), ("y".toList, 31536000000000000)]

/-- `duration_parser::parse` (vast/time.hpp:35-88). -/
def durOneP (env : Env) : P Int := fun s =>
  match realP false s with
  | none => none
  | some (l, r) => match lookup units (skipWs r) with
    | some (u, r') => some (env.scale l u, r')
    | none => none

/-- `*(positive_duration ->* add)` in `compound_duration_parser` (vast/time.hpp:98-101).
The guard does not put the iterator back (core/guard.hpp:34-40), so a
component that is not positive ends the loop and is skipped. -/
def durLoop (env : Env) : Nat → Int → Str → Int × Str
  | 0, acc, s => (acc, s)
  | n + 1, acc, s => match durOneP env s with
    | none => (acc, s)
    | some (d, r) => if 0 < d then durLoop env n (acc + d) r else (acc, r)

/-- `compound_duration_parser::parse` (vast/time.hpp:95-103). -/
def durationP (env : Env) : P Int := fun s =>
  match durOneP env s with
  | none => none
  | some (d, r) => some (durLoop env r.length d r)

/-- An integer of two or four digits with a guard (vast/time.hpp:152-161). -/
def guarded (n : Nat) (lo hi : Int) : P Int := fun s =>
  match fixedP n s with
  | none => none
  | some (v, r) => if lo ≤ v ∧ v ≤ hi then some (v, r) else none

/-- `~(~':'_p >> min)` in `zone` (vast/time.hpp:169). -/
def zoneMin (s : Str) : Int × Str :=
  match guarded 2 0 59 ((eat ':' s).getD s) with
  | some (m, r) => (m, r)
  | none => (0, s)

/-- `sign >> hour >> ~(~':'_p >> min)` (vast/time.hpp:166-169), given the sign. -/
def zoneHour (sign : Int) (s : Str) : Option (Int × Str) :=
  match guarded 2 0 23 s with
  | none => none
  | some (h, r) => some (sign * (h * 60 + (zoneMin r).1), (zoneMin r).2)

/-- `~zone` (vast/time.hpp:168-174). -/
def zonePart (s : Str) : Int × Str :=
  match eat 'Z' s with
  | some r => (0, r)
  | none => (((eat '+' s).bind (zoneHour 1)).or ((eat '-' s).bind (zoneHour (-1)))).getD (0, s)

/-- `~(':' >> sec)` (vast/time.hpp:174). -/
def secPart (env : Env) (s : Str) : Option Lit × Str :=
  match (eat ':' s).bind (realP false) with
  | none => (none, s)
  | some (l, r) => if env.secOk l then (some l, r) else (none, s)

/-- `~(':' >> min >> ~(':' >> sec) >> ~zone)` (vast/time.hpp:173-174): minutes,
seconds, offset. -/
def minPart (env : Env) (s : Str) : (Int × Option Lit × Int) × Str :=
  match (eat ':' s).bind (guarded 2 0 59) with
  | none => ((0, none, 0), s)
  | some (m, r) =>
    ((m, (secPart env r).1, (zonePart (secPart env r).2).1), (zonePart (secPart env r).2).2)

/-- `time_divider` (vast/time.hpp:164). -/
def divider (s : Str) : Option Str := ((eat '+' s).or (eat 'T' s)).or (eat ' ' s)

/-- `~(time_divider >> hour >> ...)` (vast/time.hpp:172-174). -/
def hourPart (env : Env) (s : Str) : (Int × Int × Option Lit × Int) × Str :=
  match (divider s).bind (guarded 2 0 23) with
  | none => ((0, 0, none, 0), s)
  | some (h, r) => ((h, (minPart env r).1), (minPart env r).2)

/-- `~('-' >> day >> ...)` (vast/time.hpp:171-174). -/
def dayPart (env : Env) (s : Str) : (Int × Int × Int × Option Lit × Int) × Str :=
  match (eat '-' s).bind (guarded 2 1 31) with
  | none => ((1, 0, 0, none, 0), s)
  | some (d, r) => ((d, (hourPart env r).1), (hourPart env r).2)

/-- `ymdhms_parser::parse` (vast/time.hpp:148-202). -/
def ymdhmsP (env : Env) : P Int := fun s =>
  match guarded 4 1900 9999 s with
  | none => none
  | some (y, r) => match (eat '-' r).bind (guarded 2 1 12) with
    | none => none
    | some (mo, r') =>
      some (env.civil y mo (dayPart env r').1.1 (dayPart env r').1.2.1 (dayPart env r').1.2.2.1
        (dayPart env r').1.2.2.2.1 (dayPart env r').1.2.2.2.2, (dayPart env r').2)

/-- `'@' >> parsers::unix_ts` (vast/time.hpp:210-214 and 227). -/
def unixP (env : Env) : P Int := fun s =>
  match (eat '@' s).bind (realP false) with
  | none => none
  | some (l, r) => some (env.unix l, r)

/-- `"now" >> ws >> ('+' >> ws >> duration | '-' >> ws >> duration)` (vast/time.hpp:228-229). -/
def nowShiftP (env : Env) : P Int := fun s =>
  match (kw ['n', 'o', 'w'] s) with
  | none => none
  | some r => match (eat '+' (skipWs r)).bind fun r' => durationP env (skipWs r') with
    | some (d, r') => some (env.now + d, r')
    | none => match (eat '-' (skipWs r)).bind fun r' => durationP env (skipWs r') with
      | some (d, r') => some (env.now - d, r')
      | none => none

/-- `"in" >> ws >> duration` (vast/time.hpp:231). -/
def inP (env : Env) : P Int := fun s =>
  match (kw ['i', 'n'] s).bind fun r => durationP env (skipWs r) with
  | some (d, r) => some (env.now + d, r)
  | none => none

/-- `duration >> ws >> "ago"` (vast/time.hpp:232). -/
def agoP (env : Env) : P Int := fun s =>
  match durationP env s with
  | none => none
  | some (d, r) => match kw ['a', 'g', 'o'] (skipWs r) with
    | some r' => some (env.now - d, r')
    | none => none

/-- `time_parser::parse` (vast/time.hpp:221-234). -/
def timeP (env : Env) : P Int := fun s =>
  (ymdhmsP env s).or <| (unixP env s).or <| (nowShiftP env s).or <|
    ((kw ['n', 'o', 'w'] s).map fun r => (env.now, r)).or <| (inP env s).or (agoP env s)

/-! Addresses and subnets -/

/-- `dec` in `make_v4` (concept/parseable/vast/address.hpp:52-53). -/
def decP : P Nat := fun s =>
  match uintP 16 3 1 s with
  | none => none
  | some (v, r) => if v < 256 then some (v, r) else none

/-- `dec >> '.' >> ...` (address.hpp:50-59). -/
def v4P : P (Nat × Nat × Nat × Nat) := fun s =>
  match decP s with
  | none => none
  | some (a, r) => match (eat '.' r).bind decP with
    | none => none
    | some (b, r) => match (eat '.' r).bind decP with
      | none => none
      | some (c, r) => match (eat '.' r).bind decP with
        | none => none
        | some (d, r) => some ((a, b, c, d), r)

/-- The rest after at most `n` hexadecimal digits. -/
def dropX : Nat → Str → Str
  | 0, s => s
  | _ + 1, [] => []
  | n + 1, b :: s => if isXDigit b then dropX n s else b :: s

/-- `h16 = rep<1, 4>(xdigit)` (address.hpp:64-66). -/
def h16 : Str → Option Str
  | [] => none
  | b :: s => if isXDigit b then some (dropX 3 s) else none

/-- `h16 >> ':'`. -/
def h16c (s : Str) : Option Str := (h16 s).bind (eat ':')

/-- `h16_colon = h16 >> ':' >> !':'_p` (address.hpp:75-77). -/
def h16Colon (s : Str) : Option Str :=
  match h16c s with
  | none => none
  | some r => if (eat ':' r).isSome then none else some r

/-- `rep<n>(h16 >> ':')` (core/repeat.hpp:20-36). -/
def repC : Nat → Str → Option Str
  | 0, s => some s
  | n + 1, s => (h16c s).bind (repC n)

/-- `rep<0, n>(h16_colon)`: always succeeds. -/
def uptoC : Nat → Str → Str
  | 0, s => s
  | n + 1, s => match h16Colon s with
    | some r => uptoC n r
    | none => s

/-- `-(rep<0, n>(h16_colon) >> h16)`: always succeeds. -/
def leftPart (n : Nat) (s : Str) : Str := (h16 (uptoC n s)).getD s

/-- `ls32` (address.hpp:78-81). -/
def ls32 (s : Str) : Option Str := ((h16c s).bind h16).or ((v4P s).map Prod.snd)

/-- `-(rep<0, n>(h16_colon) >> h16) >> "::" >> rep<m>(h16 >> ':') >> last`. -/
def gapAlt (n m : Nat) (last : Str → Option Str) (s : Str) : Option Str :=
  ((kw [':', ':'] (leftPart n s)).bind (repC m)).bind last

/-- `make_v6` (address.hpp:61-94): the rest after an IPv6 address. -/
def v6P (s : Str) : Option Str :=
  ((repC 6 s).bind ls32).or <|
  (((kw [':', ':'] s).bind (repC 5)).bind ls32).or <|
  (gapAlt 0 4 ls32 s).or <|
  (gapAlt 1 3 ls32 s).or <|
  (gapAlt 2 2 ls32 s).or <|
  (gapAlt 3 1 ls32 s).or <|
  (gapAlt 4 0 ls32 s).or <|
  (gapAlt 5 0 h16 s).or
  (gapAlt 6 0 some s)

/-- The value of a hexadecimal digit. -/
def hexVal (b : UInt8) : Nat :=
  if isDigit b then b.toNat - 48 else if b.toNat < 97 then b.toNat - 55 else b.toNat - 87

/-- The character of a decimal digit (`byte_to_char`). -/
def digitChar (d : Nat) : UInt8 := (48 + d).toUInt8

/-- `detail::print_numeric` (concept/printable/detail/print_numeric.hpp:19-34) on
a positive number: its digits, least significant last. -/
def printPos (n : Nat) : Str :=
  if n = 0 then [] else printPos (n / 10) ++ [digitChar (n % 10)]
decreasing_by omega

/-- `detail::print_numeric`. -/
def printNat (n : Nat) : Str := if n = 0 then [ch '0'] else printPos n

/-- Texts with a separator (concept/printable/core/list.hpp:31-44). -/
def join (sep : Str) : List Str → Str
  | [] => []
  | [x] => x
  | x :: y :: xs => x ++ sep ++ join sep (y :: xs)

/-- `inet_ntop(AF_INET)` of the C library. -/
def ntop4 (bs : List Nat) : Str := join [ch '.'] (bs.map printNat)

/-- `inet_pton(AF_INET)` of the C library on a whole string, for addresses
inside of IPv6 addresses: four octets without superfluous zeros. -/
def pton4 (s : Str) : Option (List Nat) :=
  match v4P s with
  | some ((a, b, c, d), []) =>
    if s = ntop4 [a, b, c, d] then some [a, b, c, d] else none
  | _ => none

/-- The loop of `inet_pton(AF_INET6)` of the C library, which is not part of
the repository. `cur` is the start of the current group, `seen` and `val` its
number of digits and its value, `out` the bytes so far, and `gap` their number
before a double colon. -/
def ptonLoop : Str → Str → Nat → Nat → List Nat → Option Nat → Option (List Nat × Option Nat)
  | [], _, seen, val, out, gap =>
    if seen = 0 then some (out, gap)
    else if 14 < out.length then none else some (out ++ [val / 256, val % 256], gap)
  | b :: s, cur, seen, val, out, gap =>
    if isXDigit b then if seen = 4 then none else ptonLoop s cur (seen + 1) (val * 16 + hexVal b) out gap
    else if b = ch ':' then
      if seen = 0 then if gap.isSome then none else ptonLoop s s 0 val out (some out.length)
      else if s = [] then none
      else if 14 < out.length then none
      else ptonLoop s s 0 0 (out ++ [val / 256, val % 256]) gap
    else if b = ch '.' ∧ out.length ≤ 12 then
      match pton4 cur with
      | some bs => some (out ++ bs, gap)
      | none => none
    else none

/-- The end of `inet_pton(AF_INET6)`: zeros fill the gap. -/
def fillGap : List Nat × Option Nat → Option (List Nat)
  | (out, none) => if out.length = 16 then some out else none
  | (out, some g) => if out.length < 16 then
      some (out.take g ++ List.replicate (16 - out.length) 0 ++ out.drop g) else none

/-- `inet_pton(AF_INET6)`: an address may only begin with two colons, of which
the first is skipped. -/
def pton6 (s : Str) : Option (List Nat) :=
  match s with
  | a :: b :: r => if a = ch ':' then if b = ch ':' then (ptonLoop (b :: r) (b :: r) 0 0 [] none).bind fillGap else none
    else (ptonLoop s s 0 0 [] none).bind fillGap
  | _ => (ptonLoop s s 0 0 [] none).bind fillGap

/-- An address from 16 numbers below 256. -/
def Address.ofBytes (bs : List Nat) : Option Address :=
  if h : (bs.map (BitVec.ofNat 8)).length = 16 then some ⟨bs.map (BitVec.ofNat 8), h⟩ else none

/-- `access::parser<address>::parse` (address.hpp:118-141). -/
def addrP : P Address := fun s =>
  match v4P s with
  | some ((a, b, c, d), r) => some (.v4 (BitVec.ofNat 8 a) (BitVec.ofNat 8 b) (BitVec.ofNat 8 c) (BitVec.ofNat 8 d), r)
  | none => match v6P s with
    | none => none
    | some r => match (pton6 (s.take (s.length - r.length))).bind Address.ofBytes with
      | some a => some (a, r)
      | none => none

/-- `access::parser<subnet>` (concept/parseable/vast/subnet.hpp:22-42): the
prefix is a `uint8_t` of up to three digits, which wraps before the guard
compares it with 128. -/
def netP : P Subnet := fun s =>
  match addrP s with
  | none => none
  | some (a, r) => match (eat '/' r).bind (uintP 8 3 1) with
    | none => none
    | some (n, r') => if n ≤ 128 then some (Subnet.make a n, r') else none

/-! Strings and patterns -/

/-- `*str_chr` in `quoted_string_parser::parse` (concept/parseable/string/quoted_string.hpp:48-64),
with the escape character `\`: an escaped quote is the quote, an escaped escape
character stays as it is, with both characters. -/
def quotedBody (q : UInt8) : Str → Str × Str
  | [] => ([], [])
  | [c] => if isCntrl c ∨ c = q then ([], [c]) else ([c], [])
  | c :: d :: s =>
    if c = ch '\\' ∧ d = q then (q :: (quotedBody q s).1, (quotedBody q s).2)
    else if c = ch '\\' ∧ d = ch '\\' then (c :: d :: (quotedBody q s).1, (quotedBody q s).2)
    else if isCntrl c ∨ c = q then ([], c :: d :: s)
    else (c :: (quotedBody q (d :: s)).1, (quotedBody q (d :: s)).2)

/-- `quoted_string_parser::parse` (quoted_string.hpp:62-63). -/
def quotedP (q : Char) : P Str := fun s =>
  match eat q s with
  | none => none
  | some r => match eat q (quotedBody (ch q) r).2 with
    | none => none
    | some r' => some ((quotedBody (ch q) r).1, r')

/-! Containers -/

/-- `ws >> ref(p) >> ws` (concept/parseable/vast/data.hpp:44). -/
def spaced (p : P α) : P α := fun s =>
  match p (skipWs s) with
  | none => none
  | some (v, r) => some (v, skipWs r)

/-- The loop of `list_parser` with `','` as the separator (core/list.hpp:30-38): a
separator without an element after it is put back. -/
def sepLoop (p : P α) : Nat → List α → Str → List α × Str
  | 0, acc, s => (acc, s)
  | n + 1, acc, s => match (eat ',' s).bind p with
    | none => (acc, s)
    | some (v, r) => sepLoop p n (acc ++ [v]) r

/-- `p % ','` (core/list.hpp:30-38). -/
def sepP (p : P α) : P (List α) := fun s =>
  match p s with
  | none => none
  | some (v, r) => some (sepLoop p r.length [v] r)

/-- `~(p % ',')` (core/maybe.hpp:25-29). -/
def maybeSep (p : P α) (s : Str) : List α × Str := (sepP p s).getD ([], s)

/-- `trailing_comma = ~(',' >> ws)` (parseable/vast/data.hpp:46). -/
def trailing (s : Str) : Str :=
  match eat ',' s with
  | some r => skipWs r
  | none => s

/-- `parsers::identifier` (concept/parseable/vast/identifier.hpp:19-20). -/
def isIdent (b : UInt8) : Bool := isAlnum b || b == ch '_' || b == ch '.'

/-- `*identifier_char`. -/
def takeIdent : Str → Str × Str
  | [] => ([], [])
  | b :: s => if isIdent b then (b :: (takeIdent s).1, (takeIdent s).2) else ([], b :: s)

/-- `x >> "->" >> x` (parseable/vast/data.hpp:45). -/
def kvP (p : P Data) : P (Data × Data) := fun s =>
  match spaced p s with
  | none => none
  | some (k, r) => match (kw ['-', '>'] r).bind (spaced p) with
    | none => none
    | some (v, r') => some ((k, v), r')

/-- `ws >> parsers::identifier >> ":" >> x` (parseable/vast/data.hpp:47). -/
def namedP (p : P Data) : P (Str × Data) := fun s =>
  if (takeIdent (skipWs s)).1 = [] then none
  else match (eat ':' (takeIdent (skipWs s)).2).bind (spaced p) with
    | none => none
    | some (v, r) => some (((takeIdent (skipWs s)).1, v), r)

/-- `flat_map_policy::add` (vast/detail/flat_map.hpp:26-33) on the keys and values
of a map: in front of the first key that is not smaller, unless it is an equal
one. -/
def mapAdd (k v : Data) : List (Data × Data) → List (Data × Data)
  | [] => [(k, v)]
  | (k', v') :: xs => if k'.lt k then (k', v') :: mapAdd k v xs
    else if k.lt k' then (k, v) :: (k', v') :: xs else (k', v') :: xs

/-- `stable_map_policy::add` (vast/detail/stable_map.hpp:18-25): at the end,
unless the name is there already. -/
def recordAdd (f : Str × Data) (xs : List (Str × Data)) : List (Str × Data) :=
  if xs.any fun g => g.1 == f.1 then xs else xs ++ [f]

/-- A map out of its entries (parseable/vast/data.hpp:75, detail/container.hpp:68-78). -/
def mkMap (xs : List (Data × Data)) : Data :=
  .map ((xs.foldl (fun m e => mapAdd e.1 e.2 m) []).map Prod.fst) ((xs.foldl (fun m e => mapAdd e.1 e.2 m) []).map Prod.snd)

/-- A record out of named fields (parseable/vast/data.hpp:56). -/
def mkRecord (xs : List (Str × Data)) : Data :=
  .record ((xs.foldl (fun m f => recordAdd f m) []).map Prod.fst) ((xs.foldl (fun m f => recordAdd f m) []).map Prod.snd)

/-- `'[' >> ~(x % ',') >> trailing_comma >> ']'` (parseable/vast/data.hpp:74). -/
def listP (p : P Data) : P Data := fun s =>
  match eat '[' s with
  | none => none
  | some r => match eat ']' (trailing (maybeSep (spaced p) r).2) with
    | none => none
    | some r' => some (.list (maybeSep (spaced p) r).1, r')

/-- `'{' >> ~as<map>(kvp % ',') >> trailing_comma >> '}'` (parseable/vast/data.hpp:75). -/
def mapP (p : P Data) : P Data := fun s =>
  match eat '{' s with
  | none => none
  | some r => match eat '}' (trailing (maybeSep (kvP p) r).2) with
    | none => none
    | some r' => some (mkMap (maybeSep (kvP p) r).1, r')

/-- The first alternative of `record_parser` (parseable/vast/data.hpp:56). -/
def namedRecordP (p : P Data) : P Data := fun s =>
  match eat '<' s with
  | none => none
  | some r => match eat '>' (trailing (maybeSep (namedP p) r).2) with
    | none => none
    | some r' => some (mkRecord (maybeSep (namedP p) r).1, r')

/-- The second alternative of `record_parser` (parseable/vast/data.hpp:60-63): all
names are empty. -/
def unnamedRecordP (p : P Data) : P Data := fun s =>
  match (eat '<' s).bind (sepP (spaced p)) with
  | none => none
  | some (xs, r) => match eat '>' (trailing r) with
    | none => none
    | some r' => some (.record (xs.map fun _ => []) xs, r')

/-- `bool_parser` with single characters (concept/parseable/numeric/bool.hpp:19-29 and 61-72). -/
def boolP : P Bool := fun s =>
  ((eat 'T' s).map fun r => (true, r)).or ((eat 'F' s).map fun r => (false, r))

/-- The type of `data` around the value of an alternative. -/
def as (f : α → Data) (r : Option (α × Str)) : Option (Data × Str) := r.map fun x => (f x.1, x.2)

/-- `choice_parser` (core/choice.hpp:65-75): the first alternative that
succeeds. -/
def firstOf : List (Option α) → Option α
  | [] => none
  | some x :: _ => some x
  | none :: r => firstOf r

/-- The alternatives of `data_parser` (parseable/vast/data.hpp:64-79) in their
order, where `p` reads the elements of containers. -/
def alternatives (env : Env) (p : P Data) : P Data := fun s =>
  firstOf [
    as .time (timeP env s),
    as .duration (durationP env s),
    as .subnet (netP s),
    as .address (addrP s),
    as (fun l => .real (env.real l)) (realP true s),
    as .count (countP s),
    as .int (integerP env s),
    as .bool (boolP s),
    as .string (quotedP '"' s),
    as .pattern (quotedP '/' s),
    listP p s,
    mapP p s,
    namedRecordP p s,
    unnamedRecordP p s,
    (kw ['n', 'i', 'l'] s).map fun r => (.none, r),
    (eat '_' s).map fun r => (.none, r)]

/-- `data_parser` (parseable/vast/data.hpp:38-82) for values of nesting depth at
most the first argument. -/
def dataP (env : Env) : Nat → P Data
  | 0 => fun _ => none
  | n + 1 => alternatives env (dataP env n)

/-- `to<data>(string)` (concept/parseable/to.hpp:30-42): the whole input has to be
consumed. Every container takes a character, so the length of the input bounds
the depth. -/
def toData (env : Env) (s : Str) : Option Data :=
  match dataP env (s.length + 1) s with
  | some (d, []) => some d
  | _ => none

/-! Printing -/

/-- `integer_printer` (concept/printable/vast/integer.hpp:20-27): with a sign. The
smallest `int64_t` has no negation (numeric/integral.hpp:54), so its text is
undefined. -/
def printInt (i : Int) : Option Str :=
  if i = -(2 ^ 63) then none
  else if i < 0 then some (ch '-' :: printNat i.natAbs) else some (ch '+' :: printNat i.natAbs)

/-- The character of a hexadecimal digit, in upper case (`byte_to_hex`, vast/detail/coding.hpp). -/
def hexUpper (d : Nat) : UInt8 := if d < 10 then (48 + d).toUInt8 else (55 + d).toUInt8

/-- The escaper of strings: `make_extra_print_escaper("\"")` (vast/detail/escapers.hpp:19-25,
38-43 and 201-210). A backslash is printed as it is. -/
def escapeByte (b : UInt8) : Str :=
  if b = ch '"' then [ch '\\', b]
  else if isPrint b then [b]
  else [ch '\\', ch 'x', hexUpper (b.toNat / 16), hexUpper (b.toNat % 16)]

/-- The string alternative of `data_printer` (concept/printable/vast/data.hpp:39-43). -/
def printString (s : Str) : Str := ch '"' :: (s.flatMap escapeByte ++ [ch '"'])

/-- `access::printer<pattern>` (concept/printable/vast/pattern.hpp:25-28): as it is,
between slashes. -/
def printPattern (s : Str) : Str := ch '/' :: (s ++ [ch '/'])

/-- A hexadecimal digit in lower case. -/
def hexLower (d : Nat) : UInt8 := if d < 10 then (48 + d).toUInt8 else (87 + d).toUInt8

/-- `%x` of a number of at most 16 bits. -/
def printHex (n : Nat) : Str :=
  if n < 16 then [hexLower n]
  else if n < 256 then [hexLower (n / 16), hexLower (n % 16)]
  else if n < 4096 then [hexLower (n / 256), hexLower (n / 16 % 16), hexLower (n % 16)]
  else [hexLower (n / 4096), hexLower (n / 256 % 16), hexLower (n / 16 % 16), hexLower (n % 16)]

/-- The 16-bit words of a list of bytes. -/
def wordsOf : List Nat → List Nat
  | a :: b :: r => (a * 256 + b) :: wordsOf r
  | _ => []

/-- The number of zeros at the front of a list. -/
def zeros : List Nat → Nat
  | 0 :: r => zeros r + 1
  | _ => 0

/-- The first longest run of zeros: start and length. `i` is the position of
the list, `best` the best run so far. -/
def bestRun (i : Nat) (best : Nat × Nat) : List Nat → Nat × Nat
  | [] => best
  | w :: ws => bestRun (i + 1) (if best.2 < zeros (w :: ws) then (i, zeros (w :: ws)) else best) ws

/-- `inet_ntop(AF_INET6)` of the C library, which is not part of the
repository: the words in hexadecimal with the first longest run of at least two
zeros abbreviated; the last four bytes in decimal if only they are not zero, or
follow `ffff`. -/
def ntop6 (bs : List Nat) : Str :=
  if (bestRun 0 (0, 0) (wordsOf bs)).2 < 2 then join [ch ':'] ((wordsOf bs).map printHex)
  else if (bestRun 0 (0, 0) (wordsOf bs)) = (0, 6) then [ch ':', ch ':'] ++ ntop4 (bs.drop 12)
  else if (bestRun 0 (0, 0) (wordsOf bs)) = (0, 5) ∧ (wordsOf bs)[5]? = some 65535 then
    [ch ':', ch ':'] ++ printHex 65535 ++ [ch ':'] ++ ntop4 (bs.drop 12)
  else join [ch ':'] (((wordsOf bs).take (bestRun 0 (0, 0) (wordsOf bs)).1).map printHex) ++ [ch ':', ch ':'] ++
    join [ch ':'] (((wordsOf bs).drop ((bestRun 0 (0, 0) (wordsOf bs)).1 + (bestRun 0 (0, 0) (wordsOf bs)).2)).map printHex)

/-- The bytes of an address as numbers. -/
def addrBytes (a : Address) : List Nat := a.bytes.map BitVec.toNat

/-- `address_printer` (concept/printable/vast/address.hpp:26-34). -/
def printAddr (a : Address) : Str :=
  if a.isV4 then ntop4 ((addrBytes a).drop 12) else ntop6 (addrBytes a)

/-- `subnet_printer` (concept/printable/vast/subnet.hpp:22-26). -/
def printNet (n : Subnet) : Str := printAddr n.network ++ [ch '/'] ++ printNat n.length

/-- `kvp` of `map_printer` (printable/vast/data.hpp:80). -/
def printEntry (k v : Str) : Str := k ++ [ch ' ', ch '-', ch '>', ch ' '] ++ v

/-- `kvp` of `record_printer` (printable/vast/data.hpp:96). -/
def printField (n v : Str) : Str := n ++ [ch ':', ch ' '] ++ v

/-- The separator of elements. -/
def comma : Str := [ch ',', ch ' ']

mutual
/-- `data_printer` (printable/vast/data.hpp:29-105); `none` is undefined behaviour. -/
def print (env : Env) : Data → Option Str
  | .none => some [ch 'n', ch 'i', ch 'l']
  | .bool b => some [if b then ch 'T' else ch 'F']
  | .int i => printInt i
  | .count n => some (printNat n)
  | .real r => some (env.printReal r)
  | .duration d => some (env.printDuration d)
  | .time t => some (env.printTime t)
  | .string s => some (printString s)
  | .pattern s => some (printPattern s)
  | .address a => some (printAddr a)
  | .subnet n => some (printNet n)
  | .enum n => some (printNat n)
  | .list xs => (printAll env xs).map fun ts => [ch '['] ++ join comma ts ++ [ch ']']
  | .map ks vs => match printAll env ks, printAll env vs with
    | some kt, some vt => some ([ch '{'] ++ join comma (List.zipWith printEntry kt vt) ++ [ch '}'])
    | _, _ => none
  | .record ns vs => (printAll env vs).map fun vt => [ch '<'] ++ join comma (List.zipWith printField ns vt) ++ [ch '>']

/-- The texts of several values. -/
def printAll (env : Env) : List Data → Option (List Str)
  | [] => some []
  | x :: xs => match print env x, printAll env xs with
    | some t, some ts => some (t :: ts)
    | _, _ => none
end

end Verif.DataText
