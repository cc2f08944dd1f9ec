import Verif.Broker.Model
import Verif.Address.Spec
import Mathlib.Data.List.Forall2
import Mathlib.Data.Rat.Floor
/-!
# What Zeek sends

The binary format of values in `src/threading/SerialTypes.cc` and `src/threading/Formatter.cc` of Zeek: numbers are in network byte
order, and every value begins with the numbers of its type and of the type of its elements, and a byte that says whether there is
a value.
-/
namespace Verif.Broker.Spec
open Verif.Data Verif.Broker

/-- The last `k` digits of a number to the base 256. -/
def big : Nat → Nat → Bytes
  | 0, _ => []
  | k + 1, n => big k (n / 256) ++ [(n % 256).toUInt8]

/-- The beginning of a value. -/
def header (type sub : Nat) (present : UInt8) : Bytes := big 4 type ++ big 4 sub ++ [present]

/-- The bits of a `double`: one for the sign, eleven for the exponent, 52 for the fraction. -/
inductive Double : Nat → Real → Prop
  | normal (s e f : Nat) (q : Rat) : s < 2 → 0 < e → e < 2047 → f < 2 ^ 52 →
      q = (-1) ^ s * (1 + (f : Rat) / 2 ^ 52) * 2 ^ ((e : Int) - 1023) → Double (s * 2 ^ 63 + e * 2 ^ 52 + f) (.fin q)
  | subnormal (s f : Nat) (q : Rat) : s < 2 → f < 2 ^ 52 → q = (-1) ^ s * ((f : Rat) / 2 ^ 52) * 2 ^ (-1022 : Int) →
      Double (s * 2 ^ 63 + f) (.fin q)
  | posInf : Double (2047 * 2 ^ 52) .posInf
  | negInf : Double (2 ^ 63 + 2047 * 2 ^ 52) .negInf
  | nan (s f : Nat) : s < 2 → 0 < f → f < 2 ^ 52 → Double (s * 2 ^ 63 + 2047 * 2 ^ 52 + f) .nan

/-- `t` is the number of nanoseconds in `q` seconds, up to the precision of a `double` and the part of a nanosecond.  Not more than
285 years, unless `loose`. -/
def Seconds (loose : Prop) (q : Rat) (t : Int) : Prop :=
  |(t : Rat) - q * 10 ^ 9| ≤ |q * 10 ^ 9| / 2 ^ 53 + 1 ∧ (|q| ≤ 9 * 10 ^ 9 ∨ loose)

/-- The bytes of an address. -/
inductive Addr : Bytes → Address.Address → Prop
  | v4 (a b c d : UInt8) (x : Address.Address) : x.bytes = [0, 0, 0, 0, 0, 0, 0, 0, 0, 0, 0xff, 0xff] ++ [a, b, c, d].map UInt8.toBitVec →
      Addr [4, a, b, c, d] x
  | v6 (bs : Bytes) (x : Address.Address) : x.bytes = bs.map UInt8.toBitVec → Addr (6 :: bs) x

/-- A subnet: the first `k` bits of an address, relative to its family, and the length in bits of an IPv6 address. -/
def Net (a : Address.Address) (k : Nat) (s : Address.Subnet) : Prop :=
  k ≤ a.maxLength ∧ s.len = k + (128 - a.maxLength) ∧ ∀ i, i < 128 → s.network.bit i = (a.bit i && decide (i < k + (128 - a.maxLength)))

mutual
/-- The bytes of a value.  If `loose`, then also very long times and subnets with a length that is too large, as `::/0`. -/
inductive Shows (loose : Prop) : Bytes → Data → Prop
  | absent (type sub : Nat) (p : UInt8) : type < 2 ^ 32 → sub < 2 ^ 32 → p ≠ 1 → Shows loose (header type sub p) .none
  | bool (sub n : Nat) : sub < 2 ^ 32 → n < 2 ^ 64 → Shows loose (header 1 sub 1 ++ big 8 n) (.bool (n ≠ 0))
  | int (sub n : Nat) (i : Int) : sub < 2 ^ 32 → n < 2 ^ 64 → -(2 ^ 63) ≤ i → i < 2 ^ 63 → (n : Int) = i % 2 ^ 64 → Shows loose (header 2 sub 1 ++ big 8 n) (.int i)
  | count (type sub n : Nat) : type = 3 ∨ type = 4 → sub < 2 ^ 32 → n < 2 ^ 64 → Shows loose (header type sub 1 ++ big 8 n) (.count n)
  | port (sub n protocol : Nat) : sub < 2 ^ 32 → n < 2 ^ 64 → protocol < 2 ^ 32 → Shows loose (header 12 sub 1 ++ big 8 n ++ big 4 protocol) (.count n)
  | addr (sub : Nat) (bs : Bytes) (a : Address.Address) : sub < 2 ^ 32 → Addr bs a → Shows loose (header 13 sub 1 ++ bs) (.address a)
  | subnet (sub : Nat) (k : UInt8) (bs : Bytes) (a : Address.Address) (s : Address.Subnet) : sub < 2 ^ 32 → Addr bs a → Net a k.toNat s →
      Shows loose (header 14 sub 1 ++ k :: bs) (.subnet s)
  | badSubnet (sub : Nat) (k : UInt8) (bs : Bytes) (a : Address.Address) : loose → sub < 2 ^ 32 → Addr bs a → a.maxLength < k.toNat →
      Shows loose (header 14 sub 1 ++ k :: bs) (.subnet .default)
  | double (sub n : Nat) (x : Real) : sub < 2 ^ 32 → Double n x → Shows loose (header 5 sub 1 ++ big 8 n) (.real x)
  | time (sub n : Nat) (q : Rat) (t : Int) : sub < 2 ^ 32 → Double n (.fin q) → Seconds loose q t → Shows loose (header 6 sub 1 ++ big 8 n) (.time t)
  | interval (sub n : Nat) (q : Rat) (t : Int) : sub < 2 ^ 32 → Double n (.fin q) → Seconds loose q t → Shows loose (header 7 sub 1 ++ big 8 n) (.duration t)
  | text (type sub : Nat) (s : Bytes) : type ∈ [8, 10, 20, 21] → sub < 2 ^ 32 → s.length < 2 ^ 32 →
      Shows loose (header type sub 1 ++ big 4 s.length ++ s) (.string s)
  | list (type sub : Nat) (bs : Bytes) (xs : List Data) : type = 16 ∨ type = 22 → sub < 2 ^ 32 → xs.length < 2 ^ 63 → ShowsAll loose bs xs →
      Shows loose (header type sub 1 ++ big 8 xs.length ++ bs) (.list xs)
/-- The bytes of values one after the other. -/
inductive ShowsAll (loose : Prop) : Bytes → List Data → Prop
  | nil : ShowsAll loose [] []
  | cons (bs bss : Bytes) (x : Data) (xs : List Data) : Shows loose bs x → ShowsAll loose bss xs → ShowsAll loose (bs ++ bss) (x :: xs)
end

/-- The bytes of a row: the number of columns and their values. -/
def ShowsRow (loose : Prop) (bs : Bytes) (xs : List Data) : Prop := xs.length < 2 ^ 32 ∧ ∃ bss, ShowsAll loose bss xs ∧ bs = big 4 xs.length ++ bss

/-- The same value, up to times, which have their own condition in `Shows`. -/
inductive Near : Data → Data → Prop
  | refl (d : Data) : Near d d
  | time (t u : Int) : Near (.time t) (.time u)
  | duration (t u : Int) : Near (.duration t) (.duration u)
  | list (xs ys : List Data) : List.Forall₂ Near xs ys → Near (.list xs) (.list ys)

/-! ### Types -/

/-- The types of columns, by the number of the type in Zeek; of lists, by the number of the type of the elements. -/
def plainTypes : List (Nat × Ty) :=
  [(1, .bool), (2, .int), (3, .count), (4, .count), (5, .real), (6, .time), (7, .duration), (8, .string), (10, .hashed), (12, .port),
   (13, .address), (14, .subnet)]

/-- The type of a column. -/
inductive TypeOf : Nat → Nat → Ty → Prop
  | plain (type sub : Nat) (t : Ty) : (type, t) ∈ plainTypes → TypeOf type sub t
  | list (type sub : Nat) (t : Ty) : type = 16 ∨ type = 22 → (sub, t) ∈ plainTypes → TypeOf type sub (.list t)

/-- A value of a type in Zeek, or none. -/
inductive Typed : Nat → Data → Prop
  | none (type : Nat) : Typed type .none
  | bool (b : Bool) : Typed 1 (.bool b)
  | int (i : Int) : Typed 2 (.int i)
  | count (type n : Nat) : type = 3 ∨ type = 4 ∨ type = 12 → Typed type (.count n)
  | double (x : Real) : Typed 5 (.real x)
  | time (t : Int) : Typed 6 (.time t)
  | interval (t : Int) : Typed 7 (.duration t)
  | text (type : Nat) (s : Bytes) : type ∈ [8, 10, 20, 21] → Typed type (.string s)
  | addr (a : Address.Address) : Typed 13 (.address a)
  | subnet (s : Address.Subnet) : Typed 14 (.subnet s)

/-- A value of a column. -/
inductive Fits : Nat → Nat → Data → Prop
  | plain (type sub : Nat) (x : Data) : Typed type x → Fits type sub x
  | list (type sub : Nat) (xs : List Data) : type = 16 ∨ type = 22 → (∀ x ∈ xs, Typed sub x) → Fits type sub (.list xs)

/-- A column in Zeek: its name, the number of its type and that of the type of its elements. -/
abbrev Field := Str × Nat × Nat

/-- A log: its name and its columns. -/
abbrev Log := Str × List Field

/-- A column named `ts` that is a time. -/
def Field.isTs (f : Field) : Prop := f.1 = str "ts" ∧ f.2.1 = 6

/-- The first time `ts` is the time stamp. -/
def IsStamp (fs : List Field) (i : Nat) : Prop := (∃ f, fs[i]? = some f ∧ f.isTs) ∧ ∀ j g, j < i → fs[j]? = some g → ¬ Field.isTs g

/-- Column `i`: its name, and its type, which is special for the time stamp and for identifiers. -/
def Column (fs : List Field) (i : Nat) (c : Str × Ty) : Prop :=
  ∃ f t, fs[i]? = some f ∧ TypeOf f.2.1 f.2.2 t ∧ c.1 = f.1 ∧
    (IsStamp fs i → c.2 = .timestamp) ∧
    (¬ IsStamp fs i → c.2 = if t = .string ∧ (f.1 = str "uid" ∨ f.1 = str "fuid" ∨ f.1 = str "community_id") then .hashed else t)

/-- The layout of a log. -/
def LayoutOf (log : Log) (l : Layout) : Prop :=
  l.1 = str "zeek." ++ log.1 ∧ l.2.length = log.2.length ∧ ∀ i c, l.2[i]? = some c → Column log.2 i c

/-! ### Messages -/

/-- What Zeek tells: that there is a log, that it has a row, several things at once, or something else. -/
inductive Tell where
  | create (stream : Str) (log : Log)
  | write (stream : Str) (row : List Data)
  | batch (ts : List Tell)
  | other

/-- Creations and rows, without batches. -/
inductive Event where
  | create (stream : Str) (log : Log)
  | write (stream : Str) (row : List Data)

/-- The same event, up to times. -/
inductive NearE : Event → Event → Prop
  | create (k : Str) (log : Log) : NearE (.create k log) (.create k log)
  | write (k : Str) (xs ys : List Data) : List.Forall₂ Near xs ys → NearE (.write k xs) (.write k ys)

mutual
def flat : Tell → List Event
  | .create k log => [.create k log]
  | .write k row => [.write k row]
  | .batch ts => flatAll ts
  | .other => []
def flatAll : List Tell → List Event
  | [] => []
  | t :: ts => flat t ++ flatAll ts
end

/-- The message of a field. -/
def FieldMsg (f : Field) (d : BData) : Prop :=
  ∃ x y, d = .vector [.string f.1, x, .count f.2.1, .count f.2.2, y]

mutual
/-- The message for something that Zeek tells.  Rows have less than 4 GB. -/
inductive Sends : Tell → Msg → Prop
  | create (k : Str) (log : Log) (ds : List BData) (x : BData) : List.Forall₂ FieldMsg log.2 ds →
      Sends (.create k log) (.create true k (.vector [.string log.1, .real, .real, .real, .table, x]) (.vector ds))
  | write (k : Str) (row : List Data) (bs : Bytes) : ShowsRow False bs row → bs.length < 2 ^ 32 → Sends (.write k row) (.write k (.string bs))
  | batch (ts : List Tell) (ms : List Msg) : SendsAll ts ms → Sends (.batch ts) (.batch ms)
  | other : Sends .other .other
inductive SendsAll : List Tell → List Msg → Prop
  | nil : SendsAll [] []
  | cons (t : Tell) (ts : List Tell) (m : Msg) (ms : List Msg) : Sends t m → SendsAll ts ms → SendsAll (t :: ts) (m :: ms)
end

/-- The log of a stream: the one that was created last. -/
def logOf (k : Str) : List Event → Option Log
  | [] => none
  | e :: es => match logOf k es with
    | some l => some l
    | none => match e with
      | .create k' l => if k' = k then some l else none
      | .write _ _ => none

/-- Zeek keeps to its protocol: logs have types that columns can have, and rows have the columns of the log of their stream. -/
inductive Orderly : List Event → Prop
  | nil : Orderly []
  | create (es : List Event) (k : Str) (log : Log) : Orderly es → (∀ f ∈ log.2, ∃ t, TypeOf f.2.1 f.2.2 t) → Orderly (es ++ [.create k log])
  | write (es : List Event) (k : Str) (row : List Data) : Orderly es →
      (∀ log, logOf k es = some log → List.Forall₂ (fun f x => Fits f.2.1 f.2.2 x) log.2 row) → Orderly (es ++ [.write k row])

/-- The rows with a layout that were written, in their order. -/
inductive Written (l : Layout) : List Event → List (List Data) → Prop
  | nil : Written l [] []
  | create (es : List Event) (k : Str) (log : Log) (rows : List (List Data)) : Written l es rows → Written l (es ++ [.create k log]) rows
  | row (es : List Event) (k : Str) (row : List Data) (rows : List (List Data)) (log : Log) : Written l es rows → logOf k es = some log →
      LayoutOf log l → Written l (es ++ [.write k row]) (rows ++ [row])
  | elsewhere (es : List Event) (k : Str) (row : List Data) (rows : List (List Data)) (log : Log) : Written l es rows →
      logOf k es = some log → ¬ LayoutOf log l → Written l (es ++ [.write k row]) rows
  | unknown (es : List Event) (k : Str) (row : List Data) (rows : List (List Data)) : Written l es rows → logOf k es = none →
      Written l (es ++ [.write k row]) rows

end Verif.Broker.Spec
