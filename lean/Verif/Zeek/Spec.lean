import Verif.DataText.Spec
import Verif.Number.Spec
import Verif.Zeek.Model
/-!
# What Zeek logs mean

Which type a name stands for, which value a text stands for, and what a log is.  Of the model, this file uses the types of
columns, and the texts of addresses and subnets, which are those of `Verif.DataText`.
-/
namespace Verif.Zeek.Spec
open Verif.Data Verif.DataText.Spec Verif.Number.Spec
open Verif.Zeek (Ty)

/-- The names of types in the header of a log. -/
inductive Names : Str → Ty → Prop
  | bool : Names (ascii "bool") .bool
  | int : Names (ascii "int") .int
  | count : Names (ascii "count") .count
  | double : Names (ascii "double") .real
  | time : Names (ascii "time") .time
  | interval : Names (ascii "interval") .duration
  | string : Names (ascii "string") .string
  | enum : Names (ascii "enum") .string
  | file : Names (ascii "file") .string
  | pattern : Names (ascii "pattern") .pattern
  | addr : Names (ascii "addr") .addr
  | subnet : Names (ascii "subnet") .subnet
  | port : Names (ascii "port") .port
  | vector (n : Str) (t : Ty) : Names n t → Names (ascii "vector[" ++ n ++ ascii "]") (.list t)
  | set (n : Str) (t : Ty) : Names n t → Names (ascii "set[" ++ n ++ ascii "]") (.list t)
  | table (n : Str) (t : Ty) : Names n t → Names (ascii "table[" ++ n ++ ascii "]") (.list t)

/-- The value of a hexadecimal digit. -/
def Hex (b : UInt8) (x : Nat) : Prop :=
  (48 ≤ b.toNat ∧ b.toNat ≤ 57 ∧ x = b.toNat - 48) ∨ (65 ≤ b.toNat ∧ b.toNat ≤ 70 ∧ x = b.toNat - 55)
    ∨ (97 ≤ b.toNat ∧ b.toNat ≤ 102 ∧ x = b.toNat - 87)

/-- What an escaped text stands for: `\x` with two digits is a byte, and any other character behind a backslash is itself, if two
more characters follow.  (For texts in which fewer follow, see `C96_backslash_refuted`.) -/
inductive Unescapes : Str → Str → Prop
  | nil : Unescapes [] []
  | plain (b : UInt8) (t s : Str) : b ≠ 92 → Unescapes t s → Unescapes (b :: t) (b :: s)
  | hex (h l : UInt8) (x y : Nat) (t s : Str) : Hex h x → Hex l y → Unescapes t s →
      Unescapes (92 :: 120 :: h :: l :: t) ((x * 16 + y).toUInt8 :: s)
  | quoted (b : UInt8) (t s : Str) : b ≠ 120 → 2 ≤ t.length → Unescapes t s → Unescapes (92 :: b :: t) (b :: s)

/-- The parts with a separator between them. -/
def joined (sep : Str) : List Str → Str
  | [] => []
  | [x] => x
  | x :: y :: xs => x ++ sep ++ joined sep (y :: xs)

/-- The separator does not begin anywhere in the text. -/
def Without (sep text : Str) : Prop := ∀ b, sep.head? = some b → b ∉ text

/-- A sign. -/
def Sign (neg : Bool) (p : Str) : Prop := (neg = false ∧ (p = [] ∨ p = [43])) ∨ (neg = true ∧ p = [45])

/-- The value that the text of a column or an element stands for.  Numbers with a fraction are approximate: real numbers up to a
factor of 1 ± 2^-51, points in time and durations up to a microsecond (see `C96_time_refuted`). -/
inductive Means1 : Ty → Str → Data → Prop
  | bool (b : Bool) : Means1 .bool [if b then 84 else 70] (.bool b)
  | int (neg : Bool) (p : Str) (ds : List Nat) (i : Int) : Sign neg p → Digits ds → ds.length ≤ 19 →
      i = (if neg then -(numeral ds : Int) else numeral ds) → -(2 ^ 63) ≤ i → i < 2 ^ 63 → Means1 .int (p ++ digitText ds) (.int i)
  | count (t : Ty) (ds : List Nat) : t = .count ∨ t = .port → Digits ds → ds.length ≤ 20 → numeral ds < 2 ^ 64 →
      Means1 t (digitText ds) (.count (numeral ds))
  | real (neg : Bool) (ds fs : List Nat) (q : Rat) : Digits ds → Digits fs → ds.length ≤ 20 → numeral ds < 2 ^ 52 → fs.length ≤ 15 →
      |q - decimalValue neg ds fs| ≤ |decimalValue neg ds fs| / 2 ^ 51 → Means1 .real (decimalText neg ds fs) (.real (.fin q))
  | time (neg : Bool) (ds fs : List Nat) (t : Int) : Digits ds → Digits fs → ds.length ≤ 20 → numeral ds < 2 ^ 32 → fs.length ≤ 15 →
      |t - decimalValue neg ds fs * 10 ^ 9| < 1000 → Means1 .time (decimalText neg ds fs) (.time t)
  | duration (neg : Bool) (ds fs : List Nat) (t : Int) : Digits ds → Digits fs → ds.length ≤ 20 → numeral ds < 2 ^ 32 → fs.length ≤ 15 →
      |t - decimalValue neg ds fs * 10 ^ 9| < 1000 → Means1 .duration (decimalText neg ds fs) (.duration t)
  | string (text s : Str) : text ≠ [] → Unescapes text s → Means1 .string text (.string s)
  | addr (a : Address.Address) : Means1 .addr (DataText.printAddr a) (.address a)
  | subnet (n : Address.Subnet) : (∃ a k, k ≤ 128 ∧ n = Address.Subnet.make a k) → Means1 .subnet (DataText.printNet n) (.subnet n)

/-- The value that the text of a column stands for: of a list, at least one element, with the set separator between them. -/
inductive Means (setSep : Str) : Ty → Str → Data → Prop
  | one (t : Ty) (text : Str) (v : Data) : Means1 t text v → Means setSep t text v
  | list (t : Ty) (texts : List Str) (vs : List Data) : texts ≠ [] → (∀ x ∈ texts, Without setSep x) → List.Forall₂ (Means1 t) texts vs →
      Means setSep (.list t) (joined setSep texts) (.list vs)

/-- A column: its name, the name of its type, and its type. -/
structure Column where
  name : Str
  typeName : Str
  ty : Ty

/-- The header of a log. -/
structure Head where
  sep : Str
  setSep : Str
  empty : Str
  unset : Str
  path : Str
  opened : Str
  cols : List Column

/-- The value of a field. -/
inductive Field (h : Head) : Ty → Str → Data → Prop
  | unset (t : Ty) : Field h t h.unset .none
  | emptyString : h.empty ≠ h.unset → Field h .string h.empty (.string [])
  | emptyList (t : Ty) : h.empty ≠ h.unset → Field h (.list t) h.empty (.list [])
  | value (t : Ty) (text : Str) (v : Data) : text ≠ h.unset → text ≠ h.empty → Means h.setSep t text v → Field h t text v

/-- A separator in hexadecimal digits. -/
inductive SepText : Str → Str → Prop
  | nil : SepText [] []
  | cons (b hi lo : UInt8) (x y : Nat) (s t : Str) : Hex hi x → Hex lo y → b.toNat = x * 16 + y → SepText s t →
      SepText (b :: s) (92 :: 120 :: hi :: lo :: t)

/-- A line of the body. -/
inductive Entry where
  /-- A record. -/
  | row (texts : List Str)
  /-- An empty line. -/
  | blank
  /-- A line that begins with `#`. -/
  | comment (text : Str)
  /-- A line with another number of fields. -/
  | odd (texts : List Str)

/-- A text that can be a field. -/
def FieldText (h : Head) (x : Str) : Prop := x ≠ [] ∧ Without h.sep x

/-- A line of fields: the first one does not begin like a comment. -/
def FieldLine (h : Head) (texts : List Str) : Prop :=
  texts ≠ [] ∧ texts.length < 2 ^ 64 ∧ (∀ x ∈ texts, FieldText h x) ∧ (∀ x, texts.head? = some x → x.head? ≠ some 35)

/-- The entries a log may have. -/
def EntryOk (h : Head) : Entry → Prop
  | .row texts => FieldLine h texts ∧ List.Forall₂ (fun c x => ∃ v, Field h c.ty x v) h.cols texts
  | .blank => True
  | .comment text => ¬ ascii "separator" <+: text
  | .odd texts => FieldLine h texts ∧ texts.length ≠ h.cols.length

/-- Headers that a log may have.  The set separator does not begin like a part of a number or an address. -/
structure HeadOk (h : Head) (sepText : Str) : Prop where
  sep : h.sep ≠ [] ∧ SepText h.sep sepText
  noSep : ∀ p ∈ ["#set_separator", "#empty_field", "#unset_field", "#path", "#open", "#fields", "#types"], Without h.sep (ascii p)
  setSep : ∃ b s, h.setSep = b :: s ∧ ¬ (48 ≤ b.toNat ∧ b.toNat ≤ 57) ∧ ¬ (65 ≤ b.toNat ∧ b.toNat ≤ 70) ∧ ¬ (97 ≤ b.toNat ∧ b.toNat ≤ 102)
    ∧ b.toNat ≠ 46 ∧ b.toNat ≠ 58
  filled : h.empty ≠ [] ∧ h.unset ≠ [] ∧ h.path ≠ [] ∧ h.opened ≠ []
  cols : h.cols ≠ [] ∧ h.cols.length < 2 ^ 64 ∧ ∀ c ∈ h.cols, FieldText h c.name ∧ FieldText h c.typeName ∧ Names c.typeName c.ty

/-- The lines of a header. -/
def headLines (h : Head) (sepText : Str) : List Str :=
  [ascii "#separator " ++ sepText, ascii "#set_separator" ++ h.sep ++ h.setSep, ascii "#empty_field" ++ h.sep ++ h.empty,
    ascii "#unset_field" ++ h.sep ++ h.unset, ascii "#path" ++ h.sep ++ h.path, ascii "#open" ++ h.sep ++ h.opened,
    ascii "#fields" ++ h.sep ++ joined h.sep (h.cols.map (·.name)), ascii "#types" ++ h.sep ++ joined h.sep (h.cols.map (·.typeName))]

/-- The line of an entry. -/
def entryLine (h : Head) : Entry → Str
  | .row texts => joined h.sep texts
  | .blank => []
  | .comment text => 35 :: text
  | .odd texts => joined h.sep texts

/-- A log. -/
structure Log where
  head : Head
  sepText : Str
  body : List Entry

/-- A log with records that stand for values. -/
def LogOk (l : Log) : Prop := HeadOk l.head l.sepText ∧ ∀ e ∈ l.body, EntryOk l.head e

/-- Its lines. -/
def Log.lines (l : Log) : List Str := headLines l.head l.sepText ++ l.body.map (entryLine l.head)

/-- Its records. -/
def Log.records (l : Log) : List (Head × List Str) :=
  l.body.filterMap fun e => match e with | .row texts => some (l.head, texts) | _ => none

/-- An event for a record: the name of the log, its columns, and a value for each field. -/
def Event (r : Head × List Str) (e : Str × List (Str × Ty) × List Data) : Prop :=
  e.1 = ascii "zeek." ++ r.1.path ∧ e.2.1 = r.1.cols.map (fun c => (c.name, c.ty)) ∧
    ∃ w : List (Ty × Str), w.map (·.1) = r.1.cols.map (·.ty) ∧ w.map (·.2) = r.2 ∧ List.Forall₂ (fun p v => Field r.1 p.1 p.2 v) w e.2.2

/-- Texts that are no value of a column. -/
inductive Foreign (h : Head) : Ty → Str → Prop
  | bool (x : Str) : x ≠ h.unset → x ≠ h.empty → x ≠ [84] → x ≠ [70] → Foreign h .bool x
  | number (t : Ty) (b : UInt8) (x : Str) : b :: x ≠ h.unset → b :: x ≠ h.empty → ¬ (48 ≤ b.toNat ∧ b.toNat ≤ 57) →
      t = .count ∨ t = .port → Foreign h t (b :: x)
  | point (t : Ty) (x : Str) : x ≠ h.unset → x ≠ h.empty → 46 ∉ x → t = .real ∨ t = .time ∨ t = .duration → Foreign h t x

/-! ### Writing -/

/-- A number of nanoseconds that is a whole number of seconds, or not within 2 microseconds of one. -/
def InSecond (t : Int) : Prop := t.natAbs % 10 ^ 9 = 0 ∨ (2000 ≤ t.natAbs % 10 ^ 9 ∧ t.natAbs % 10 ^ 9 ≤ 999998000)

/-- Values, other than lists, that can be written and read again. -/
inductive Writable1 : Ty → Data → Prop
  | bool (b : Bool) : Writable1 .bool (.bool b)
  | int (i : Int) : -(2 ^ 63) < i → i < 2 ^ 63 → Writable1 .int (.int i)
  | count (t : Ty) (n : Nat) : t = .count ∨ t = .port → n < 2 ^ 64 → Writable1 t (.count n)
  | real (q : Rat) : |q| < 2 ^ 52 → |q| - |q|.floor ≤ 1 - 1 / 10 ^ 6 → Writable1 .real (.real (.fin q))
  | time (t : Int) : t.natAbs < (2 ^ 32 - 2) * 10 ^ 9 → InSecond t → Writable1 .time (.time t)
  | duration (t : Int) : t.natAbs < (2 ^ 32 - 2) * 10 ^ 9 → InSecond t → Writable1 .duration (.duration t)
  | string (s : Str) : s ≠ [] → 92 ∉ s → Writable1 .string (.string s)
  | addr (a : Address.Address) : Writable1 .addr (.address a)
  | subnet (n : Address.Subnet) : (∃ a k, k ≤ 128 ∧ n = Address.Subnet.make a k) → Writable1 .subnet (.subnet n)

/-- Values that can be written and read again.  Some strings stand for something else. -/
inductive Writable : Ty → Data → Prop
  | none (t : Ty) : Writable t .none
  | one (t : Ty) (v : Data) : Writable1 t v → v ≠ .string (ascii "-") → v ≠ .string (ascii "(empty)") → Writable t v
  | list (t : Ty) (vs : List Data) : (∀ v ∈ vs, Writable1 t v) → vs ≠ [.string (ascii "-")] → vs ≠ [.string (ascii "(empty)")] →
      Writable (.list t) (.list vs)

/-- What is read for a value: the same, up to a millionth for real numbers and 2.5 microseconds for points in time and durations. -/
inductive Near1 : Data → Data → Prop
  | same (v : Data) : Near1 v v
  | real (q p : Rat) : |p - q| ≤ 1 / 10 ^ 6 + |q| / 2 ^ 51 → Near1 (.real (.fin q)) (.real (.fin p))
  | time (s t : Int) : |(t : Rat) - s| ≤ 2500 → Near1 (.time s) (.time t)
  | duration (s t : Int) : |(t : Rat) - s| ≤ 2500 → Near1 (.duration s) (.duration t)

/-- Also for lists. -/
inductive Near : Data → Data → Prop
  | one (v w : Data) : Near1 v w → Near v w
  | list (vs ws : List Data) : List.Forall₂ Near1 vs ws → Near (.list vs) (.list ws)

/-- A value whose text does not begin with `#`. -/
def NoHash : Data → Prop
  | .string (b :: _) => b ≠ 35
  | .list (.string (b :: _) :: _) => b ≠ 35
  | _ => True

/-- Rows that can be written and read again. -/
def RowOk (cols : List Column) (r : List Data) : Prop := List.Forall₂ (fun c v => Writable c.ty v) cols r ∧ ∀ v, r.head? = some v → NoHash v

end Verif.Zeek.Spec
