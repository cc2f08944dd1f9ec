import Verif.Json.Spec
import Verif.DataText.Spec
import Verif.Number.Spec
/-!
# What the import of JSON should do

Where the value of a column is found in an object, and which value of VAST a JSON value stands for.  The texts of times,
durations, addresses, subnets and patterns, and the order of data, are those of other modules.
-/
namespace Verif.Json.Spec
open Verif.Data Verif.DataText Verif.Calendar
open Verif.DataText.Spec (ascii Digits digitText numeral)

/-- The first member of that name, if there is one. -/
def Member (k : Str) (ns : List Str) (vs : List Value) : Option Value → Prop
  | some v => ∃ i : Nat, (ns.zip vs)[i]? = some (k, v) ∧ ∀ (j : Nat) (w : Value), j < i → (ns.zip vs)[j]? ≠ some (k, w)
  | none => ∀ w, (k, w) ∉ ns.zip vs

/-- Where the value for a name with dots is: along the path; if the object at hand lacks the first name, in the member whose name
is what is left of the path, with its dots; nowhere if something on the way is not an object. -/
inductive Finds : List Str → List Str → List Value → Option Value → Prop
  | last (n : Str) (ns : List Str) (vs : List Value) (r : Option Value) : Member n ns vs r → Finds [n] ns vs r
  | inside (n m : Str) (p ns ns' : List Str) (vs vs' : List Value) (r : Option Value) : Member n ns vs (some (.obj ns' vs')) →
      Finds (m :: p) ns' vs' r → Finds (n :: m :: p) ns vs r
  | whole (n m : Str) (p ns : List Str) (vs : List Value) (r : Option Value) : Member n ns vs none →
      Member (dotted (n :: m :: p)) ns vs r → Finds (n :: m :: p) ns vs r
  | blocked (n m : Str) (p ns : List Str) (vs : List Value) (v : Value) : Member n ns vs (some v) → (∀ ns' vs', v ≠ .obj ns' vs') →
      Finds (n :: m :: p) ns vs none

/-- The parts of a name between its dots. -/
def Parts (key : Str) (parts : List Str) : Prop := parts ≠ [] ∧ (∀ p ∈ parts, (46 : UInt8) ∉ p) ∧ dotted parts = key

/-- A sign in front of a number. -/
def Signed (neg : Bool) (p : Str) : Prop := p = [] ∧ neg = false ∨ p = [43] ∧ neg = false ∨ p = [45] ∧ neg = true

/-- The integer of a sign and digits. -/
def signedNumeral (neg : Bool) (ds : List Nat) : Int := if neg then -(numeral ds : Int) else numeral ds

/-- The number of hexadecimal digits. -/
def hexNumeral : List Nat → Nat
  | [] => 0
  | d :: ds => d * 16 ^ ds.length + hexNumeral ds

mutual
/-- The value that a JSON value stands for in a column of a type. -/
inductive Means : Value → Ty → Data → Prop
  | null (t : Ty) : Means .null t .none
  | bool (b : Bool) : Means (.bool b) .bool (.bool b)
  | boolText (b : Bool) : Means (.str (ascii (if b then "true" else "false"))) .bool (.bool b)
  | int (n : Num) (i : Int) : n.Integral → n.value = i → -(2 ^ 63) ≤ i → i < 2 ^ 63 → Means (.num n) .int (.int i)
  | count (n : Num) (k : Nat) : n.Integral → n.value = k → k < 2 ^ 64 → Means (.num n) .count (.count k)
  | real (n : Num) : (n.Integral → -(2 ^ 63) ≤ n.value ∧ n.value < 2 ^ 64) → (¬ n.Integral → |n.value| < 2 ^ 1024 - 2 ^ 970) →
      Means (.num n) .real (.real (.fin (rnd n.value)))
  | seconds (n : Num) (k : Int) : n.Integral → n.value = k → |k| < 2 ^ 32 → Means (.num n) .duration (.duration (k * 10 ^ 9))
  | unix (n : Num) (k : Int) : n.Integral → n.value = k → |k| < 2 ^ 32 → Means (.num n) .time (.time (k * 10 ^ 9))
  | duration (d : Int) (name : String) (u : Nat) (t : Str) : -(2 ^ 63) < d → d < 2 ^ 63 → Number.Spec.UnitFor d name u → d.natAbs % u = 0 →
      Number.printDuration d = some t → Means (.str t) .duration (.duration d)
  | time (t : Int) : -2208988800 * 10 ^ 9 ≤ t → t < 2 ^ 63 → t % 10 ^ 9 = 0 → Means (.str (printTime t)) .time (.time t)
  | string (s : Str) : Means (.str s) .string (.string s)
  | pattern (s : Str) : DataText.Spec.PatternOk s → Means (.str (47 :: (s ++ [47]))) .pattern (.pattern s)
  | address (a : Address.Address) : Means (.str (printAddr a)) .address (.address a)
  | subnet (n : Address.Subnet) : (∃ a k, k ≤ 128 ∧ n = Address.Subnet.make a k) → Means (.str (printNet n)) .subnet (.subnet n)
  | label (labels : List Str) (i : Nat) (s : Str) : labels[i]? = some s → s ∉ labels.take i → i < 256 → Means (.str s) (.enum labels) (.enum i)
  | list (t : Ty) (vs : List Value) (xs : List Data) : MeansAll vs t xs → Means (.arr vs) (.list t) (.list xs)
  | map (t : Ty) (ns : List Str) (vs : List Value) (xs : List Data) : MeansAll vs t xs → ns.length = vs.length →
      ns.Pairwise (fun a b => (Data.string a).lt (.string b) = true) →
      Means (.obj ns vs) (.map .string t) (.map (ns.map .string) xs)
  | record (fs : Fields) (ns : List Str) (vs : List Value) (xs : List Data) : MeansFields fs ns vs xs → ns.Nodup →
      Means (.obj ns vs) (.record fs) (.record ns xs)
  | intWord (neg : Bool) (p : Str) (ds : List Nat) : Signed neg p → Digits ds → ds.length ≤ 19 → -(2 ^ 63) ≤ signedNumeral neg ds →
      signedNumeral neg ds < 2 ^ 63 → Means (.str (p ++ digitText ds)) .int (.int (signedNumeral neg ds))
  | countWord (ds : List Nat) : Digits ds → ds.length ≤ 20 → numeral ds < 2 ^ 64 → Means (.str (digitText ds)) .count (.count (numeral ds))
  | hexWord (x : UInt8) (hs : Str) (ds : List Nat) : x = 120 ∨ x = 88 → hs ≠ [] → hs.length ≤ 16 → List.Forall₂ Hex hs ds →
      Means (.str (48 :: x :: hs)) .count (.count (hexNumeral ds))
  | realWord (neg : Bool) (p : Str) (ds : List Nat) : Signed neg p → Digits ds → ds.length ≤ 20 → numeral ds < 2 ^ 53 →
      Means (.str (p ++ digitText ds)) .real (.real (.fin (signedNumeral neg ds)))
  | digits (n : Num) (i : Int) (ds : List Nat) : n.Integral → n.value = i → -(2 ^ 63) ≤ i → i < 2 ^ 64 → Digits ds → Number.Spec.NoLeadingZero ds →
      numeral ds = i.natAbs → Means (.num n) .string (.string ((if i < 0 then [45] else []) ++ digitText ds))
  | letter (b : Bool) : Means (.bool b) .string (.string [if b then 84 else 70])
/-- The same for several values. -/
inductive MeansAll : List Value → Ty → List Data → Prop
  | nil (t : Ty) : MeansAll [] t []
  | cons (v : Value) (t : Ty) (x : Data) (vs : List Value) (xs : List Data) : Means v t x → MeansAll vs t xs → MeansAll (v :: vs) t (x :: xs)
/-- The members of a record: all of its fields, in order. -/
inductive MeansFields : Fields → List Str → List Value → List Data → Prop
  | nil : MeansFields .nil [] [] []
  | cons (n : Str) (t : Ty) (rest : Fields) (v : Value) (x : Data) (ns : List Str) (vs : List Value) (xs : List Data) : Means v t x →
      MeansFields rest ns vs xs → MeansFields (.cons n t rest) (n :: ns) (v :: vs) (x :: xs)
end

/-- A character that no number has: neither a digit, also a hexadecimal one, nor a sign, a point or an x. -/
def NoNumber (b : UInt8) : Prop :=
  ¬ (48 ≤ b.toNat ∧ b.toNat ≤ 57) ∧ ¬ (65 ≤ b.toNat ∧ b.toNat ≤ 70) ∧ ¬ (97 ≤ b.toNat ∧ b.toNat ≤ 102)
    ∧ b.toNat ≠ 43 ∧ b.toNat ≠ 45 ∧ b.toNat ≠ 46 ∧ b.toNat ≠ 88 ∧ b.toNat ≠ 120

/-- Values that stand for nothing in a column of a type.  This says nothing about types with another name. -/
inductive Foreign : Value → Ty → Prop
  | bool (b : Bool) (t : Ty) : (∀ a, t ≠ .alias a) → t ≠ .bool → t ≠ .string → Foreign (.bool b) t
  | num (n : Num) (t : Ty) : (∀ a, t ≠ .alias a) → t ≠ .int → t ≠ .count → t ≠ .real → t ≠ .duration → t ≠ .time → t ≠ .string → Foreign (.num n) t
  | fraction (n : Num) (t : Ty) : ¬ n.Integral → t = .int ∨ t = .count → Foreign (.num n) t
  | word (s : Str) : s ≠ ascii "true" → s ≠ ascii "false" → Foreign (.str s) .bool
  | label (s : Str) (labels : List Str) : s ∉ labels → Foreign (.str s) (.enum labels)
  | number (s : Str) (b : UInt8) (t : Ty) : b ∈ s → NoNumber b → t = .int ∨ t = .count ∨ t = .real → Foreign (.str s) t
  | list (s : Str) (t : Ty) : Foreign (.str s) (.list t)
  | map (s : Str) (k t : Ty) : Foreign (.str s) (.map k t)
  | arr (vs : List Value) (t : Ty) : (∀ a, t ≠ .alias a) → (∀ e, t ≠ .list e) → Foreign (.arr vs) t
  | element (vs : List Value) (v : Value) (t : Ty) : v ∈ vs → Foreign v t → Foreign (.arr vs) (.list t)
  | obj (ns : List Str) (vs : List Value) (t : Ty) : (∀ a, t ≠ .alias a) → (∀ k e, t ≠ .map k e) → (∀ fs, t ≠ .record fs) → Foreign (.obj ns vs) t

mutual
/-- No integer is too large for 64 bits, and no other number is too large for a `double`. -/
def Fits : Value → Prop
  | .num n => (n.Integral → -(2 ^ 63) ≤ n.value ∧ n.value < 2 ^ 64) ∧ (¬ n.Integral → |n.value| < 2 ^ 1024 - 2 ^ 970)
  | .arr xs => FitsAll xs
  | .obj _ vs => FitsAll vs
  | _ => True
/-- The same for several values. -/
def FitsAll : List Value → Prop
  | [] => True
  | v :: vs => Fits v ∧ FitsAll vs
end

/-- No record within lists and maps. -/
def NoRecord : Ty → Prop
  | .record _ => False
  | .list t => NoRecord t
  | .map k v => NoRecord k ∧ NoRecord v
  | _ => True

mutual
/-- Values of a type that export and import should keep. -/
inductive Kept : Ty → Data → Prop
  | none (t : Ty) : Kept t .none
  | bool (b : Bool) : Kept .bool (.bool b)
  | int (i : Int) : -(2 ^ 63) ≤ i → i < 2 ^ 63 → Kept .int (.int i)
  | count (k : Nat) : k < 2 ^ 64 → Kept .count (.count k)
  | real (k : Int) : |k| < 10 ^ 15 → Kept .real (.real (.fin (rnd ((k : Rat) / 10 ^ 6))))
  | duration (d : Int) (name : String) (u : Nat) : -(2 ^ 63) < d → d < 2 ^ 63 → Number.Spec.UnitFor d name u → d.natAbs % u = 0 → Kept .duration (.duration d)
  | time (t : Int) : -2208988800 * 10 ^ 9 ≤ t → t < 2 ^ 63 → t % 10 ^ 9 = 0 → Kept .time (.time t)
  | string (s : Str) : Utf8 s → Kept .string (.string s)
  | address (a : Address.Address) : Kept .address (.address a)
  | subnet (n : Address.Subnet) : (∃ a k, k ≤ 128 ∧ n = Address.Subnet.make a k) → Kept .subnet (.subnet n)
  | list (t : Ty) (xs : List Data) : KeptAll t xs → Kept (.list t) (.list xs)
  | map (t : Ty) (ns : List Str) (xs : List Data) : KeptAll t xs → ns.length = xs.length → (∀ n ∈ ns, Utf8 n) →
      ns.Pairwise (fun a b => (Data.string a).lt (.string b) = true) → Kept (.map .string t) (.map (ns.map .string) xs)
  | record (fs : Fields) (ns : List Str) (xs : List Data) : KeptFields fs ns xs → ns.Nodup → Kept (.record fs) (.record ns xs)
/-- The same for several values. -/
inductive KeptAll : Ty → List Data → Prop
  | nil (t : Ty) : KeptAll t []
  | cons (t : Ty) (x : Data) (xs : List Data) : Kept t x → KeptAll t xs → KeptAll t (x :: xs)
/-- The same for the fields of a record. -/
inductive KeptFields : Fields → List Str → List Data → Prop
  | nil : KeptFields .nil [] []
  | cons (n : Str) (t : Ty) (rest : Fields) (x : Data) (ns : List Str) (xs : List Data) : Utf8 n → Kept t x → KeptFields rest ns xs →
      KeptFields (.cons n t rest) (n :: ns) (x :: xs)
end

/-- The same for a column: also labels, if the index is that of their first occurrence. -/
def ColumnKept (t : Ty) (x : Data) : Prop :=
  Kept t x ∨ ∃ labels n s, t = .enum labels ∧ x = .enum n ∧ labels[n]? = some s ∧ s ∉ labels.take n ∧ n < 256 ∧ Utf8 s

/-- The names of the fields at the top. -/
def topNames : Fields → List Str
  | .nil => []
  | .cons n _ rest => n :: topNames rest

mutual
/-- The names within a type are distinct at each level and have no dots. -/
def DistinctIn : Ty → Prop
  | .record fs => Distinct fs
  | _ => True
/-- The same for the names of a record. -/
def Distinct : Fields → Prop
  | .nil => True
  | .cons n t rest => (46 : UInt8) ∉ n ∧ n ∉ topNames rest ∧ DistinctIn t ∧ Distinct rest
end

end Verif.Json.Spec
