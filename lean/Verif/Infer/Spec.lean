import Verif.Json.ReadSpec
import Verif.SchemaText.TextSpec
/-!
# What an inferred schema should do

When two JSON values have the same shape, and which values of an object get a column.  What JSON values stand for is in
`Verif.Json.ReadSpec`, what names of schemas are in `Verif.SchemaText.TextSpec`.
-/
namespace Verif.Infer.Spec
open Verif.Data Verif.DataText Verif.Calendar Verif.Json Verif.Json.Spec

/-- A word: it begins neither as a number, nor as an address, or it has no dots and colons. -/
def Word (s : Str) : Prop :=
  ∀ b r, s = b :: r → (b < 48 ∨ 57 < b) ∧ b ≠ 43 ∧ b ≠ 45 ∧ b ≠ 46 ∧
    ((b ≠ 58 ∧ (b < 65 ∨ 70 < b) ∧ (b < 97 ∨ 102 < b)) ∨ ((46 : UInt8) ∉ s ∧ (58 : UInt8) ∉ s))

mutual
/-- The second value has the shape of the first one: numbers of the same kind, texts that say the same kind of thing, lists whose
elements all have the shape of the first element of the first list, objects with the same members.  Null fits everywhere.  Names of
members are distinct and have no dots. -/
inductive Alike : Value → Value → Prop
  | null (v : Value) : Alike v .null
  | bool (a b : Bool) : Alike (.bool a) (.bool b)
  | int (n m : Num) : n.Integral → -(2 ^ 63) ≤ n.value → n.value < 2 ^ 63 → m.Integral → -(2 ^ 63) ≤ m.value → m.value < 2 ^ 63 →
      Alike (.num n) (.num m)
  | count (n m : Num) : n.Integral → 2 ^ 63 ≤ n.value → n.value < 2 ^ 64 → m.Integral → 0 ≤ m.value → m.value < 2 ^ 64 → Alike (.num n) (.num m)
  | real (n m : Num) : ¬ n.Integral → Fits (.num n) → Fits (.num m) → Alike (.num n) (.num m)
  | word (s t : Str) : Word s → Alike (.str s) (.str t)
  | address (a b : Address.Address) : Alike (.str (printAddr a)) (.str (printAddr b))
  | subnet (a b : Address.Address) (j k : Nat) : j ≤ 128 → k ≤ 128 →
      Alike (.str (printNet (Address.Subnet.make a j))) (.str (printNet (Address.Subnet.make b k)))
  | time (s t : Int) : -2208988800 * 10 ^ 9 ≤ s → s < 2 ^ 63 → s % 10 ^ 9 = 0 → -2208988800 * 10 ^ 9 ≤ t → t < 2 ^ 63 → t % 10 ^ 9 = 0 →
      Alike (.str (printTime s)) (.str (printTime t))
  | duration (d e : Int) (name name' : String) (u u' : Nat) (s t : Str) : -(2 ^ 63) < d → d < 2 ^ 63 → Number.Spec.UnitFor d name u →
      d.natAbs % u = 0 → Number.printDuration d = some s → -(2 ^ 63) < e → e < 2 ^ 63 → Number.Spec.UnitFor e name' u' →
      e.natAbs % u' = 0 → Number.printDuration e = some t → Alike (.str s) (.str t)
  | empty : Alike (.arr []) (.arr [])
  | list (x : Value) (xs ys : List Value) : AlikeAll x ys → Alike (.arr (x :: xs)) (.arr ys)
  | object (ns : List Str) (vs ws : List Value) : ns ≠ [] → ns.Nodup → (∀ n ∈ ns, (46 : UInt8) ∉ n) → AlikeMembers ns vs ws →
      Alike (.obj ns vs) (.obj ns ws)
/-- All of the values have the shape of the first one. -/
inductive AlikeAll : Value → List Value → Prop
  | nil (x : Value) : AlikeAll x []
  | cons (x y : Value) (ys : List Value) : Alike x y → AlikeAll x ys → AlikeAll x (y :: ys)
/-- Every member has the shape of the one with the same name. -/
inductive AlikeMembers : List Str → List Value → List Value → Prop
  | nil : AlikeMembers [] [] []
  | cons (n : Str) (v w : Value) (ns : List Str) (vs ws : List Value) : Alike v w → AlikeMembers ns vs ws → AlikeMembers (n :: ns) (v :: vs) (w :: ws)
end

mutual
/-- The ways to everything in a value that is not an object. -/
def waysOf : Value → List (List Str)
  | .obj ns vs => ways ns vs
  | _ => [[]]
/-- The same for the members of an object. -/
def ways : List Str → List Value → List (List Str)
  | n :: ns, v :: vs => (waysOf v).map (n :: ·) ++ ways ns vs
  | _, _ => []
end

/-- The first member of a name. -/
def member (n : Str) : List Str → List Value → Option Value
  | m :: ns, v :: vs => if m = n then some v else member n ns vs
  | _, _ => none

/-- What is at the end of a way. -/
def along : List Str → Value → Option Value
  | [], v => some v
  | n :: p, .obj ns vs => (member n ns vs).bind (along p)
  | _ :: _, _ => none

mutual
/-- Something that a schema can describe: there are no nulls, empty lists and empty objects, and the names are those of
schemas.  Of lists only the first element matters. -/
inductive Described : Value → Prop
  | bool (b : Bool) : Described (.bool b)
  | num (n : Num) : Fits (.num n) → Described (.num n)
  | str (s : Str) : Described (.str s)
  | list (x : Value) (xs : List Value) : Described x → Described (.arr (x :: xs))
  | object (ns : List Str) (vs : List Value) : ns ≠ [] → DescribedMembers ns vs → Described (.obj ns vs)
/-- The same for members. -/
inductive DescribedMembers : List Str → List Value → Prop
  | nil : DescribedMembers [] []
  | cons (n : Str) (v : Value) (ns : List Str) (vs : List Value) : SchemaText.Spec.IsName n → Described v → DescribedMembers ns vs →
      DescribedMembers (n :: ns) (v :: vs)
end

mutual
/-- What a value shows: numbers by their form and range, texts by what they say, lists by their first element. -/
inductive Kind : Value → Ty → Prop
  | bool (b : Bool) : Kind (.bool b) .bool
  | int (n : Num) : n.Integral → -(2 ^ 63) ≤ n.value → n.value < 2 ^ 63 → Kind (.num n) .int
  | count (n : Num) : n.Integral → 2 ^ 63 ≤ n.value → n.value < 2 ^ 64 → Kind (.num n) .count
  | real (n : Num) : ¬ n.Integral → Fits (.num n) → Kind (.num n) .real
  | word (s : Str) : Word s → Kind (.str s) .string
  | address (a : Address.Address) : Kind (.str (printAddr a)) .address
  | subnet (a : Address.Address) (k : Nat) : k ≤ 128 → Kind (.str (printNet (Address.Subnet.make a k))) .subnet
  | time (t : Int) : -2208988800 * 10 ^ 9 ≤ t → t < 2 ^ 63 → t % 10 ^ 9 = 0 → Kind (.str (printTime t)) .time
  | duration (d : Int) (name : String) (u : Nat) (s : Str) : -(2 ^ 63) < d → d < 2 ^ 63 → Number.Spec.UnitFor d name u → d.natAbs % u = 0 →
      Number.printDuration d = some s → Kind (.str s) .duration
  | list (x : Value) (xs : List Value) (t : Ty) : Kind x t → Kind (.arr (x :: xs)) (.list t)
  | object (ns : List Str) (vs : List Value) (fs : Fields) : ns ≠ [] → KindMembers ns vs fs → Kind (.obj ns vs) (.record fs)
/-- The members of an object, in order. -/
inductive KindMembers : List Str → List Value → Fields → Prop
  | nil : KindMembers [] [] .nil
  | cons (n : Str) (v : Value) (t : Ty) (ns : List Str) (vs : List Value) (fs : Fields) : Kind v t → KindMembers ns vs fs →
      KindMembers (n :: ns) (v :: vs) (.cons n t fs)
end

/-- A text begins with a line, which has no carriage return, or is that line. -/
def Begins (text line : Str) : Prop := (13 : UInt8) ∉ line ∧ (text = line ∨ ∃ rest, text = line ++ 13 :: 10 :: rest)

end Verif.Infer.Spec
