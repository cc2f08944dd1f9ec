import Verif.Json.Model
import Mathlib.Data.Rat.Floor
/-!
# What JSON export and import should do

The grammar of JSON is in `Verif.Json.Grammar`.  This file refers to the types of the model and to the texts of times,
durations, addresses and subnets, not to the JSON printer and reader.
-/
namespace Verif.Json.Spec
open Verif.Data Verif.DataText Verif.Calendar

/-- A numeral without point and exponent. -/
def Num.Integral (n : Num) : Prop := n.frac = [] ∧ n.exp = none

mutual
/-- The JSON value that stands for a value.  Numbers with a fraction are rounded to six decimals.  With numeric durations, a
duration is its number of seconds, for which the conversion to a floating-point number adds some error. -/
inductive Shows (numeric : Bool) : Data → Value → Prop
  | none : Shows numeric .none .null
  | bool (b : Bool) : Shows numeric (.bool b) (.bool b)
  | int (i : Int) (n : Num) : n.Integral → n.value = i → Shows numeric (.int i) (.num n)
  | count (k : Nat) (n : Num) : n.Integral → n.value = k → Shows numeric (.count k) (.num n)
  | real (x : Rat) (n : Num) : (∃ k : Int, n.value = k / 10 ^ 6) → |n.value - x| ≤ 1 / (2 * 10 ^ 6) → Shows numeric (.real (.fin x)) (.num n)
  | notFinite (r : Real) : (∀ x, r ≠ .fin x) → Shows numeric (.real r) .null
  | duration (d : Int) (t : Str) : numeric = false → Number.printDuration d = some t → Shows numeric (.duration d) (.str t)
  | seconds (d : Int) (n : Num) : numeric = true → (∃ k : Int, n.value = k / 10 ^ 6) → |n.value - (d : Rat) / 10 ^ 9| ≤ 3 / 10 ^ 6 → Shows numeric (.duration d) (.num n)
  | time (t : Int) : Shows numeric (.time t) (.str (printTime t))
  | string (s : Str) : Shows numeric (.string s) (.str s)
  | pattern (s : Str) : Shows numeric (.pattern s) (.str s)
  | address (a : Address.Address) : Shows numeric (.address a) (.str (printAddr a))
  | subnet (n : Address.Subnet) : Shows numeric (.subnet n) (.str (printNet n))
  | enum (k : Nat) (n : Num) : n.Integral → n.value = k → Shows numeric (.enum k) (.num n)
  | list (xs : List Data) (vs : List Value) : ShowsAll numeric xs vs → Shows numeric (.list xs) (.arr vs)
  | map (ks : List Str) (xs : List Data) (vs : List Value) : ShowsAll numeric xs vs →
      Shows numeric (.map (ks.map .string) xs) (.obj ks vs)
  | record (ns : List Str) (xs : List Data) (vs : List Value) : ShowsAll numeric xs vs → Shows numeric (.record ns xs) (.obj ns vs)
/-- The same for lists, element by element. -/
inductive ShowsAll (numeric : Bool) : List Data → List Value → Prop
  | nil : ShowsAll numeric [] []
  | cons (x : Data) (v : Value) (xs : List Data) (vs : List Value) : Shows numeric x v → ShowsAll numeric xs vs →
      ShowsAll numeric (x :: xs) (v :: vs)
end

mutual
/-- The JSON value of a field: an object for a record; else that of the only column, with the label for an enumeration. -/
inductive ShowsField (numeric : Bool) : Ty → List Data → Value → Prop
  | record (fs : Fields) (row : List Data) (ns : List Str) (vs : List Value) : ShowsFields numeric fs row ns vs →
      ShowsField numeric (.record fs) row (.obj ns vs)
  | label (labels : List Str) (n : Nat) (s : Str) : labels[n]? = some s → ShowsField numeric (.enum labels) [.enum n] (.str s)
  | column (t : Ty) (x : Data) (v : Value) : (∀ fs, t ≠ .record fs) → (∀ n, x ≠ .enum n) → Shows numeric x v → ShowsField numeric t [x] v
/-- The fields of a record in order: names and values. -/
inductive ShowsFields (numeric : Bool) : Fields → List Data → List Str → List Value → Prop
  | nil : ShowsFields numeric .nil [] [] []
  | cons (n : Str) (t : Ty) (rest : Fields) (row row' : List Data) (v : Value) (ns : List Str) (vs : List Value) :
      ShowsField numeric t row v → ShowsFields numeric rest row' ns vs → ShowsFields numeric (.cons n t rest) (row ++ row') (n :: ns) (v :: vs)
end

mutual
/-- The columns of a type: the names on the way to each, and its type. -/
def pathsOf : Ty → List (List Str × Ty)
  | .record fs => paths fs
  | t => [([], t)]
/-- The columns of a record. -/
def paths : Fields → List (List Str × Ty)
  | .nil => []
  | .cons n t rest => (pathsOf t).map (fun p => (n :: p.1, p.2)) ++ paths rest
end

/-- Names with dots between them. -/
def dotted : List Str → Str
  | [] => []
  | [n] => n
  | n :: m :: ns => n ++ 46 :: dotted (m :: ns)

/-- A number is shown well if it is whole or not within half a millionth of a whole number. -/
def RealOk (x : Rat) : Prop := x.den = 1 ∨ ∀ i : Int, 1 / (2 * 10 ^ 6) < |x - i|

mutual
/-- Values whose JSON text is as it should be. -/
def Ok (numeric : Bool) : Data → Prop
  | .real (.fin x) => RealOk x
  | .duration d => d.natAbs < 2 ^ 63 ∧ (numeric = true → RealOk (rnd (rnd d / 10 ^ 9)))
  | .string s => Utf8 s
  | .pattern s => Utf8 s
  | .list xs => AllOk numeric xs
  | .map ks vs => ks.length = vs.length ∧ (∃ ns : List Str, ks = ns.map .string ∧ ∀ n ∈ ns, Utf8 n) ∧ AllOk numeric vs
  | .record ns vs => ns.length = vs.length ∧ (∀ n ∈ ns, Utf8 n) ∧ AllOk numeric vs
  | _ => True
/-- All elements. -/
def AllOk (numeric : Bool) : List Data → Prop
  | [] => True
  | x :: xs => Ok numeric x ∧ AllOk numeric xs
end

/-- A column that is shown well: for an enumeration the index of a label. -/
def ColumnOk (numeric : Bool) (t : Ty) (x : Data) : Prop :=
  (∃ labels n s, t = .enum labels ∧ x = .enum n ∧ labels[n]? = some s ∧ Utf8 s) ∨ ((∀ n, x ≠ .enum n) ∧ Ok numeric x)

mutual
/-- All names of a type are UTF-8. -/
def NamesOk : Ty → Prop
  | .record fs => FieldsOk fs
  | _ => True
/-- All names of a record are UTF-8. -/
def FieldsOk : Fields → Prop
  | .nil => True
  | .cons n t rest => Utf8 n ∧ NamesOk t ∧ FieldsOk rest
end

/-- A row of the columns of a layout, each of which is shown well. -/
def RowOk (numeric : Bool) (layout : Fields) (row : List Data) : Prop :=
  List.Forall₂ (fun p x => ColumnOk numeric p.2 x) (paths layout) row

end Verif.Json.Spec
