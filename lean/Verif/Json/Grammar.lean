import Verif.DataText.LiteralSpec
/-!
# JSON texts

The grammar of JSON (RFC 8259) as relations between texts and values, independent of the code.  A text is a sequence of
bytes in UTF-8.
-/
namespace Verif.Json.Spec
open Verif.Data Verif.DataText.Spec

/-- A numeral: sign, digits before the point, digits after it (none if there is no point) and exponent. -/
structure Num where
  neg : Bool
  int : List Nat
  frac : List Nat
  exp : Option Int
deriving DecidableEq

/-- A JSON value.  The members of an object are the list of their names and that of their values. -/
inductive Value where
  | null
  | bool (b : Bool)
  | num (n : Num)
  | str (s : Str)
  | arr (xs : List Value)
  | obj (names : List Str) (vals : List Value)

/-- The number that a numeral stands for, without the exponent. -/
def Num.mantissa (n : Num) : Rat :=
  (if n.neg then -1 else 1) * ((numeral n.int : Rat) + (numeral n.frac : Rat) / 10 ^ n.frac.length)

/-- The number that a numeral stands for. -/
def Num.value (n : Num) : Rat := n.mantissa * (10 : Rat) ^ (n.exp.getD 0)

/-- White space: spaces, tabs, line feeds and carriage returns. -/
def Ws (s : Str) : Prop := ∀ b ∈ s, b = 32 ∨ b = 9 ∨ b = 10 ∨ b = 13

/-- The exponent: `e` or `E`, an optional sign, digits. -/
inductive Exponent : Str → Option Int → Prop
  | absent : Exponent [] none
  | plain (e : UInt8) (ds : List Nat) : e = 101 ∨ e = 69 → Digits ds → Exponent (e :: digitText ds) (some (numeral ds))
  | plus (e : UInt8) (ds : List Nat) : e = 101 ∨ e = 69 → Digits ds → Exponent (e :: 43 :: digitText ds) (some (numeral ds))
  | minus (e : UInt8) (ds : List Nat) : e = 101 ∨ e = 69 → Digits ds → Exponent (e :: 45 :: digitText ds) (some (-(numeral ds : Int)))

/-- The text of a numeral: no leading zeros, and at least one digit on either side of the point. -/
inductive Numeral : Str → Num → Prop
  | mk (neg : Bool) (ds fs : List Nat) (e : Str) (x : Option Int) : Digits ds → (ds.head? = some 0 → ds = [0]) → (∀ d ∈ fs, d < 10) →
      Exponent e x →
      Numeral ((if neg then [45] else []) ++ digitText ds ++ (if fs = [] then [] else 46 :: digitText fs) ++ e) ⟨neg, ds, fs, x⟩

/-- A hexadecimal digit and its value. -/
inductive Hex : UInt8 → Nat → Prop
  | digit (d : Nat) : d < 10 → Hex (48 + d).toUInt8 d
  | upper (d : Nat) : d < 6 → Hex (65 + d).toUInt8 (10 + d)
  | lower (d : Nat) : d < 6 → Hex (97 + d).toUInt8 (10 + d)

/-- `\u` with four hexadecimal digits. -/
inductive Unit16 : Str → Nat → Prop
  | mk (a b c d : UInt8) (w x y z : Nat) : Hex a w → Hex b x → Hex c y → Hex d z →
      Unit16 [92, 117, a, b, c, d] (w * 4096 + x * 256 + y * 16 + z)

/-- The two-character escapes. -/
def short : List (UInt8 × UInt8) :=
  [(34, 34), (92, 92), (47, 47), (98, 8), (102, 12), (110, 10), (114, 13), (116, 9)]

/-- The UTF-8 form of a code point. -/
def utf8 (c : Char) : Str := String.utf8EncodeChar c

/-- The text between the quotes, and the string it stands for. -/
inductive Chars : Str → Str → Prop
  | nil : Chars [] []
  | plain (b : UInt8) (t s : Str) : 32 ≤ b.toNat → b ≠ 34 → b ≠ 92 → Chars t s → Chars (b :: t) (b :: s)
  | short (c b : UInt8) (t s : Str) : (c, b) ∈ short → Chars t s → Chars (92 :: c :: t) (b :: s)
  | unicode (u : Str) (n : Nat) (t s : Str) : Unit16 u n → ¬ (0xD800 ≤ n ∧ n ≤ 0xDFFF) → Chars t s →
      Chars (u ++ t) (utf8 (Char.ofNat n) ++ s)
  | pair (u v : Str) (m n : Nat) (t s : Str) : Unit16 u m → Unit16 v n → 0xD800 ≤ m ∧ m ≤ 0xDBFF → 0xDC00 ≤ n ∧ n ≤ 0xDFFF →
      Chars t s → Chars (u ++ (v ++ t)) (utf8 (Char.ofNat (0x10000 + (m - 0xD800) * 0x400 + (n - 0xDC00))) ++ s)

mutual
/-- The text of a value, without white space around it. -/
inductive Text : Str → Value → Prop
  | null : Text (ascii "null") .null
  | true : Text (ascii "true") (.bool true)
  | false : Text (ascii "false") (.bool false)
  | num (t : Str) (n : Num) : Numeral t n → Text t (.num n)
  | str (t s : Str) : Chars t s → Text (34 :: (t ++ [34])) (.str s)
  | arr0 (w : Str) : Ws w → Text (91 :: (w ++ [93])) (.arr [])
  | arr (t : Str) (xs : List Value) : Elements t xs → Text (91 :: (t ++ [93])) (.arr xs)
  | obj0 (w : Str) : Ws w → Text (123 :: (w ++ [125])) (.obj [] [])
  | obj (t : Str) (ns : List Str) (xs : List Value) : Members t ns xs → Text (123 :: (t ++ [125])) (.obj ns xs)

/-- Values with commas between them. -/
inductive Elements : Str → List Value → Prop
  | one (a t b : Str) (v : Value) : Ws a → Text t v → Ws b → Elements (a ++ (t ++ b)) [v]
  | more (a t b ts : Str) (v : Value) (vs : List Value) : Ws a → Text t v → Ws b → Elements ts vs →
      Elements (a ++ (t ++ (b ++ 44 :: ts))) (v :: vs)

/-- Names, colons and values with commas between them. -/
inductive Members : Str → List Str → List Value → Prop
  | one (a k b c t d : Str) (n : Str) (v : Value) : Ws a → Chars k n → Ws b → Ws c → Text t v → Ws d →
      Members (a ++ 34 :: (k ++ 34 :: (b ++ 58 :: (c ++ (t ++ d))))) [n] [v]
  | more (a k b c t d ts : Str) (n : Str) (v : Value) (ns : List Str) (vs : List Value) : Ws a → Chars k n → Ws b → Ws c → Text t v →
      Ws d → Members ts ns vs →
      Members (a ++ 34 :: (k ++ 34 :: (b ++ 58 :: (c ++ (t ++ (d ++ 44 :: ts)))))) (n :: ns) (v :: vs)
end

/-- A sequence of bytes that is UTF-8. -/
def Utf8 (s : Str) : Prop := ∃ cs : List Char, s = cs.flatMap utf8

/-- A JSON document. -/
def Document (s : Str) (v : Value) : Prop := Utf8 s ∧ ∃ a t b, s = a ++ (t ++ b) ∧ Ws a ∧ Text t v ∧ Ws b

end Verif.Json.Spec
