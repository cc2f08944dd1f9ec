import Verif.Json.Grammar
import Verif.DataText.Model
/-!
# The parser of JSON texts

`reader::read_impl` hands each line to `simdjson::dom::parser::parse` (`libvast/vast/format/json.hpp:185`).  That library is
not part of the code base; this module stands for it.  `Verif.Json.ParseLemmas` shows that it reads every document of the
grammar in `Verif.Json.Grammar` as the value that the grammar gives to it.  Left out are the library's limits on nesting (1024)
and size (4 GB), and the overflow of floating-point numbers.
-/
namespace Verif.Json
open Verif.Data Verif.DataText Verif.Json.Spec

/-- White space. -/
def isWs (b : UInt8) : Bool := b == 32 || b == 9 || b == 10 || b == 13

/-- Skips white space. -/
def ws (s : Str) : Str := s.dropWhile isWs

/-- All digits from the beginning. -/
def digitsOf : Str → List Nat × Str
  | [] => ([], [])
  | b :: s => if isDigit b then ((b.toNat - 48) :: (digitsOf s).1, (digitsOf s).2) else ([], b :: s)

/-- An optional minus. -/
def minus : Str → Bool × Str
  | [] => (false, [])
  | b :: s => if b = 45 then (true, s) else (false, b :: s)

/-- The fraction. -/
def fracP : P (List Nat)
  | [] => some ([], [])
  | b :: s => if b = 46 then (if (digitsOf s).1 = [] then none else some (digitsOf s)) else some ([], b :: s)

/-- An optional sign. -/
def sign : Str → Bool × Str
  | [] => (false, [])
  | b :: s => if b = 45 then (true, s) else if b = 43 then (false, s) else (false, b :: s)

/-- The exponent. -/
def expP : P (Option Int)
  | [] => some (none, [])
  | b :: s =>
    if b = 101 ∨ b = 69 then
      if (digitsOf (sign s).2).1 = [] then none
      else some (some (if (sign s).1 then -(value (digitsOf (sign s).2).1 : Int) else value (digitsOf (sign s).2).1), (digitsOf (sign s).2).2)
    else some (none, b :: s)

/-- A number. -/
def numberP : P Num := fun s =>
  let i := digitsOf (minus s).2
  if i.1 = [] ∨ (i.1.head? = some 0 ∧ i.1 ≠ [0]) then none
  else match fracP i.2 with
    | none => none
    | some (f, r) => match expP r with
      | none => none
      | some (e, r') => some (⟨(minus s).1, i.1, f, e⟩, r')

/-- A hexadecimal digit. -/
def hexOf (b : UInt8) : Option Nat :=
  if 48 ≤ b.toNat ∧ b.toNat ≤ 57 then some (b.toNat - 48)
  else if 65 ≤ b.toNat ∧ b.toNat ≤ 70 then some (b.toNat - 55)
  else if 97 ≤ b.toNat ∧ b.toNat ≤ 102 then some (b.toNat - 87)
  else none

/-- Four hexadecimal digits. -/
def hex4 (a b c d : UInt8) : Option Nat :=
  match hexOf a, hexOf b, hexOf c, hexOf d with
  | some w, some x, some y, some z => some (w * 4096 + x * 256 + y * 16 + z)
  | _, _, _, _ => none

/-- `\u` with its digits. -/
def unitP : P Nat
  | x :: y :: a :: b :: c :: d :: r => if x = 92 ∧ y = 117 then (hex4 a b c d).map fun n => (n, r) else none
  | _ => none

/-- The code point behind an escape: one or two units. -/
def codeP : P Char := fun s =>
  match unitP s with
  | none => none
  | some (m, r) =>
    if 0xD800 ≤ m ∧ m ≤ 0xDFFF then
      if m ≤ 0xDBFF then
        match unitP r with
        | none => none
        | some (n, r') =>
          if 0xDC00 ≤ n ∧ n ≤ 0xDFFF then some (Char.ofNat (0x10000 + (m - 0xD800) * 0x400 + (n - 0xDC00)), r') else none
      else none
    else some (Char.ofNat m, r)

/-- A string behind its opening quote.  Each step takes a character, so that the length of the text bounds the number of
steps. -/
def chars : Nat → P Str
  | 0, _ => none
  | _ + 1, [] => none
  | n + 1, b :: s =>
    if b = 34 then some ([], s)
    else if b.toNat < 32 then none
    else if b ≠ 92 then (chars n s).map fun x => (b :: x.1, x.2)
    else match s with
      | [] => none
      | c :: r =>
        match Spec.short.find? fun p => p.1 == c with
        | some p => (chars n r).map fun x => (p.2 :: x.1, x.2)
        | none => match codeP (b :: s) with
          | none => none
          | some (u, r') => (chars n r').map fun x => (utf8 u ++ x.1, x.2)

/-- A string. -/
def stringP : P Str
  | [] => none
  | b :: s => if b = 34 then chars (s.length + 1) s else none

/-- Elements of an array up to the closing bracket. -/
def itemsP (p : P Value) : Nat → P (List Value)
  | 0, _ => none
  | n + 1, s => match p (ws s) with
    | none => none
    | some (v, r) => match ws r with
      | [] => none
      | b :: r' =>
        if b = 93 then some ([v], r')
        else if b = 44 then (itemsP p n r').map fun x => (v :: x.1, x.2)
        else none

/-- Members of an object up to the closing brace. -/
def membersP (p : P Value) : Nat → P (List Str × List Value)
  | 0, _ => none
  | n + 1, s => match stringP (ws s) with
    | none => none
    | some (k, r) => match ws r with
      | [] => none
      | b :: r' =>
        if b ≠ 58 then none
        else match p (ws r') with
          | none => none
          | some (v, r'') => match ws r'' with
            | [] => none
            | c :: q =>
              if c = 125 then some (([k], [v]), q)
              else if c = 44 then (membersP p n q).map fun x => ((k :: x.1.1, v :: x.1.2), x.2)
              else none

/-- An array behind its opening bracket. -/
def arrayP (p : P Value) : P Value := fun s =>
  match ws s with
  | [] => none
  | b :: r => if b = 93 then some (.arr [], r) else (itemsP p (s.length + 1) s).map fun x => (.arr x.1, x.2)

/-- An object behind its opening brace. -/
def objectP (p : P Value) : P Value := fun s =>
  match ws s with
  | [] => none
  | b :: r => if b = 125 then some (.obj [] [], r) else (membersP p (s.length + 1) s).map fun x => (.obj x.1.1 x.1.2, x.2)

/-- A value of nesting depth at most the first argument. -/
def valueP : Nat → P Value
  | 0, _ => none
  | _ + 1, [] => none
  | n + 1, b :: s =>
    if b = 34 then (stringP (b :: s)).map fun x => (.str x.1, x.2)
    else if b = 91 then arrayP (valueP n) s
    else if b = 123 then objectP (valueP n) s
    else if b = 110 then (kw ['n', 'u', 'l', 'l'] (b :: s)).map fun r => (.null, r)
    else if b = 116 then (kw ['t', 'r', 'u', 'e'] (b :: s)).map fun r => (.bool true, r)
    else if b = 102 then (kw ['f', 'a', 'l', 's', 'e'] (b :: s)).map fun r => (.bool false, r)
    else (numberP (b :: s)).map fun x => (.num x.1, x.2)

/-- A continuation byte. -/
def isCont (b : UInt8) : Bool := decide (128 ≤ b.toNat) && decide (b.toNat ≤ 191)

/-- The check for UTF-8 (Unicode Standard, table 3-7). -/
def wellFormed : Str → Bool
  | [] => true
  | a :: s =>
    if a.toNat < 128 then wellFormed s
    else match s with
      | [] => false
      | b :: s =>
        if 194 ≤ a.toNat ∧ a.toNat ≤ 223 then isCont b && wellFormed s
        else match s with
          | [] => false
          | c :: s =>
            if 224 ≤ a.toNat ∧ a.toNat ≤ 239 then
              isCont b && isCont c && (a.toNat != 224 || decide (160 ≤ b.toNat)) && (a.toNat != 237 || decide (b.toNat ≤ 159)) && wellFormed s
            else match s with
              | [] => false
              | d :: s =>
                if 240 ≤ a.toNat ∧ a.toNat ≤ 244 then
                  isCont b && isCont c && isCont d && (a.toNat != 240 || decide (144 ≤ b.toNat)) && (a.toNat != 244 || decide (b.toNat ≤ 143))
                    && wellFormed s
                else false

/-- Reading a document. -/
def document (s : Str) : Option Value :=
  if wellFormed s then
    match valueP (s.length + 1) (ws s) with
    | some (v, r) => if ws r = [] then some v else none
    | none => none
  else none

end Verif.Json
