import Verif.Data.Model

/-!
Which values are meant to survive a round trip through their textual form.
This file does not refer to the parsers or the printers.
-/
namespace Verif.DataText.Spec
open Verif.Data Verif.Address

/-- Printable ASCII. -/
def Visible (b : UInt8) : Prop := 32 ≤ b.toNat ∧ b.toNat ≤ 126

/-- ASCII codes of the characters with a meaning inside of strings and patterns. -/
def quote : UInt8 := 34
def slash : UInt8 := 47
def backslash : UInt8 := 92

/-- The number of backslashes at the end of a string. -/
def trail (s : Str) : Nat := (s.reverse.takeWhile (· == backslash)).length

/-- Strings without control characters and without characters outside of ASCII, where in front of a quotation mark and
at the end stands an even number of backslashes. -/
def StringOk (s : Str) : Prop :=
  (∀ b ∈ s, Visible b) ∧ ∀ a b, s = a ++ b → b = [] ∨ b.head? = some quote → trail a % 2 = 0

/-- Patterns without slashes and control characters, that do not end with an odd number of backslashes. -/
def PatternOk (s : Str) : Prop :=
  (∀ b ∈ s, 32 ≤ b.toNat ∧ b.toNat ≠ 127 ∧ b ≠ slash) ∧ trail s % 2 = 0

/-- Letters, digits, underscores and dots. -/
def NameChar (b : UInt8) : Prop :=
  (48 ≤ b.toNat ∧ b.toNat ≤ 57) ∨ (65 ≤ b.toNat ∧ b.toNat ≤ 90) ∨ (97 ≤ b.toNat ∧ b.toNat ≤ 122) ∨ b.toNat = 95 ∨ b.toNat = 46

/-- The names of fields. -/
def NameOk (s : Str) : Prop := s ≠ [] ∧ ∀ b ∈ s, NameChar b

/-- The first 16 bits of an address. -/
def firstWord (a : Address) : Nat :=
  match a.bytes with
  | b :: c :: _ => b.toNat * 256 + c.toNat
  | _ => 0

/-- The hexadecimal digits of a number. -/
def hexDigits (w : Nat) : List Nat := if w < 16 then [w] else hexDigits (w / 16) ++ [w % 16]
decreasing_by omega

/-- The hexadecimal form of the number begins with decimal digits and then a `d`, like a duration in days. -/
def LikeDays (w : Nat) : Prop := ∃ a b, hexDigits w = a ++ 13 :: b ∧ a ≠ [] ∧ ∀ d ∈ a, d ≤ 9

/-- Addresses whose text is not mistaken for a duration: all IPv4 addresses and the IPv6 addresses that do not begin
like `5d`. -/
def AddrOk (a : Address) : Prop := a.isV4 = true ∨ ¬ LikeDays (firstWord a)

mutual
/-- The values whose text is read as the same value. -/
def Ok : Data → Prop
  | .none => True
  | .bool _ => True
  | .int i => -(2 ^ 63) < i ∧ i < 2 ^ 63
  | .count n => n < 2 ^ 64
  | .string s => StringOk s
  | .pattern s => PatternOk s
  | .address a => AddrOk a
  | .subnet n => (∃ a k, k ≤ 128 ∧ n = Subnet.make a k) ∧ AddrOk n.network
  | .list xs => AllOk xs
  | .map ks vs => AllOk ks ∧ AllOk vs ∧ ks.length = vs.length ∧ ks.Pairwise fun a b => a.lt b = true
  | .record ns vs => AllOk vs ∧ ns.length = vs.length ∧ ns.Nodup ∧ ∀ n ∈ ns, NameOk n
  | .real _ => False
  | .duration _ => False
  | .time _ => False
  | .enum _ => False

/-- All values of a list are `Ok`. -/
def AllOk : List Data → Prop
  | [] => True
  | x :: xs => Ok x ∧ AllOk xs
end

end Verif.DataText.Spec
