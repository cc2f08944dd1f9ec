import Verif.Data.Model

/-!
What numeric literals mean. This file does not refer to the parsers.
-/
namespace Verif.DataText.Spec
open Verif.Data

/-- The number that decimal digits denote, the most significant digit first. -/
def numeral : List Nat → Nat
  | [] => 0
  | d :: ds => d * 10 ^ ds.length + numeral ds

/-- Decimal digits. -/
def Digits (ds : List Nat) : Prop := ds ≠ [] ∧ ∀ d ∈ ds, d < 10

/-- Their ASCII text. -/
def digitText (ds : List Nat) : Str := ds.map fun d => (48 + d).toUInt8

/-- The factors that a number may have behind it. -/
def factors : List (String × Nat) :=
  [("", 1), ("k", 1000), ("M", 1000000), ("G", 1000000000), ("T", 1000000000000), ("P", 1000000000000000),
   ("E", 1000000000000000000), ("Ki", 1024), ("Mi", 1048576), ("Gi", 1073741824), ("Ti", 1099511627776),
   ("Pi", 1125899906842624), ("Ei", 1152921504606846976)]

/-- The bytes of an ASCII text. -/
def ascii (s : String) : Str := s.toList.map fun c => c.toNat.toUInt8

end Verif.DataText.Spec
