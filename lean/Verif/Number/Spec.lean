import Verif.DataText.LiteralSpec
import Mathlib.Data.Rat.Floor
/-!
# Decimal numerals
-/
namespace Verif.Number.Spec
open Verif.DataText.Spec Verif.Data

/-- The text of a decimal numeral: a sign, digits, a dot, digits. -/
def decimalText (neg : Bool) (ds fs : List Nat) : Str := (if neg then [45] else []) ++ digitText ds ++ [46] ++ digitText fs

/-- The number that a decimal numeral denotes. -/
def decimalValue (neg : Bool) (ds fs : List Nat) : Rat :=
  (if neg then -1 else 1) * ((numeral ds : Rat) + (numeral fs : Rat) / 10 ^ fs.length)

/-- Digits without superfluous zeros in front. -/
def NoLeadingZero (ds : List Nat) : Prop := ds = [0] ∨ ds.head? ≠ some 0

/-- Digits without superfluous zeros at the end. -/
def NoTrailingZero (fs : List Nat) : Prop := fs = [0] ∨ fs.getLast? ≠ some 0

/-- The units of durations, with their length in nanoseconds. -/
def units : List (String × Nat) :=
  [("ns", 1), ("us", 1000), ("ms", 1000000), ("s", 1000000000), ("m", 60000000000), ("h", 3600000000000), ("d", 86400000000000)]

/-- The unit for a duration: nanoseconds, or the longest unit that is not longer than the duration. -/
def UnitFor (d : Int) (name : String) (u : Nat) : Prop :=
  (name, u) ∈ units ∧ (u ≤ d.natAbs ∨ u = 1) ∧ ∀ name' u', (name', u') ∈ units → u < u' → d.natAbs < u'

end Verif.Number.Spec
