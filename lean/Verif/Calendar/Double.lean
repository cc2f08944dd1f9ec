/-!
# Floating-point numbers

The result of an operation on `double` is the exact one, rounded to the nearest number with 53 significant bits, ties to
the even one (IEEE 754, the default rounding).  The model has no least and no greatest exponent.
-/
namespace Verif.Calendar

/-- The number of binary digits after the point that rounding `num / den`, less than 2^53, keeps. -/
def places (num den : Nat) : Nat :=
  let k := 53 + Nat.log2 den - Nat.log2 num
  if num * 2 ^ k < 2 ^ 53 * den then k else k - 1

/-- The number of binary digits before the point that rounding `num / den`, at least 2^53, loses. -/
def lost (num den : Nat) : Nat :=
  let j := Nat.log2 num - Nat.log2 den - 53
  if num < 2 ^ 53 * (den * 2 ^ j) then j else j + 1

/-- The nearest integer, ties to even. -/
def nearest (num den : Nat) : Nat :=
  let q := num / den
  let r := num % den
  if 2 * r < den ∨ (2 * r = den ∧ q % 2 = 0) then q else q + 1

/-- Rounding of `n / d`. -/
def rndFrac (n d : Nat) : Rat :=
  if n < 2 ^ 53 * d then (nearest (n * 2 ^ places n d) d : Rat) / (2 ^ places n d : Nat)
  else (nearest n (d * 2 ^ lost n d) * 2 ^ lost n d : Nat)

/-- Rounding of a number that is not negative. -/
def rndPos (x : Rat) : Rat := if x.num = 0 then 0 else rndFrac x.num.toNat x.den

/-- Rounding to `double`. -/
def rnd (x : Rat) : Rat := if x < 0 then -rndPos (-x) else rndPos x

/-- The conversion of a `double` to an integer: towards zero. -/
def trunc (x : Rat) : Int := if x < 0 then -(-x).floor else x.floor

end Verif.Calendar
