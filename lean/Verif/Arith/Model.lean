/-!
Arithmetic helpers: `libvast/vast/detail/narrow.hpp` and `libvast/vast/detail/math.hpp`.
-/
namespace Verif.Arith

/-! ## Conversions -/

/-- An integral type: whether it is signed, and its width. -/
structure IntType where
  signed : Bool
  bits : Nat
deriving DecidableEq

/-- The conversion of the language: the value modulo 2^bits that the type can hold (`narrow_cast`, narrow.hpp:34-38). -/
def cast (t : IntType) (v : Int) : Int :=
  let r := v % (2 ^ t.bits : Nat)
  if t.signed && (2 ^ (t.bits - 1) : Nat) ≤ r then r - (2 ^ t.bits : Nat) else r

/-- `narrow<T, U>` (narrow.hpp:45-54); `none` is the error raised. -/
def narrow (t u : IntType) (y : Int) : Option Int :=
  let x := cast t y
  if cast u x ≠ y then none
  else if t.signed ≠ u.signed ∧ (decide (x < 0) ≠ decide (y < 0)) then none
  else some x

/-! ## Powers and logarithms, of 64-bit unsigned integers -/

/-- `pow_impl` (math.hpp:43-50); the template's recursion over the exponent. -/
def powImpl (exp base result : Nat) : Nat :=
  if h : exp = 0 then result
  else if exp % 2 = 1 then powImpl (exp / 2) (base * base % 2 ^ 64) (base * result % 2 ^ 64)
  else powImpl (exp / 2) (base * base % 2 ^ 64) result
termination_by exp
decreasing_by all_goals omega

/-- `pow` for exponents that are not negative (math.hpp:82-87). -/
def pow (exp base : Nat) : Nat := powImpl exp base 1

/-- `can_square` (math.hpp:52-56). -/
def canSquare (base : Nat) : Bool := base ≤ (2 ^ 64 - 1) / base

/-- `max_pot_exp` (math.hpp:58-66).  The recursion ends after at most six squares of a number above one, which the compiler finds out;
the fuel stands for it. -/
def maxPotExp : Nat → Nat → Nat → Nat
  | 0, _, result => result
  | fuel + 1, base, result => if canSquare base then maxPotExp fuel (base * base) (result * 2) else result

/-- `ilog_helper` (math.hpp:68-76). -/
def ilogHelper (base i n x : Nat) : Nat :=
  if h : i = 0 then x
  else if pow i base ≤ n then ilogHelper base (i / 2) (n / pow i base) (x + i)
  else ilogHelper base (i / 2) n x
termination_by i
decreasing_by all_goals omega

/-- `ilog` (math.hpp:93-99). -/
def ilog (base x : Nat) : Int := if 0 < x then ilogHelper base (maxPotExp 7 base 1) x 0 else -1

end Verif.Arith
