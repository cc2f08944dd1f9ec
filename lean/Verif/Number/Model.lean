import Verif.Calendar.Text
/-!
# The text of floating-point numbers and durations

Models `real_printer` (`libvast/vast/concept/printable/numeric/real.hpp:21-56`) and `duration_printer` with the adaptive
policy (`libvast/vast/concept/printable/std/chrono.hpp:27-96`), and what a number and a unit denote when a duration is read
(`libvast/vast/concept/parseable/vast/time.hpp:79-86`).  Arithmetic on `double` is that of `Verif.Calendar.Double`.
-/
namespace Verif.Number
open Verif.DataText Verif.Data Verif.Calendar

/-- `std::round` on a number that is not negative: halves go up. -/
def roundUp (x : Rat) : Nat := (x + 1 / 2).floor.toNat

/-- Chopping off trailing zeros (real.hpp:45-46).  `n` bounds the number of steps. -/
def chop : Nat → Nat → Nat
  | 0, x => x
  | n + 1, x => if x > 0 ∧ x % 10 = 0 then chop n (x / 10) else x

/-- The number of zeros to write after the dot (real.hpp:41-43): the `i` from 1 on with `i < MaxDigits - log10(right)`.  The
model takes `std::log10` to be exact. -/
def leading (D right : Nat) : Nat :=
  if right = 0 then 0 else ((List.range D).takeWhile fun i => decide (right * 10 ^ (i + 1) < 10 ^ D)).length

/-- The fraction as an integer (real.hpp:34): `std::modf` is exact, and so is `std::pow(10, D)` for `D` up to 22. -/
def right (D : Nat) (x : Rat) : Nat := roundUp (rnd ((x - x.floor) * 10 ^ D))

/-- `real_printer<double, D>::print` after the sign (real.hpp:33-51), `D > 0`.  The conversion of a number of 2^64 or more to
`uint64_t` is undefined: `none`. -/
def printAbs (D : Nat) (x : Rat) : Option Str :=
  if x < 2 ^ 64 then
    some (printNat x.floor.toNat
      ++ (ch '.' :: (List.replicate (leading D (right D x)) (ch '0') ++ printNat (chop (D + 1) (right D x)))))
  else none

/-- `real_printer<double, D>::print` (real.hpp:27-55).  What is not finite is converted to `uint64_t`, too: undefined. -/
def printReal (D : Nat) : Real → Option Str
  | .fin x => if x < 0 then (printAbs D (-x)).map (ch '-' :: ·) else printAbs D x
  | _ => none

/-- The units of the adaptive policy with their number of nanoseconds (chrono.hpp:82-95), before nanoseconds. -/
def printUnits : List (Nat × List Char) :=
  [(86400 * 10 ^ 9, ['d']), (3600 * 10 ^ 9, ['h']), (60 * 10 ^ 9, ['m']), (10 ^ 9, ['s']), (10 ^ 6, ['m', 's']), (10 ^ 3, ['u', 's'])]

/-- The first unit that the duration has at least one of (chrono.hpp:82-95; `is_at_least`, 31-34). -/
def pick (d : Int) : Nat × List Char :=
  (printUnits.find? fun u => decide (1 ≤ d.natAbs / u.1)).getD (1, ['n', 's'])

/-- `count` (chrono.hpp:36-40). -/
def count (d : Int) (u : Nat) : Rat := rnd (rnd d / u)

/-- `duration_printer::print` (chrono.hpp:72-96).  `std::chrono::abs` of the least duration overflows: `none`. -/
def printDuration (d : Int) : Option Str :=
  if d = -(2 ^ 63) then none else (printReal 2 (.fin (count d (pick d).1))).map (· ++ (pick d).2.map ch)

/-- A number times a unit (parseable/vast/time.hpp:79-86). -/
def scale (env : Env) (l : Lit) (u : Nat) : Int := env.int64 (trunc (rnd (u * litVal l)))

/-- The textual form of data with what this module and `Verif.Calendar` say about numbers, durations and times.  Texts that
are undefined stay open. -/
def withNumbers (env : Env) : Env :=
  { withTimes env with
    real := fun l => .fin (litVal l)
    scale := scale env
    printReal := fun x => (printReal 10 x).getD (env.printReal x)
    printDuration := fun d => (printDuration d).getD (env.printDuration d) }

end Verif.Number
