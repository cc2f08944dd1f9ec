/-!
# Dates

Models the conversion between days since the epoch and civil dates: `from_days`
(`libvast/vast/concept/printable/std/chrono.hpp:107-134`), used to print a point in time, and `to_days`
(`libvast/vast/concept/parseable/vast/time.hpp:123-147`), used to read one.  `int` and `unsigned` have 32 bits.
-/
namespace Verif.Calendar

/-- Subtraction on `unsigned`. -/
def subU (a b : Nat) : Nat := (a + 2 ^ 32 - b) % 2 ^ 32

/-- A civil date. -/
structure Date where
  year : Int
  month : Nat
  day : Nat
deriving DecidableEq, Repr

/-- The part of `from_days` that concerns the day `doe` within an era of 400 years (chrono.hpp:126-132): the year of the
era, counted from March, the month and the day. -/
def ofEra (doe : Nat) : Nat × Nat × Nat :=
  let yoe := (subU (subU doe (doe / 1460) + doe / 36524) (doe / 146096)) / 365
  let doy := subU doe (subU (365 * yoe + yoe / 4) (yoe / 100))
  let mp := (5 * doy + 2) / 153
  let d := (subU doy ((153 * mp + 2) / 5) + 1) % 256
  let m := (if mp < 10 then mp + 3 else mp - 9) % 256
  (yoe, m, d)

/-- `from_days` (chrono.hpp:117-134); division of signed integers rounds towards zero.  The year ends up in an
`unsigned short`. -/
def fromDays (n : Int) : Date :=
  let z := n + 719468
  let era := (if z ≥ 0 then z else z - 146096).tdiv 146097
  let doe := ((z - era * 146097) % 2 ^ 32).toNat
  let r := ofEra doe
  let y := (r.1 : Int) + era * 400
  ⟨(y + if r.2.1 ≤ 2 then 1 else 0) % 2 ^ 16, r.2.1, r.2.2⟩

/-- `to_days` (time.hpp:128-147), for arguments that are an `unsigned short` and two `unsigned char`. -/
def toDays (year month day : Nat) : Int :=
  let y : Int := year - if month ≤ 2 then 1 else 0
  let era := (if y ≥ 0 then y else y - 399).tdiv 400
  let yoe := ((y - era * 400) % 2 ^ 32).toNat
  let doy := subU ((153 * (if month > 2 then month - 3 else month + 9) + 2) / 5 + day) 1
  let doe := subU (yoe * 365 + yoe / 4) (yoe / 100) + doy
  era * 146097 + doe - 719468

end Verif.Calendar
