import Verif.Calendar.Model
/-!
# The Gregorian calendar
-/
namespace Verif.Calendar

/-- Leap years: those divisible by 4, except those divisible by 100 but not by 400. -/
def leap (y : Int) : Bool := decide (y % 4 = 0) && (!decide (y % 100 = 0) || decide (y % 400 = 0))

/-- The length of a month. -/
def monthLength (y : Int) (m : Nat) : Nat :=
  if m = 2 then (if leap y then 29 else 28)
  else if m = 4 ∨ m = 6 ∨ m = 9 ∨ m = 11 then 30
  else 31

/-- A date of the calendar. -/
def Date.Valid (d : Date) : Prop := 1 ≤ d.month ∧ d.month ≤ 12 ∧ 1 ≤ d.day ∧ d.day ≤ monthLength d.year d.month

/-- The day after. -/
def Date.next (d : Date) : Date :=
  if d.day < monthLength d.year d.month then ⟨d.year, d.month, d.day + 1⟩
  else if d.month < 12 then ⟨d.year, d.month + 1, 1⟩
  else ⟨d.year + 1, 1, 1⟩

/-- `n` is the number of days from the 1st of January 1970 to the date. -/
inductive DaysSince1970 : Int → Date → Prop where
  | epoch : DaysSince1970 0 ⟨1970, 1, 1⟩
  | later {n : Int} {d : Date} (h : DaysSince1970 n d) : DaysSince1970 (n + 1) d.next
  | earlier {n : Int} {d : Date} (hd : d.Valid) (h : DaysSince1970 (n + 1) d.next) : DaysSince1970 n d

end Verif.Calendar
