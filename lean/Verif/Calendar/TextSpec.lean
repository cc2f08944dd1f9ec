import Verif.Calendar.Spec
import Verif.DataText.Model
/-!
# ISO 8601 texts
-/
namespace Verif.Calendar
open Verif.DataText Verif.Data

/-- The last `k` decimal digits of a number, as text. -/
def field : Nat → Nat → Str
  | 0, _ => []
  | k + 1, x => field k (x / 10) ++ [(48 + x % 10).toUInt8]

/-- `YYYY-MM-DD`. -/
def dateText (y m d : Nat) : Str := field 4 y ++ [ch '-'] ++ field 2 m ++ [ch '-'] ++ field 2 d

/-- `hh:mm:ss`. -/
def clockText (h m s : Nat) : Str := field 2 h ++ [ch ':'] ++ field 2 m ++ [ch ':'] ++ field 2 s

/-- `+hh:mm` or `-hh:mm`. -/
def zoneText (neg : Bool) (h m : Nat) : Str := [if neg then ch '-' else ch '+'] ++ field 2 h ++ [ch ':'] ++ field 2 m

/-- A fraction of a second, given in nanoseconds: nothing, or the shortest of three, six or nine digits that is exact. -/
inductive Fraction : Nat → Str → Prop where
  | none : Fraction 0 []
  | milli {f : Nat} (h : 0 < f) (h' : f < 10 ^ 3) : Fraction (f * 10 ^ 6) (ch '.' :: field 3 f)
  | micro {f : Nat} (h : ¬ 1000 ∣ f) (h' : f < 10 ^ 6) : Fraction (f * 10 ^ 3) (ch '.' :: field 6 f)
  | nano {f : Nat} (h : ¬ 1000 ∣ f) (h' : f < 10 ^ 9) : Fraction f (ch '.' :: field 9 f)

end Verif.Calendar
