import Verif.Calendar.Model
import Verif.Calendar.Double
import Verif.DataText.Model
/-!
# The text of points in time

A point in time is a number of nanoseconds since the epoch, an `int64_t` (`libvast/vast/time.hpp:29-36`).  This module
fills in what `Verif.DataText` leaves open about times: how one is printed
(`libvast/vast/concept/printable/std/chrono.hpp:136-180`) and which point in time the fields of a text denote
(`libvast/vast/concept/parseable/vast/time.hpp:195-214`), including the arithmetic on `double`.
-/
namespace Verif.Calendar
open Verif.DataText Verif.Data

/-- Nanoseconds per day. -/
def nsPerDay : Int := 86400 * 10 ^ 9

/-- `printers::integral<T, policy::plain, w>` (printable/numeric/integral.hpp:41-63) on a number that is not negative: at
least `w` digits.  `pad` takes the number of digits from `std::log10`; the model takes that to be exact. -/
def padNat (w x : Nat) : Str := List.replicate (w - (printNat x).length) (ch '0') ++ printNat x

/-- The part after the seconds (chrono.hpp:162-175). -/
def printSub (sub : Nat) : Str :=
  if sub = 0 then []
  else if sub % 1000000 = 0 then ch '.' :: padNat 3 (sub / 1000000)
  else if sub % 1000 = 0 then ch '.' :: padNat 6 (sub / 1000)
  else ch '.' :: padNat 9 sub

/-- `time_point_printer::print` (chrono.hpp:141-176). -/
def printTime (t : Int) : Str :=
  let sd := t / nsPerDay
  let r := (t - sd * nsPerDay).toNat
  let date := fromDays sd
  let h := r / (3600 * 10 ^ 9)
  let m := (r - h * (3600 * 10 ^ 9)) / (60 * 10 ^ 9)
  let s := (r - h * (3600 * 10 ^ 9) - m * (60 * 10 ^ 9)) / 10 ^ 9
  let sub := r - h * (3600 * 10 ^ 9) - m * (60 * 10 ^ 9) - s * 10 ^ 9
  printNat date.year.toNat ++ (ch '-' :: padNat 2 date.month) ++ (ch '-' :: padNat 2 date.day)
    ++ (ch 'T' :: padNat 2 h) ++ (ch ':' :: padNat 2 m) ++ (ch ':' :: padNat 2 s) ++ printSub sub

/-- `integral_parser<uint64_t>::parse_pos` with a `double` as accumulator (parseable/numeric/integral.hpp:55-83). -/
def dbl (ds : List Nat) : Rat := ds.foldl (fun (a : Rat) (d : Nat) => rnd (rnd (a * 10) + d)) 0

/-- The value of `real_parser` (parseable/numeric/real.hpp:86-107).  Powers of ten up to 10^20 are `double`s. -/
def litVal (l : Lit) : Rat :=
  let x := rnd (dbl l.int + rnd (dbl l.frac / 10 ^ l.frac.length))
  if l.neg then -x else x

/-- The guard on seconds (parseable/vast/time.hpp:162-163). -/
def secOk (l : Lit) : Bool := decide (0 ≤ litVal l) && decide (litVal l ≤ 60)

/-- From fields to a point in time (parseable/vast/time.hpp:195-199); the zone's offset is in minutes.  Minutes become
seconds as a `double`, without rounding as they are few. -/
def civil (env : Env) (y mo d h mi : Int) (sec : Option Lit) (off : Int) : Int :=
  let delta := rnd ((60 * (h * 60 + mi - off) : Int) + (sec.map litVal).getD 0)
  env.int64 (env.int64 (toDays y.toNat mo.toNat d.toNat * nsPerDay) + trunc (rnd (delta * 10 ^ 9)))

/-- `parsers::unix_ts` (parseable/vast/time.hpp:210-214). -/
def unix (env : Env) (l : Lit) : Int := env.int64 (trunc (rnd (litVal l * 10 ^ 9)))

/-- The textual form of data with what this module says about times. -/
def withTimes (env : Env) : Env := { env with secOk := secOk, civil := civil env, unix := unix env, printTime := printTime }

end Verif.Calendar
