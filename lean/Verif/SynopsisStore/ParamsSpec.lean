import Verif.SynopsisStore.Spec
import Verif.TestGen.Spec
/-! # What attributes say about the synopses of a column -/
namespace Verif.SynopsisStore.Spec
open Verif.Data Verif.DataText Verif.Calendar

/-- The number with these decimal digits. -/
def decimal : List Nat → Nat
  | [] => 0
  | d :: ds => d * 10 ^ ds.length + decimal ds

/-- `bloomfilter(n,p)`, where `n` has up to 20 digits and counts modulo 2^64, and `p` is everything that is read as a number. -/
def Says (s : Str) (n : Nat) (p : Rat) : Prop :=
  ∃ (ds : List Nat) (t : Str) (l : Lit), s = str "bloomfilter(" ++ ds.map (fun d => UInt8.ofNat (48 + d)) ++ str "," ++ t ++ str ")" ∧
    ds ≠ [] ∧ ds.length ≤ 20 ∧ (∀ d ∈ ds, d < 10) ∧ n = decimal ds % 2 ^ 64 ∧ TestGen.Spec.Written t l ∧ p = litVal l

/-- The first attribute `synopsis` with a value. -/
def FirstSynopsis (attrs : List (Str × Option Str)) (s : Str) : Prop :=
  ∃ before after, attrs = before ++ (str "synopsis", some s) :: after ∧ ∀ v, (str "synopsis", some v) ∉ before

end Verif.SynopsisStore.Spec
