import Verif.Number.DurationLemmas
import Verif.Json.NumLemmas
/-!
The error of rounding, without a bound on the number.
-/
namespace Verif.Zeek
open Verif.Calendar

theorem lost_ge (n d : Nat) (hd : 0 < d) (h : 2 ^ 53 * d ≤ n) : 2 ^ 52 * (d * 2 ^ lost n d) ≤ n := by
  have hn : n ≠ 0 := by omega
  have a1 := Nat.log2_self_le hn
  have a2 : d < 2 ^ (d.log2 + 1) := Nat.lt_log2_self
  unfold lost
  simp only
  generalize n.log2 = a at *
  generalize d.log2 = b at *
  split
  · by_cases hab : b + 53 ≤ a
    · have : d * 2 ^ (a - b - 53) ≤ 2 ^ (b + 1) * 2 ^ (a - b - 53) := Nat.mul_le_mul_right _ (by omega)
      have e : 2 ^ 52 * (2 ^ (b + 1) * 2 ^ (a - b - 53)) = 2 ^ a := by
        rw [← Nat.pow_add, ← Nat.pow_add]; congr 1; omega
      omega
    · have : a - b - 53 = 0 := by omega
      rw [this]; omega
  · rename_i h2
    rw [show 2 ^ (a - b - 53 + 1) = 2 ^ (a - b - 53) * 2 from Nat.pow_succ _ _]
    have : 2 ^ 52 * (d * (2 ^ (a - b - 53) * 2)) = 2 ^ 53 * (d * 2 ^ (a - b - 53)) := by ring
    omega

theorem rndPos_all {x : Rat} (h0 : 0 ≤ x) : x - x / 2 ^ 53 ≤ rndPos x ∧ rndPos x ≤ x + x / 2 ^ 53 := by
  by_cases h1 : x < 2 ^ 53
  · exact rndPos_bounds h0 h1
  · have h1 := not_lt.mp h1
    have hpos : (0 : Rat) < x := lt_of_lt_of_le (by norm_num) h1
    unfold rndPos
    have hnum : 0 < x.num := Rat.num_pos.mpr hpos
    rw [if_neg (by omega)]
    obtain ⟨n, hn⟩ : ∃ n : Nat, x.num = n := ⟨x.num.toNat, by omega⟩
    simp only [hn, Int.toNat_natCast]
    have hd : 0 < x.den := x.den_pos
    have hxd : x * x.den = n := by
      have := Rat.mul_den_eq_num x
      rw [this, hn]; norm_cast
    generalize hden : x.den = d at *
    have hdq : (0 : Rat) < d := by exact_mod_cast hd
    have hge : 2 ^ 53 * d ≤ n := by
      have : (2 ^ 53 : Rat) * d ≤ n := by rw [← hxd]; exact mul_le_mul_of_nonneg_right h1 hdq.le
      exact_mod_cast this
    rw [rndFrac, if_neg (by omega)]
    have hp := lost_ge n d hd hge
    generalize lost n d = k at *
    have hk : 0 < 2 ^ k := Nat.two_pow_pos k
    obtain ⟨b1, b2⟩ := nearest_bounds n (d * 2 ^ k) (Nat.mul_pos hd hk)
    generalize nearest n (d * 2 ^ k) = q at *
    generalize 2 ^ k = K at *
    have c1 : 2 * ((q : Rat) * (d * K)) ≤ 2 * (n : Rat) + d * K := by exact_mod_cast b1
    have c2 : 2 * (n : Rat) ≤ 2 * ((q : Rat) * (d * K)) + d * K := by exact_mod_cast b2
    have c3 : 2 ^ 52 * ((d : Rat) * K) ≤ (n : Rat) := by exact_mod_cast hp
    rw [← hxd] at c1 c2 c3
    have d1 : 2 * ((q : Rat) * K) ≤ 2 * x + K := by
      apply le_of_mul_le_mul_right _ hdq
      linarith
    have d2 : 2 * x ≤ 2 * ((q : Rat) * K) + K := by
      apply le_of_mul_le_mul_right _ hdq
      linarith
    have d3 : 2 ^ 52 * (K : Rat) ≤ x := by
      apply le_of_mul_le_mul_right _ hdq
      linarith
    push_cast
    constructor
    · have : (K : Rat) / 2 ≤ x / 2 ^ 53 := by rw [div_le_div_iff₀ (by norm_num) (by norm_num)]; linarith
      linarith
    · have : (K : Rat) / 2 ≤ x / 2 ^ 53 := by rw [div_le_div_iff₀ (by norm_num) (by norm_num)]; linarith
      linarith

/-- Rounding changes a number by a factor of at most 1 ± 2^-53. -/
theorem rnd_all (x : Rat) : |rnd x - x| ≤ |x| / 2 ^ 53 := by
  by_cases h : x < 0
  · have h0 : (0 : Rat) ≤ -x := by linarith
    obtain ⟨a, b⟩ := rndPos_all h0
    rw [abs_of_neg h, abs_le]
    unfold rnd
    rw [if_pos h]
    constructor <;> linarith
  · obtain ⟨a, b⟩ := rndPos_all (not_lt.mp h)
    rw [abs_of_nonneg (not_lt.mp h), abs_le]
    unfold rnd
    rw [if_neg h]
    constructor <;> linarith

/-- The same with a bound on the number. -/
theorem rnd_le {x B e : Rat} (h : |x| ≤ B) (he : B / 2 ^ 53 ≤ e) : |rnd x - x| ≤ e :=
  le_trans (rnd_all x) (le_trans (div_le_div_of_nonneg_right h (by norm_num)) he)

/-- The conversion to an integer changes a number by less than one. -/
theorem trunc_abs (y : Rat) : |(trunc y : Rat) - y| < 1 := by
  have key : ∀ z : Rat, |(z.floor : Rat) - z| < 1 := by
    intro z
    have f1 : (z.floor : Rat) ≤ z := Rat.floor_le z
    have f2 : z < (z.floor : Rat) + 1 := by exact_mod_cast Rat.lt_floor_add_one z
    rw [abs_lt]
    constructor <;> linarith
  unfold trunc
  split
  · have := key (-y)
    push_cast
    rw [show -((-y).floor : Rat) - y = -(((-y).floor : Rat) - -y) by ring, abs_neg]
    exact this
  · exact key y

end Verif.Zeek
