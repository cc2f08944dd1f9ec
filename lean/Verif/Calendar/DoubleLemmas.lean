import Verif.Calendar.Double
import Mathlib.Data.Rat.Floor
import Mathlib.Tactic.Linarith
import Mathlib.Tactic.Ring
import Mathlib.Tactic.NormNum
/-!
# Lemmas about rounding
-/
namespace Verif.Calendar

theorem nearest_bounds (n d : Nat) (hd : 0 < d) : 2 * (nearest n d * d) ≤ 2 * n + d ∧ 2 * n ≤ 2 * (nearest n d * d) + d := by
  have h := Nat.div_add_mod n d
  have hr := Nat.mod_lt n hd
  unfold nearest
  simp only
  generalize n / d = q at *
  generalize n % d = r at *
  rw [Nat.mul_comm] at h
  split
  · omega
  · rw [Nat.add_mul]; omega

theorem nearest_exact (q d : Nat) (hd : 0 < d) : nearest (q * d) d = q := by
  unfold nearest
  simp only [Nat.mul_div_cancel _ hd, Nat.mul_mod_left]
  rw [if_pos (.inl (by omega))]

theorem places_ge (n d : Nat) (hn : 0 < n) (hd : 0 < d) (h : n < 2 ^ 53 * d) : 2 ^ 52 * d ≤ n * 2 ^ places n d := by
  have a1 := Nat.log2_self_le (Nat.ne_of_gt hn)
  have a2 : d < 2 ^ (d.log2 + 1) := Nat.lt_log2_self
  unfold places
  simp only
  generalize n.log2 = a at *
  generalize d.log2 = b at *
  have hb : d ≤ 2 ^ b * 2 := by rw [← Nat.pow_succ]; exact Nat.le_of_lt a2
  by_cases hab : a ≤ 53 + b
  · have hp : 2 ^ a * 2 ^ (53 + b - a) = 2 ^ 53 * 2 ^ b := by rw [← Nat.pow_add, ← Nat.pow_add]; congr 1; omega
    have hk : 2 ^ 53 * 2 ^ b ≤ n * 2 ^ (53 + b - a) := hp ▸ Nat.mul_le_mul_right _ a1
    split
    · omega
    · rename_i h2
      by_cases h0 : 53 + b - a = 0
      · rw [h0] at h2
        omega
      · have : 2 ^ (53 + b - a) = 2 ^ (53 + b - a - 1) * 2 := by rw [← Nat.pow_succ]; congr 1; omega
        rw [this, ← Nat.mul_assoc] at h2
        omega
  · exfalso
    have hk : 2 ^ (54 + b) ≤ 2 ^ a := Nat.pow_le_pow_right (by omega) (by omega)
    rw [Nat.pow_add] at hk
    omega

theorem rndPos_bounds {x : Rat} (h0 : 0 ≤ x) (h1 : x < 2 ^ 53) :
    x - x / 2 ^ 53 ≤ rndPos x ∧ rndPos x ≤ x + x / 2 ^ 53 := by
  unfold rndPos
  split
  · rename_i h
    have : x = 0 := Rat.num_eq_zero.mp h
    subst this
    norm_num
  · rename_i hne
    have hnum : 0 < x.num := by
      have := Rat.num_nonneg.mpr h0
      omega
    obtain ⟨n, hn⟩ : ∃ n : Nat, x.num = n := ⟨x.num.toNat, by omega⟩
    simp only [hn, Int.toNat_natCast]
    have hd : 0 < x.den := x.den_pos
    have hxd : x * x.den = n := by
      have := Rat.mul_den_eq_num x
      rw [this, hn]; norm_cast
    generalize hden : x.den = d at *
    have hlt : n < 2 ^ 53 * d := by
      have hdq : (0 : Rat) < d := by exact_mod_cast hd
      have : (n : Rat) < 2 ^ 53 * d := by rw [← hxd]; exact mul_lt_mul_of_pos_right h1 hdq
      exact_mod_cast this
    rw [rndFrac, if_pos hlt]
    have hp := places_ge n d (by omega) hd hlt
    obtain ⟨b1, b2⟩ := nearest_bounds (n * 2 ^ places n d) d hd
    generalize places n d = k at *
    generalize nearest (n * 2 ^ k) d = q at *
    have hK : (0 : Rat) < (2 ^ k : Nat) := by exact_mod_cast Nat.two_pow_pos k
    generalize 2 ^ k = K at *
    have hdq : (0 : Rat) < d := by exact_mod_cast hd
    have c1 : 2 * ((q : Rat) * d) ≤ 2 * ((n : Rat) * K) + d := by exact_mod_cast b1
    have c2 : 2 * ((n : Rat) * K) ≤ 2 * ((q : Rat) * d) + d := by exact_mod_cast b2
    have c3 : 2 ^ 52 * (d : Rat) ≤ (n : Rat) * K := by exact_mod_cast hp
    rw [← hxd] at c1 c2 c3
    have d1 : 2 * (q : Rat) ≤ 2 * (x * K) + 1 := by
      apply le_of_mul_le_mul_right _ hdq
      linarith
    have d2 : 2 * (x * K) ≤ 2 * (q : Rat) + 1 := by
      apply le_of_mul_le_mul_right _ hdq
      linarith
    have d3 : 2 ^ 52 ≤ x * K := by
      apply le_of_mul_le_mul_right _ hdq
      linarith
    constructor
    · rw [le_div_iff₀ hK]
      have : (x - x / 2 ^ 53) * K = x * K - (x * K) / 2 ^ 53 := by ring
      rw [this]
      linarith
    · rw [div_le_iff₀ hK]
      have : (x + x / 2 ^ 53) * K = x * K + (x * K) / 2 ^ 53 := by ring
      rw [this]
      linarith

theorem rnd_bounds {x : Rat} (h0 : 0 ≤ x) (h1 : x < 2 ^ 53) : x - x / 2 ^ 53 ≤ rnd x ∧ rnd x ≤ x + x / 2 ^ 53 := by
  unfold rnd
  rw [if_neg (not_lt.mpr h0)]
  exact rndPos_bounds h0 h1

theorem lost_le (n b : Nat) (h53 : 2 ^ 53 ≤ n) (h : n < 2 ^ (53 + b)) : lost n 1 ≤ b := by
  have a1 := Nat.log2_self_le (n := n) (by omega)
  have a2 : n < 2 ^ (n.log2 + 1) := Nat.lt_log2_self
  have ha : n.log2 < 53 + b := (Nat.pow_lt_pow_iff_right (by omega : 1 < 2)).mp (Nat.lt_of_le_of_lt a1 h)
  have hl : Nat.log2 1 = 0 := by decide
  unfold lost
  simp only [hl, Nat.one_mul]
  split
  · omega
  · rename_i hge
    by_cases hz : 53 ≤ n.log2
    · have : 2 ^ 53 * 2 ^ (n.log2 - 0 - 53) = 2 ^ n.log2 := by rw [← Nat.pow_add]; congr 1; omega
      omega
    · exfalso
      have : 2 ^ (n.log2 + 1) ≤ 2 ^ 53 := Nat.pow_le_pow_right (by omega) (by omega)
      omega

/-- Integers with at most 53 significant bits are `double`s. -/
theorem rnd_nat (m b : Nat) (hm : m < 2 ^ 53) : rnd (m * 2 ^ b : Nat) = (m * 2 ^ b : Nat) := by
  generalize hn : m * 2 ^ b = n
  have h0 : ¬ ((n : Rat) < 0) := not_lt.mpr (by exact_mod_cast Nat.zero_le n)
  unfold rnd
  rw [if_neg h0]
  unfold rndPos
  split
  · rename_i h
    have : n = 0 := by simpa using h
    subst this; rfl
  · rw [Rat.num_natCast, Rat.den_natCast, Int.toNat_natCast, rndFrac]
    by_cases hge : n < 2 ^ 53 * 1
    · rw [if_pos hge]
      have := nearest_exact (n * 2 ^ places n 1) 1 (by omega)
      rw [Nat.mul_one] at this
      rw [this, Nat.cast_mul]
      have hK : (0 : Rat) < (2 ^ places n 1 : Nat) := by exact_mod_cast Nat.two_pow_pos _
      field_simp
    · rw [if_neg hge]
      have hlt : n < 2 ^ (53 + b) := by
        rw [← hn, Nat.pow_add]
        exact Nat.mul_lt_mul_of_pos_right hm (Nat.two_pow_pos b)
      have hl := lost_le n b (by omega) hlt
      rw [Nat.one_mul]
      generalize lost n 1 = j at *
      have hs : n = m * 2 ^ (b - j) * 2 ^ j := by
        rw [Nat.mul_assoc, ← Nat.pow_add, ← hn]
        congr 2
        omega
      have := nearest_exact (m * 2 ^ (b - j)) (2 ^ j) (Nat.two_pow_pos j)
      rw [← hs] at this
      rw [this, ← hs]

theorem rnd_small (n : Nat) (h : n < 2 ^ 53) : rnd n = n := by
  have := rnd_nat n 0 h
  simpa using this

theorem rnd_nonneg {x : Rat} (h0 : 0 ≤ x) (h1 : x < 2 ^ 53) : 0 ≤ rnd x := by
  have := (rnd_bounds h0 h1).1
  have h2 : x / 2 ^ 53 ≤ x := div_le_self h0 (by norm_num)
  linarith

theorem rnd_abs {x B e : Rat} (h0 : 0 ≤ x) (h1 : x ≤ B) (h2 : B < 2 ^ 53) (he : B / 2 ^ 53 ≤ e) :
    x - e ≤ rnd x ∧ rnd x ≤ x + e ∧ 0 ≤ rnd x := by
  have hb := rnd_bounds h0 (lt_of_le_of_lt h1 h2)
  have h3 : x / 2 ^ 53 ≤ B / 2 ^ 53 := div_le_div_of_nonneg_right h1 (by norm_num)
  exact ⟨by linarith, by linarith, rnd_nonneg h0 (lt_of_le_of_lt h1 h2)⟩

/-- The computation of `ymdhms_parser` on a time of day in nanoseconds. -/
theorem seconds_bounds (M s f p : Nat) (hp : 0 < p) (hf : f < p) (hs : s < 60) (hM : M < 1440) :
    (60 * M + s + f / p : Rat) * 10 ^ 9 - 1 / 2 < rnd (rnd (60 * M + rnd (s + rnd (f / p))) * 10 ^ 9)
    ∧ rnd (rnd (60 * M + rnd (s + rnd (f / p))) * 10 ^ 9) < (60 * M + s + f / p : Rat) * 10 ^ 9 + 1 / 2
    ∧ 0 ≤ rnd (rnd (60 * M + rnd (s + rnd (f / p))) * 10 ^ 9) := by
  have hpq : (0 : Rat) < p := by exact_mod_cast hp
  have hfq : (f : Rat) / p < 1 := by rw [div_lt_one hpq]; exact_mod_cast hf
  have hf0 : (0 : Rat) ≤ f / p := div_nonneg (by exact_mod_cast Nat.zero_le f) hpq.le
  have hsq : (s : Rat) ≤ 59 := by exact_mod_cast (show s ≤ 59 by omega)
  have hs0 : (0 : Rat) ≤ s := by exact_mod_cast Nat.zero_le s
  have hMq : (M : Rat) ≤ 1439 := by exact_mod_cast (show M ≤ 1439 by omega)
  have hM0 : (0 : Rat) ≤ M := by exact_mod_cast Nat.zero_le M
  generalize (f : Rat) / p = g at *
  obtain ⟨u1, u2, u3⟩ := rnd_abs hf0 hfq.le (by norm_num) (e := 1 / 10 ^ 15) (by norm_num)
  generalize rnd g = u at *
  obtain ⟨v1, v2, v3⟩ := rnd_abs (x := s + u) (B := 61) (by linarith) (by linarith) (by norm_num) (e := 1 / 10 ^ 13) (by norm_num)
  generalize rnd (s + u) = v at *
  obtain ⟨w1, w2, w3⟩ := rnd_abs (x := 60 * M + v) (B := 86402) (by linarith) (by linarith) (by norm_num) (e := 1 / 10 ^ 10) (by norm_num)
  generalize rnd (60 * M + v) = w at *
  obtain ⟨r1, r2, r3⟩ := rnd_abs (x := w * 10 ^ 9) (B := 86403 * 10 ^ 9) (by linarith) (by linarith) (by norm_num) (e := 1 / 10 ^ 2) (by norm_num)
  generalize rnd (w * 10 ^ 9) = r at *
  clear hpq hp hf hs hM
  refine ⟨by linarith, by linarith, r3⟩

theorem trunc_near {y : Rat} {N : Nat} (h0 : 0 ≤ y) (h1 : (N : Rat) - 1 / 2 < y) (h2 : y < N + 1 / 2) :
    trunc y = N ∨ trunc y = N - 1 := by
  unfold trunc
  rw [if_neg (not_lt.mpr h0)]
  have f1 : (y.floor : Rat) ≤ y := Rat.floor_le y
  have f2 : y < (y.floor : Rat) + 1 := by exact_mod_cast Rat.lt_floor_add_one y
  have g1 : y.floor < (N : Int) + 1 := by
    have : (y.floor : Rat) < (N : Rat) + 1 := by linarith
    exact_mod_cast this
  have g2 : (N : Int) - 2 < y.floor := by
    have : (N : Rat) - 2 < (y.floor : Rat) := by linarith
    exact_mod_cast this
  omega

end Verif.Calendar
