import Verif.Arith.Model
/-!
# Checked conversions (C166), powers and logarithms (C167)
-/
namespace Verif.Arith

/-! ## C166 -/

/-- The type can hold the value. -/
def Spec.Holds (t : IntType) (v : Int) : Prop :=
  if t.signed then -(2 ^ (t.bits - 1) : Nat) ≤ v ∧ v < (2 ^ (t.bits - 1) : Nat) else 0 ≤ v ∧ v < (2 ^ t.bits : Nat)

open Spec

theorem double (n : Nat) (h : 0 < n) : 2 ^ n = 2 * 2 ^ (n - 1) := by
  obtain ⟨k, rfl⟩ : ∃ k, n = k + 1 := ⟨n - 1, by omega⟩
  rw [Nat.add_sub_cancel, Nat.pow_succ]
  omega

theorem cast_holds (t : IntType) (hb : 0 < t.bits) (v : Int) : Holds t (cast t v) := by
  have h2 := double t.bits hb
  have hp : 0 < 2 ^ (t.bits - 1) := Nat.two_pow_pos _
  unfold Holds cast
  generalize 2 ^ t.bits = M at *
  generalize 2 ^ (t.bits - 1) = H at *
  have h0 : 0 ≤ v % (M : Int) := Int.emod_nonneg _ (by omega)
  have h1 : v % (M : Int) < M := Int.emod_lt_of_pos _ (by omega)
  cases t.signed with
  | false => simp only [Bool.false_and, Bool.false_eq_true, if_false]; omega
  | true =>
    simp only [Bool.true_and, decide_eq_true_eq, if_true]
    split <;> omega

theorem cast_id (t : IntType) (hb : 0 < t.bits) (v : Int) (h : Holds t v) : cast t v = v := by
  have h2 := double t.bits hb
  unfold Holds at h
  unfold cast
  generalize 2 ^ t.bits = M at *
  generalize 2 ^ (t.bits - 1) = H at *
  cases hs : t.signed with
  | false =>
    simp only [hs, Bool.false_eq_true, if_false] at h
    simp only [Bool.false_and, Bool.false_eq_true, if_false]
    exact Int.emod_eq_of_lt h.1 h.2
  | true =>
    simp only [hs, if_true] at h
    simp only [Bool.true_and, decide_eq_true_eq]
    by_cases hv : 0 ≤ v
    · rw [Int.emod_eq_of_lt hv (by omega), if_neg (by omega)]
    · have e : v % (M : Int) = v + M := by
        rw [← Int.add_emod_right]
        exact Int.emod_eq_of_lt (by omega) (by omega)
      rw [e, if_pos (by omega)]
      omega

theorem pow_mono {a b : Nat} (h : a ≤ b) : 2 ^ a ≤ 2 ^ b := Nat.pow_le_pow_right (by omega) h

/-- A checked conversion between any two integral types gives exactly the values that the other type can hold, unchanged. -/
theorem C166_narrow (t u : IntType) (ht : 0 < t.bits) (hu : 0 < u.bits) (y : Int) (hy : Holds u y) (x : Int) :
    narrow t u y = some x ↔ x = y ∧ Holds t y := by
  unfold narrow
  constructor
  · intro h
    simp only [] at h
    by_cases h1 : cast u (cast t y) ≠ y
    · rw [if_pos h1] at h; cases h
    · rw [if_neg h1] at h
      have h1 : cast u (cast t y) = y := Classical.not_not.1 h1
      by_cases h2 : t.signed ≠ u.signed ∧ (decide (cast t y < 0) ≠ decide (y < 0))
      · rw [if_pos h2] at h; cases h
      · rw [if_neg h2] at h
        injection h with h
        have hc := cast_holds t ht y
        -- it is enough that the value is unchanged
        suffices he : cast t y = y from ⟨by rw [← h, he], he ▸ hc⟩
        -- either the value fits into the other type, or its cast fits back
        have key : Holds t y ∨ Holds u (cast t y) := by
          have dt := double t.bits ht
          have du := double u.bits hu
          unfold Holds at hc hy ⊢
          rcases Nat.le_total t.bits u.bits with hle | hle
          · have m1 := pow_mono hle
            have m2 : 2 ^ (t.bits - 1) ≤ 2 ^ (u.bits - 1) := pow_mono (by omega)
            rcases Nat.lt_or_ge t.bits u.bits with hlt | hge
            · have m3 : 2 ^ t.bits ≤ 2 ^ (u.bits - 1) := pow_mono (by omega)
              generalize 2 ^ t.bits = M at *
              generalize 2 ^ (t.bits - 1) = H at *
              generalize 2 ^ u.bits = N at *
              generalize 2 ^ (u.bits - 1) = K at *
              generalize cast t y = c at *
              cases hts : t.signed <;> cases hus : u.signed <;> simp only [hts, hus, Bool.false_eq_true, if_false, if_true, ne_eq, not_true, false_and, not_false_eq_true, true_and, reduceCtorEq, decide_eq_decide] at hc hy h2 ⊢ <;> omega
            · have e : t.bits = u.bits := by omega
              have e1 : 2 ^ t.bits = 2 ^ u.bits := by rw [e]
              have e2 : 2 ^ (t.bits - 1) = 2 ^ (u.bits - 1) := by rw [e]
              generalize 2 ^ t.bits = M at *
              generalize 2 ^ (t.bits - 1) = H at *
              generalize 2 ^ u.bits = N at *
              generalize 2 ^ (u.bits - 1) = K at *
              generalize cast t y = c at *
              cases hts : t.signed <;> cases hus : u.signed <;> simp only [hts, hus, Bool.false_eq_true, if_false, if_true, ne_eq, not_true, false_and, not_false_eq_true, true_and, reduceCtorEq, decide_eq_decide] at hc hy h2 ⊢ <;> omega
          · have m1 := pow_mono hle
            have m2 : 2 ^ (u.bits - 1) ≤ 2 ^ (t.bits - 1) := pow_mono (by omega)
            rcases Nat.lt_or_ge u.bits t.bits with hlt | hge
            · have m3 : 2 ^ u.bits ≤ 2 ^ (t.bits - 1) := pow_mono (by omega)
              generalize 2 ^ t.bits = M at *
              generalize 2 ^ (t.bits - 1) = H at *
              generalize 2 ^ u.bits = N at *
              generalize 2 ^ (u.bits - 1) = K at *
              generalize cast t y = c at *
              cases hts : t.signed <;> cases hus : u.signed <;> simp only [hts, hus, Bool.false_eq_true, if_false, if_true, ne_eq, not_true, false_and, not_false_eq_true, true_and, reduceCtorEq, decide_eq_decide] at hc hy h2 ⊢ <;> omega
            · have e : t.bits = u.bits := by omega
              have e1 : 2 ^ t.bits = 2 ^ u.bits := by rw [e]
              have e2 : 2 ^ (t.bits - 1) = 2 ^ (u.bits - 1) := by rw [e]
              generalize 2 ^ t.bits = M at *
              generalize 2 ^ (t.bits - 1) = H at *
              generalize 2 ^ u.bits = N at *
              generalize 2 ^ (u.bits - 1) = K at *
              generalize cast t y = c at *
              cases hts : t.signed <;> cases hus : u.signed <;> simp only [hts, hus, Bool.false_eq_true, if_false, if_true, ne_eq, not_true, false_and, not_false_eq_true, true_and, reduceCtorEq, decide_eq_decide] at hc hy h2 ⊢ <;> omega
        rcases key with hk | hk
        · exact cast_id t ht y hk
        · rw [cast_id u hu _ hk] at h1; exact h1
  · rintro ⟨rfl, hx⟩
    simp only [cast_id t ht x hx, cast_id u hu x hy]
    simp

/-- The exporter asks for as many events as are missing, of which there may be more than 2^32: the conversion fails. -/
example : narrow ⟨false, 32⟩ ⟨false, 64⟩ (2 ^ 32 + 5) = none ∧ narrow ⟨false, 32⟩ ⟨false, 64⟩ 5 = some 5 ∧ narrow ⟨false, 32⟩ ⟨true, 32⟩ (-1) = none ∧
    narrow ⟨true, 8⟩ ⟨false, 64⟩ 200 = none := by decide

/-! ## C167 -/

theorem powImpl_eq : ∀ (exp base result : Nat), powImpl exp base result % 2 ^ 64 = base ^ exp * result % 2 ^ 64
  | exp, base, result => by
    rw [powImpl.eq_def]
    by_cases h : exp = 0
    · rw [dif_pos h, h]; simp
    · rw [dif_neg h]
      have hsq : ∀ r, (base * base % 2 ^ 64) ^ (exp / 2) * r % 2 ^ 64 = base ^ (2 * (exp / 2)) * r % 2 ^ 64 := by
        intro r
        rw [Nat.mul_mod, Nat.pow_mod, Nat.mod_mod, ← Nat.pow_mod, ← Nat.mul_mod, Nat.pow_mul, Nat.pow_two]
      split
      · rw [powImpl_eq (exp / 2), hsq]
        have e : base ^ exp = base ^ (2 * (exp / 2)) * base := by
          rw [← Nat.pow_succ]
          congr 1
          omega
        rw [e, Nat.mul_assoc, Nat.mul_mod, Nat.mod_mod, ← Nat.mul_mod]
      · rw [powImpl_eq (exp / 2), hsq]
        congr 3
        omega
termination_by exp => exp
decreasing_by all_goals omega

theorem powImpl_lt : ∀ (exp base result : Nat), result < 2 ^ 64 → powImpl exp base result < 2 ^ 64
  | exp, base, result, hr => by
    rw [powImpl.eq_def]
    by_cases h : exp = 0
    · rw [dif_pos h]; exact hr
    · rw [dif_neg h]
      split
      · exact powImpl_lt (exp / 2) _ _ (Nat.mod_lt _ (by omega))
      · exact powImpl_lt (exp / 2) _ _ hr
termination_by exp => exp
decreasing_by all_goals omega

/-- The power is exact modulo 2^64, so exact whenever it fits. -/
theorem C167_pow (exp base : Nat) : pow exp base = base ^ exp % 2 ^ 64 := by
  rw [pow, ← Nat.mod_eq_of_lt (powImpl_lt exp base 1 (by omega)), powImpl_eq, Nat.mul_one]

theorem log_step (base : Nat) (hb : 1 < base) : ∀ (k i n x : Nat), (i = 2 ^ k ∨ i = 0 ∧ k = 0) → base ^ i < 2 ^ 64 → n < (if i = 0 then base else base ^ (2 * i)) → 0 < n →
    ∃ r, ilogHelper base i n x = x + r ∧ base ^ r ≤ n ∧ n < base ^ (r + 1) := by
  have base1 : ∀ n x, n < base → 0 < n → ∃ r, ilogHelper base 0 n x = x + r ∧ base ^ r ≤ n ∧ n < base ^ (r + 1) := by
    intro n x hn h0
    refine ⟨0, by rw [ilogHelper.eq_def]; simp, by rw [Nat.pow_zero]; exact h0, by simpa using hn⟩
  intro k
  induction k with
  | zero =>
    intro i n x hi hp hn h0
    rcases hi with rfl | ⟨rfl, _⟩
    · simp only [Nat.pow_zero, Nat.mul_one, Nat.one_ne_zero, if_false] at hn hp ⊢
      rw [ilogHelper.eq_def, dif_neg (by omega)]
      have e : pow 1 base = base := by rw [C167_pow, Nat.pow_one, Nat.mod_eq_of_lt (by simpa using hp)]
      rw [e]
      simp only [Nat.reduceDiv]
      by_cases h : base ≤ n
      · rw [if_pos h]
        have h1 : n / base < base := by
          apply Nat.div_lt_of_lt_mul
          rw [← Nat.pow_two]
          exact hn
        obtain ⟨r, hr1, hr2, hr3⟩ := base1 (n / base) (x + 1) h1 (Nat.div_pos h (by omega))
        refine ⟨r + 1, by omega, ?_, ?_⟩
        · rw [Nat.pow_succ]
          exact (Nat.le_div_iff_mul_le (by omega)).1 hr2
        · rw [Nat.pow_succ]
          exact (Nat.div_lt_iff_lt_mul (by omega)).1 hr3
      · rw [if_neg h]
        exact base1 n x (by omega) h0
    · rw [if_pos rfl] at hn
      exact base1 n x hn h0
  | succ k ih =>
    intro i n x hi hp hn h0
    rcases hi with rfl | ⟨rfl, h⟩
    · have hpos : 0 < 2 ^ k := Nat.two_pow_pos k
      have hi : 2 ^ (k + 1) = 2 * 2 ^ k := by rw [Nat.pow_succ]; omega
      have hne : 2 ^ (k + 1) ≠ 0 := by omega
      rw [if_neg hne] at hn
      rw [ilogHelper.eq_def, dif_neg hne]
      have e : pow (2 ^ (k + 1)) base = base ^ 2 ^ (k + 1) := by rw [C167_pow, Nat.mod_eq_of_lt hp]
      have hhalf : 2 ^ (k + 1) / 2 = 2 ^ k := by omega
      rw [e, hhalf]
      have hp' : base ^ 2 ^ k < 2 ^ 64 := Nat.lt_of_le_of_lt (Nat.pow_le_pow_right (by omega) (by omega)) hp
      have hkne : 2 ^ k ≠ 0 := by omega
      by_cases h : base ^ 2 ^ (k + 1) ≤ n
      · rw [if_pos h]
        have hbpos : 0 < base ^ 2 ^ (k + 1) := Nat.pow_pos (by omega)
        have h1 : n / base ^ 2 ^ (k + 1) < base ^ 2 ^ (k + 1) := by
          apply Nat.div_lt_of_lt_mul
          rw [← Nat.pow_add]
          rw [show 2 ^ (k + 1) + 2 ^ (k + 1) = 2 * 2 ^ (k + 1) by omega]
          exact hn
        obtain ⟨r, hr1, hr2, hr3⟩ := ih (2 ^ k) (n / base ^ 2 ^ (k + 1)) (x + 2 ^ (k + 1)) (.inl rfl) hp'
          (by rw [if_neg hkne, ← hi]; exact h1) (Nat.div_pos h hbpos)
        refine ⟨r + 2 ^ (k + 1), by omega, ?_, ?_⟩
        · rw [Nat.pow_add]
          exact (Nat.le_div_iff_mul_le hbpos).1 hr2
        · rw [show r + 2 ^ (k + 1) + 1 = (r + 1) + 2 ^ (k + 1) by omega, Nat.pow_add]
          exact (Nat.div_lt_iff_lt_mul hbpos).1 hr3
      · rw [if_neg h]
        exact ih (2 ^ k) n x (.inl rfl) hp' (by rw [if_neg hkne, ← hi]; omega) h0
    · omega

theorem maxPot (base : Nat) (hb : 1 < base) : ∀ (fuel k b : Nat), b = base ^ 2 ^ k → b < 2 ^ 64 → 6 ≤ fuel + k →
    ∃ e, maxPotExp fuel b (2 ^ k) = 2 ^ e ∧ base ^ 2 ^ e < 2 ^ 64 ∧ 2 ^ 64 ≤ base ^ (2 * 2 ^ e) := by
  intro fuel
  induction fuel with
  | zero =>
    intro k b hbk hlt hk
    -- with six squares already the number is too large
    exfalso
    have h1 : 2 ^ 2 ^ 6 ≤ 2 ^ 2 ^ k := Nat.pow_le_pow_right (by omega) (Nat.pow_le_pow_right (by omega) (by omega))
    have h2 : 2 ^ 2 ^ k ≤ base ^ 2 ^ k := Nat.pow_le_pow_left (by omega) _
    have : (2 : Nat) ^ 2 ^ 6 = 2 ^ 64 := by decide
    omega
  | succ fuel ih =>
    intro k b hbk hlt hk
    have hbpos : 0 < b := by rw [hbk]; exact Nat.pow_pos (by omega)
    have hsq : b * b = base ^ 2 ^ (k + 1) := by rw [hbk, ← Nat.pow_add]; congr 1; rw [Nat.pow_succ]; omega
    rw [maxPotExp]
    by_cases hc : canSquare b = true
    · rw [if_pos hc]
      have : b * b ≤ 2 ^ 64 - 1 := (Nat.le_div_iff_mul_le hbpos).1 (by simpa [canSquare] using hc)
      rw [show 2 ^ k * 2 = 2 ^ (k + 1) by rw [Nat.pow_succ]]
      exact ih (k + 1) (b * b) hsq (by omega) (by omega)
    · rw [if_neg hc]
      refine ⟨k, rfl, by rw [← hbk]; exact hlt, ?_⟩
      have hgt : ¬ b * b ≤ 2 ^ 64 - 1 := fun h => hc (by simpa [canSquare] using (Nat.le_div_iff_mul_le hbpos).2 h)
      rw [show 2 * 2 ^ k = 2 ^ (k + 1) by rw [Nat.pow_succ]; omega, ← hsq]
      omega

/-- The logarithm is the largest exponent whose power does not exceed the number, for any base of at least two and any number; it is -1 for zero. -/
theorem C167_ilog (base x : Nat) (hb : 1 < base) (hb64 : base < 2 ^ 64) (hx : x < 2 ^ 64) :
    (x = 0 → ilog base x = -1) ∧ (0 < x → ∃ r : Nat, ilog base x = r ∧ base ^ r ≤ x ∧ x < base ^ (r + 1)) := by
  refine ⟨fun h => by simp [ilog, h], fun h0 => ?_⟩
  obtain ⟨e, h1, h2, h3⟩ := maxPot base hb 7 0 base (by simp) hb64 (by omega)
  rw [Nat.pow_zero] at h1
  obtain ⟨r, hr1, hr2, hr3⟩ := log_step base hb e (2 ^ e) x 0 (.inl rfl) h2 (by
    have : 2 ^ e ≠ 0 := Nat.ne_of_gt (Nat.two_pow_pos e)
    rw [if_neg this]
    omega) h0
  refine ⟨r, ?_, hr2, hr3⟩
  simp only [ilog, if_pos h0, h1, hr1, Nat.zero_add]

/-- 10^4 ≤ 99999 < 10^5. -/
example : (10 : Nat) ^ 4 ≤ 99999 ∧ 99999 < 10 ^ 5 := by decide

end Verif.Arith
