import Verif.Number.Model
import Verif.Number.Spec
import Verif.Calendar.TextLemmas
import Verif.Calendar.DoubleLemmas
import Verif.DataText.LiteralProps
import Mathlib.Tactic.Linarith
import Mathlib.Tactic.Ring
import Mathlib.Tactic.NormNum
import Mathlib.Tactic.FieldSimp
import Mathlib.Tactic.Positivity
/-! Lemmas for `Verif.Number`. -/
namespace Verif.Number
open Verif.DataText Verif.Data Verif.Calendar Verif.DataText.Spec Verif.Number.Spec

theorem roundUp_bounds {z : Rat} (h : 0 ≤ z) : (roundUp z : Rat) ≤ z + 1 / 2 ∧ z - 1 / 2 < roundUp z := by
  have f1 : ((z + 1 / 2).floor : Rat) ≤ z + 1 / 2 := Rat.floor_le _
  have f2 : z + 1 / 2 < ((z + 1 / 2).floor : Rat) + 1 := by exact_mod_cast Rat.lt_floor_add_one (z + 1 / 2)
  have h0 : (0 : Int) ≤ (z + 1 / 2).floor := by
    have : (0 : Rat) < ((z + 1 / 2).floor : Rat) + 1 := by linarith
    have : (0 : Int) < (z + 1 / 2).floor + 1 := by exact_mod_cast this
    omega
  have e : ((roundUp z : Nat) : Rat) = ((z + 1 / 2).floor : Rat) := by
    unfold roundUp
    rw [← Int.cast_natCast, Int.toNat_of_nonneg h0]
  rw [e]
  constructor <;> linarith

theorem pos_bounds (n : Nat) (h : 0 < n) : 10 ^ ((posDigits n).length - 1) ≤ n ∧ n < 10 ^ (posDigits n).length ∧ 0 < (posDigits n).length := by
  induction n using posDigits.induct with
  | case1 => omega
  | case2 n hn ih =>
    rw [posDigits, if_neg hn]
    simp only [List.length_append, List.length_cons, List.length_nil]
    by_cases h10 : n / 10 = 0
    · rw [h10, posDigits, if_pos rfl]; simp; omega
    · obtain ⟨a, b, c⟩ := ih (by omega)
      generalize (posDigits (n / 10)).length = k at *
      obtain ⟨j, rfl⟩ : ∃ j, k = j + 1 := ⟨k - 1, by omega⟩
      simp only [Nat.add_sub_cancel, Nat.zero_add, Nat.pow_succ] at *
      omega

theorem takeWhile_range (D m : Nat) (p : Nat → Bool) (h : ∀ i < D, p i = decide (i < m)) : ((List.range D).takeWhile p).length = min m D := by
  induction D with
  | zero => simp
  | succ D ih =>
    rw [List.range_succ]
    have ih := ih fun i hi => h i (by omega)
    rcases Nat.lt_or_ge m (D + 1) with hm | hm
    · rcases Nat.lt_or_ge m D with hm' | hm'
      · rw [List.takeWhile_append, if_neg (by simp [ih]; omega), ih]; omega
      · rw [List.takeWhile_append, if_pos (by rw [ih]; simp; omega)]
        have : p D = false := by rw [h D (by omega)]; simp; omega
        simp [this]; omega
    · rw [List.takeWhile_append, if_pos (by rw [ih]; simp; omega)]
      have : p D = true := by rw [h D (by omega)]; simp; omega
      simp [this]; omega

theorem leading_eq (D r : Nat) (h0 : 0 < r) : leading D r = D - (posDigits r).length := by
  obtain ⟨a, b, c⟩ := pos_bounds r h0
  unfold leading
  rw [if_neg (by omega), takeWhile_range D (D - (posDigits r).length)]
  · omega
  intro i hi
  congr 1
  apply propext
  generalize (posDigits r).length = k at *
  constructor
  · intro h
    have h1 : 10 ^ (k - 1 + (i + 1)) < 10 ^ D := Nat.lt_of_le_of_lt (by rw [Nat.pow_add]; exact Nat.mul_le_mul_right _ a) h
    have := (Nat.pow_lt_pow_iff_right (by omega : 1 < 10)).mp h1
    omega
  · intro h
    have h1 : r * 10 ^ (i + 1) < 10 ^ k * 10 ^ (i + 1) := Nat.mul_lt_mul_of_pos_right b (Nat.pow_pos (by omega))
    rw [← Nat.pow_add] at h1
    exact Nat.lt_of_lt_of_le h1 (Nat.pow_le_pow_right (by omega) (by omega))

/-- What chopping leaves: the number without its last `j` digits, which are zeros. -/
theorem chop_spec (n r : Nat) (h0 : 0 < r) (h : r < 10 ^ n) : ∃ j, r = chop n r * 10 ^ j ∧ 0 < chop n r ∧ chop n r % 10 ≠ 0
    ∧ (posDigits r).length = (posDigits (chop n r)).length + j := by
  induction n generalizing r with
  | zero => simp at h; omega
  | succ n ih =>
    unfold chop
    split
    · rename_i hc
      obtain ⟨j, e1, e2, e3, e4⟩ := ih (r / 10) (by omega) (by rw [Nat.pow_succ] at h; omega)
      refine ⟨j + 1, ?_, e2, e3, ?_⟩
      · rw [Nat.pow_succ, ← Nat.mul_assoc, ← e1]; omega
      · rw [posDigits, if_neg (by omega)]
        simp only [List.length_append, List.length_cons, List.length_nil]
        omega
    · rename_i hc
      exact ⟨0, by simp, h0, by omega, by simp⟩

theorem txt_digitText (ds : List Nat) : txt ds = digitText ds := rfl

theorem numeral_zeros (k : Nat) (ds : List Nat) : numeral (List.replicate k 0 ++ ds) = numeral ds := by
  induction k with
  | zero => simp
  | succ k ih => simp [List.replicate_succ, numeral, ih]

theorem numeral_digits (n : Nat) : numeral (digits n) = n := by rw [← value_numeral, value_digits]

theorem noLeading_pos (n : Nat) (h : 0 < n) : (posDigits n).head? ≠ some 0 := by
  induction n using posDigits.induct with
  | case1 => omega
  | case2 n hn ih =>
    rw [posDigits, if_neg hn]
    by_cases h10 : n / 10 = 0
    · rw [h10, posDigits, if_pos rfl]; simp; omega
    · have hne : posDigits (n / 10) ≠ [] := by
        intro h
        have := (pos_bounds (n / 10) (by omega)).2.2
        simp [h] at this
      rw [List.head?_append_of_ne_nil _ hne]
      exact ih (by omega)

theorem noLeading_digits (n : Nat) : NoLeadingZero (digits n) := by
  unfold digits
  split
  · exact .inl rfl
  · exact .inr (noLeading_pos n (by omega))

theorem last_digits (n : Nat) : (digits n).getLast? = some (n % 10) := by
  unfold digits
  split
  · rename_i h; subst h; rfl
  · rename_i h
    rw [posDigits, if_neg h]; simp

/-- The digits of a fraction of `D` digits. -/
theorem fraction_text (D r : Nat) (hD : 0 < D) (hr : r < 10 ^ D) : ∃ fs, List.replicate (leading D r) (ch '0') ++ printNat (chop (D + 1) r) = digitText fs
    ∧ Digits fs ∧ fs.length ≤ D ∧ NoTrailingZero fs ∧ (numeral fs : Rat) / 10 ^ fs.length = (r : Rat) / 10 ^ D := by
  have hz : ∀ n, List.replicate n (ch '0') = txt (List.replicate n 0) := by
    intro n; simp [txt]; right; rfl
  refine ⟨List.replicate (leading D r) 0 ++ digits (chop (D + 1) r), ?_, ⟨?_, ?_⟩, ?_⟩
  · rw [printNat_eq, hz, ← txt_digitText]; simp [txt]
  · simp [digits_ne_nil]
  · intro d hd
    rcases List.mem_append.mp hd with h | h
    · have := (List.mem_replicate.mp h).2; omega
    · exact digits_lt _ d h
  · rcases Nat.eq_zero_or_pos r with rfl | h0
    · have e : chop (D + 1) 0 = 0 := by simp [chop]
      have e2 : leading D 0 = 0 := by simp [leading]
      rw [e, e2]
      refine ⟨?_, .inl rfl, ?_⟩
      · simp [digits]; omega
      · simp [digits, numeral]
    · obtain ⟨j, e1, e2, e3, e4⟩ := chop_spec (D + 1) r h0 (by rw [Nat.pow_succ]; omega)
      have e5 := leading_eq D r h0
      have e6 : (posDigits r).length ≤ D := posDigits_length D r hr
      have e7 : digits (chop (D + 1) r) = posDigits (chop (D + 1) r) := by rw [digits, if_neg (by omega)]
      have hlen : (List.replicate (leading D r) 0 ++ digits (chop (D + 1) r)).length = D - j := by
        simp only [List.length_append, List.length_replicate, e7]; omega
      have hlast := last_digits (chop (D + 1) r)
      refine ⟨by omega, .inr ?_, ?_⟩
      · rw [List.getLast?_append, hlast]; simp; exact e3
      · rw [hlen, numeral_zeros, numeral_digits]
        have hD : (10 : Rat) ^ D = 10 ^ (D - j) * 10 ^ j := by rw [← pow_add]; congr 1; omega
        generalize chop (D + 1) r = c at *
        rw [hD, e1]
        push_cast
        field_simp

theorem floor_nonneg {x : Rat} (h : 0 ≤ x) : ((x.floor.toNat : Nat) : Rat) = (x.floor : Rat) ∧ (x.floor : Rat) ≤ x ∧ x < x.floor + 1 := by
  have f1 : (x.floor : Rat) ≤ x := Rat.floor_le _
  have f2 : x < (x.floor : Rat) + 1 := by exact_mod_cast Rat.lt_floor_add_one x
  have h0 : (0 : Int) ≤ x.floor := by
    have : (0 : Rat) < (x.floor : Rat) + 1 := by linarith
    have : (0 : Int) < x.floor + 1 := by exact_mod_cast this
    omega
  exact ⟨by rw [← Int.cast_natCast, Int.toNat_of_nonneg h0], f1, f2⟩

/-- The fraction is rounded to the nearest, up to an error of the multiplication. -/
theorem right_bounds (D : Nat) (hD : D ≤ 10) {x : Rat} (h : 0 ≤ x) :
    (right D x : Rat) ≤ (x - x.floor) * 10 ^ D + (1 / 2 + 1 / 2 ^ 19) ∧ (x - x.floor) * 10 ^ D - (1 / 2 + 1 / 2 ^ 19) ≤ right D x := by
  obtain ⟨_, f1, f2⟩ := floor_nonneg h
  have hp : (10 : Rat) ^ D ≤ 10 ^ 10 := pow_le_pow_right₀ (by norm_num) hD
  have hp0 : (0 : Rat) < 10 ^ D := by positivity
  have y0 : 0 ≤ (x - x.floor) * 10 ^ D := mul_nonneg (by linarith) hp0.le
  have y1 : (x - x.floor) * 10 ^ D ≤ 10 ^ 10 := by
    calc (x - x.floor) * 10 ^ D ≤ 1 * 10 ^ D := mul_le_mul_of_nonneg_right (by linarith) hp0.le
      _ ≤ 10 ^ 10 := by linarith
  obtain ⟨b1, b2, b3⟩ := rnd_abs (e := 1 / 2 ^ 19) y0 y1 (by norm_num) (by norm_num)
  obtain ⟨r1, r2⟩ := roundUp_bounds b3
  unfold right
  constructor <;> linarith

theorem printAbs_text (D : Nat) (hD : 0 < D) {x : Rat} (h : 0 ≤ x) (hx : x < 2 ^ 64) (hr : right D x < 10 ^ D) : ∃ fs,
    printAbs D x = some (digitText (digits x.floor.toNat) ++ [46] ++ digitText fs)
    ∧ Digits fs ∧ fs.length ≤ D ∧ NoTrailingZero fs ∧ (numeral fs : Rat) / 10 ^ fs.length = (right D x : Rat) / 10 ^ D := by
  obtain ⟨fs, e, r⟩ := fraction_text D (right D x) hD hr
  refine ⟨fs, ?_, r⟩
  unfold printAbs
  rw [if_pos hx, e, printNat_eq]
  simp [txt_digitText, show ch '.' = 46 from rfl]

theorem digits_ok (n : Nat) : Digits (digits n) := ⟨digits_ne_nil n, digits_lt n⟩

theorem carry_text (D : Nat) {x : Rat} (hx : x < 2 ^ 64) (hr : right D x = 10 ^ D) :
    printAbs D x = some (digitText (digits x.floor.toNat) ++ [46] ++ digitText [1]) := by
  have e1 : leading D (10 ^ D) = 0 := by
    unfold leading
    rw [if_neg (by have := Nat.pow_pos (n := D) (show 0 < 10 by omega); omega), takeWhile_range D 0]
    · simp
    intro i _
    have : ¬ (10 ^ D * 10 ^ (i + 1) < 10 ^ D) := by
      have := Nat.pow_pos (n := i + 1) (show 0 < 10 by omega)
      have := Nat.le_mul_of_pos_right (10 ^ D) this
      omega
    simp [this]
  have e2 : ∀ D, chop (D + 1) (10 ^ D) = 1 := by
    intro D
    induction D with
    | zero => rfl
    | succ D ih =>
      rw [chop, if_pos ⟨Nat.pow_pos (by omega), by rw [Nat.pow_succ]; omega⟩, show 10 ^ (D + 1) / 10 = 10 ^ D by rw [Nat.pow_succ]; omega]
      exact ih
  unfold printAbs
  rw [if_pos hx, hr, e1, e2, printNat_eq]
  have : printNat 1 = digitText [1] := printNat_one 1 (by omega) (by omega)
  rw [this]
  simp [txt_digitText, show ch '.' = 46 from rfl]

end Verif.Number
