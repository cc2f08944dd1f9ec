import Verif.Number.Reading
/-!
C85: the text of floating-point numbers.  C86: the text of durations.
-/
namespace Verif.Number
open Verif.DataText Verif.Data Verif.Calendar Verif.DataText.Spec Verif.Number.Spec

/-! ### C85 -/

/-- The text of a number with at most `D` decimals: if the fraction is not so close to 1 that it rounds up, the text is a
decimal numeral without superfluous zeros that denotes the number up to half a unit of the last decimal.  (The small excess
over one half is the rounding error of a multiplication.) -/
theorem C85_text_partial (D : Nat) (hD : 0 < D ∧ D ≤ 10) (x : Rat) (hx : |x| < 2 ^ 64) (hc : |x| - ⌊|x|⌋ ≤ 1 - 1 / 10 ^ D) :
    ∃ ds fs, printReal D (.fin x) = some (decimalText (decide (x < 0)) ds fs)
      ∧ Digits ds ∧ Digits fs ∧ NoLeadingZero ds ∧ NoTrailingZero fs ∧ fs.length ≤ D ∧ numeral ds = ⌊|x|⌋
      ∧ |decimalValue (decide (x < 0)) ds fs - x| * 10 ^ D ≤ 1 / 2 + 1 / 2 ^ 19 := by
  have key : ∀ y : Rat, 0 ≤ y → y < 2 ^ 64 → y - ⌊y⌋ ≤ 1 - 1 / 10 ^ D → ∃ ds fs, printAbs D y = some (digitText ds ++ [46] ++ digitText fs)
      ∧ Digits ds ∧ Digits fs ∧ NoLeadingZero ds ∧ NoTrailingZero fs ∧ fs.length ≤ D ∧ numeral ds = ⌊y⌋
      ∧ |(numeral ds : Rat) + (numeral fs : Rat) / 10 ^ fs.length - y| * 10 ^ D ≤ 1 / 2 + 1 / 2 ^ 19 := by
    intro y h0 h1 h2
    have hp : (0 : Rat) < 10 ^ D := by positivity
    have hfl : (⌊y⌋ : Int) = y.floor := rfl
    obtain ⟨f0, f1, f2⟩ := floor_nonneg h0
    obtain ⟨b1, b2⟩ := right_bounds D hD.2 h0
    have hfrac : (y - y.floor) * 10 ^ D ≤ 10 ^ D - 1 := by
      have := mul_le_mul_of_nonneg_right h2 hp.le
      rw [hfl] at this
      have e : (1 - 1 / (10 : Rat) ^ D) * 10 ^ D = 10 ^ D - 1 := by field_simp
      linarith
    have hr : right D y < 10 ^ D := by
      have : (right D y : Rat) < (10 : Rat) ^ D := by
        have : (1 : Rat) / 2 + 1 / 2 ^ 19 < 1 := by norm_num
        linarith
      exact_mod_cast this
    obtain ⟨fs, e1, e2, e3, e4, e5⟩ := printAbs_text D hD.1 h0 h1 hr
    refine ⟨digits y.floor.toNat, fs, e1, digits_ok _, e2, noLeading_digits _, e4, e3, ?_, ?_⟩
    · rw [numeral_digits, hfl]
      have : ((y.floor.toNat : Int) : Rat) = (y.floor : Rat) := by exact_mod_cast f0
      exact_mod_cast this
    · rw [e5, numeral_digits, f0]
      have e : |(y.floor : Rat) + (right D y : Rat) / 10 ^ D - y| * 10 ^ D = |(right D y : Rat) - (y - y.floor) * 10 ^ D| := by
        rw [← abs_of_pos hp, ← abs_mul, abs_of_pos hp]
        congr 1
        field_simp
        ring
      rw [e, abs_le]
      constructor <;> linarith
  by_cases hn : x < 0
  · rw [abs_of_neg hn] at hx hc ⊢
    obtain ⟨ds, fs, e1, e2, e3, e4, e5, e6, e7, e8⟩ := key (-x) (by linarith) hx hc
    refine ⟨ds, fs, ?_, e2, e3, e4, e5, e6, e7, ?_⟩
    · simp [printReal, hn, e1, decimalText, show ch '-' = 45 from rfl]
    · have e : decimalValue (decide (x < 0)) ds fs - x = -((numeral ds : Rat) + (numeral fs : Rat) / 10 ^ fs.length - -x) := by
        simp only [decimalValue, hn, decide_true, if_true]; ring
      rw [e, abs_neg]
      exact e8
  · rw [abs_of_nonneg (not_lt.mp hn)] at hx hc ⊢
    obtain ⟨ds, fs, e1, e2, e3, e4, e5, e6, e7, e8⟩ := key x (not_lt.mp hn) hx hc
    refine ⟨ds, fs, ?_, e2, e3, e4, e5, e6, e7, ?_⟩
    · simp [printReal, hn, e1, decimalText]
    · have e : decimalValue (decide (x < 0)) ds fs - x = (numeral ds : Rat) + (numeral fs : Rat) / 10 ^ fs.length - x := by
        simp [decimalValue, hn]
      rw [e]
      exact e8

example : |(-5 / 2 : Rat)| < 2 ^ 64 ∧ |(-5 / 2 : Rat)| - ⌊|(-5 / 2 : Rat)|⌋ ≤ 1 - 1 / 10 ^ 2 := by
  have : |(-5 / 2 : Rat)| = 5 / 2 := by rw [abs_of_neg (by norm_num)]; norm_num
  rw [this, show ⌊(5 / 2 : Rat)⌋ = 2 by rw [Int.floor_eq_iff]; norm_num]
  norm_num

theorem right_whole (D n : Nat) : right D n = 0 := by
  have e : ((n : Rat) - ((n : Rat).floor : Rat)) * 10 ^ D = 0 := by
    have : (n : Rat).floor = (n : Int) := Rat.floor_intCast n
    rw [this]; simp
  unfold right
  rw [e]
  decide +kernel

theorem printAbs_whole (D n : Nat) (hD : 0 < D) (h : n < 2 ^ 64) : printAbs D n = some (digitText (digits n) ++ [46] ++ digitText [0]) := by
  have hf : (n : Rat).floor.toNat = n := by
    have : (n : Rat).floor = (n : Int) := Rat.floor_intCast n
    rw [this]; rfl
  have hx : (n : Rat) < 2 ^ 64 := by exact_mod_cast h
  have e1 : leading D 0 = 0 := by simp [leading]
  have e2 : chop (D + 1) 0 = 0 := by simp [chop]
  unfold printAbs
  rw [if_pos hx, right_whole, hf, e1, e2, printNat_eq]
  simp [txt_digitText, show ch '.' = 46 from rfl, show printNat 0 = digitText [0] from rfl]

theorem printReal_whole (D : Nat) (hD : 0 < D) (neg : Bool) (n : Nat) (h : n < 2 ^ 64) (hz : neg = true → n ≠ 0) :
    printReal D (.fin ((if neg then -1 else 1) * (n : Rat))) = some (decimalText neg (digits n) [0]) := by
  cases neg
  · have : ¬ ((n : Rat) < 0) := not_lt.mpr (by exact_mod_cast Nat.zero_le n)
    simp [printReal, this, printAbs_whole D n hD h, decimalText]
  · have hn : 0 < n := by have := hz rfl; omega
    have : -(n : Rat) < 0 := by
      have : (0 : Rat) < n := by exact_mod_cast hn
      linarith
    simp [printReal, this, printAbs_whole D n hD h, decimalText, show ch '-' = 45 from rfl]

theorem int_sign (i : Int) : (i : Rat) = (if decide (i < 0) then -1 else 1) * (i.natAbs : Rat) := by
  by_cases hi : i < 0
  · obtain ⟨n, rfl⟩ : ∃ n : Nat, i = -(n : Int) := ⟨i.natAbs, by omega⟩
    rw [Int.natAbs_neg, Int.natAbs_natCast]
    simp only [hi, decide_true, if_true]
    push_cast; ring
  · obtain ⟨n, rfl⟩ : ∃ n : Nat, i = (n : Int) := ⟨i.natAbs, by omega⟩
    rw [Int.natAbs_natCast]
    simp only [hi, decide_false, Bool.false_eq_true, if_false, one_mul]
    rfl

/-- An integer up to 2^64 is printed exactly, with a zero as its only decimal. -/
theorem C85_whole_text (D : Nat) (hD : 0 < D) (i : Int) (h : i.natAbs < 2 ^ 64) :
    ∃ ds, printReal D (.fin i) = some (decimalText (decide (i < 0)) ds [0]) ∧ Digits ds ∧ NoLeadingZero ds ∧ numeral ds = i.natAbs := by
  refine ⟨digits i.natAbs, ?_, digits_ok _, noLeading_digits _, numeral_digits _⟩
  rw [← printReal_whole D hD (decide (i < 0)) i.natAbs h (by simp; omega)]
  congr 2
  exact int_sign i

example : (-1234567 : Int).natAbs < 2 ^ 64 := by decide

/-- An integer of less than 2^53 reads back exactly. -/
theorem C85_whole_reads_partial (env : Env) (i : Int) (h : i.natAbs < 2 ^ 53) :
    (print (withNumbers env) (.real (.fin i))).bind (toData (withNumbers env)) = some (.real (.fin i)) := by
  have e : printReal 10 (.fin i) = some (decimalText (decide (i < 0)) (digits i.natAbs) [0])
      ∧ (i : Rat) = (if decide (i < 0) then -1 else 1) * (i.natAbs : Rat) := by
    have hi : (i : Rat) = (if decide (i < 0) then -1 else 1) * (i.natAbs : Rat) := int_sign i
    refine ⟨?_, hi⟩
    rw [hi, printReal_whole 10 (by omega) (decide (i < 0)) i.natAbs (by omega) (by simp; omega)]
  have hp : print (withNumbers env) (.real (.fin i)) = some (decimalText (decide (i < 0)) (digits i.natAbs) [0]) := by
    simp [print, withNumbers, e.1]
  rw [hp, Option.bind_some, toData_num (digits_ok _) ⟨by simp, by simp⟩ (digits_length 20 _ (by omega) (by omega)) (by simp)]
  show some (Data.real (.fin (litVal ⟨_, _, _⟩))) = _
  rw [litVal_num _ _ h, ← e.2]

example : (-9007199254740991 : Int).natAbs < 2 ^ 53 := by decide

/-- **Refuted**: if the fraction rounds up to 1, the carry into the integral part is lost and the decimals become `1`: the text is
that of a number almost 0.9 smaller. -/
theorem C85_carry_refuted (D : Nat) (hD : 0 < D ∧ D ≤ 10) (x : Rat) (h0 : 0 ≤ x) (hx : x < 2 ^ 64)
    (hc : 1 - 1 / (4 * 10 ^ D) ≤ x - ⌊x⌋) :
    ∃ ds, printReal D (.fin x) = some (decimalText false ds [1]) ∧ numeral ds = ⌊x⌋ ∧ decimalValue false ds [1] < x - 4 / 5 := by
  have hp : (10 : Rat) ≤ 10 ^ D := by
    calc (10 : Rat) = 10 ^ 1 := by norm_num
      _ ≤ 10 ^ D := pow_le_pow_right₀ (by norm_num) hD.1
  have hfl : (⌊x⌋ : Int) = x.floor := rfl
  rw [hfl] at hc ⊢
  obtain ⟨f0, f1, f2⟩ := floor_nonneg h0
  obtain ⟨b1, b2⟩ := right_bounds D hD.2 h0
  have hlow : 10 ^ D - 1 / 4 ≤ (x - x.floor) * 10 ^ D := by
    have := mul_le_mul_of_nonneg_right hc (show (0 : Rat) ≤ 10 ^ D by linarith)
    have e : (1 - 1 / (4 * (10 : Rat) ^ D)) * 10 ^ D = 10 ^ D - 1 / 4 := by field_simp
    linarith
  have hup : (x - x.floor) * 10 ^ D < 10 ^ D := by
    have : (x - x.floor) * 10 ^ D < 1 * 10 ^ D := mul_lt_mul_of_pos_right (by linarith) (by linarith)
    linarith
  have hr : right D x = 10 ^ D := by
    have h1 : (right D x : Rat) < (10 ^ D : Rat) + 1 := by
      have : (1 : Rat) / 2 + 1 / 2 ^ 19 < 1 := by norm_num
      linarith
    have h2 : (10 ^ D : Rat) - 1 < right D x := by
      have : (1 : Rat) / 4 + (1 / 2 + 1 / 2 ^ 19) < 1 := by norm_num
      linarith
    have h1 : right D x < 10 ^ D + 1 := by exact_mod_cast h1
    have h2 : 10 ^ D < right D x + 1 := by
      have : (10 ^ D : Rat) < right D x + 1 := by linarith
      exact_mod_cast this
    omega
  refine ⟨digits x.floor.toNat, ?_, ?_, ?_⟩
  · have : ¬ (x < 0) := not_lt.mpr h0
    simp [printReal, this, carry_text D hx hr, decimalText]
  · rw [numeral_digits]
    have : ((x.floor.toNat : Int) : Rat) = (x.floor : Rat) := by exact_mod_cast f0
    exact_mod_cast this
  · simp only [decimalValue, numeral_digits, Bool.false_eq_true, if_false, one_mul, f0]
    simp only [numeral, List.length_nil, List.length_cons]
    have : 1 / (4 * (10 : Rat) ^ D) ≤ 1 / 40 := by
      apply one_div_le_one_div_of_le (by norm_num); linarith
    norm_num
    linarith

/-- For example, 2 - 2^-40 is printed as 1.1. -/
example : printReal 10 (.fin (2 - 1 / 2 ^ 40)) = some (decimalText false [1] [1]) := by
  have hfl : (2 - 1 / 2 ^ 40 : Rat).floor = 1 := by decide +kernel
  have hr : right 10 (2 - 1 / 2 ^ 40 : Rat) = 10 ^ 10 := by decide +kernel
  have h := carry_text 10 (x := 2 - 1 / 2 ^ 40) (by norm_num) hr
  have hn : ¬ ((2 - 1 / 2 ^ 40 : Rat) < 0) := by norm_num
  simp only [printReal]
  rw [if_neg hn, h, hfl]
  have : digits (1 : Int).toNat = [1] := by
    show digits 1 = [1]
    rw [digits, if_neg (by omega), posDigits, if_neg (by omega), show 1 / 10 = 0 from rfl, posDigits, if_pos rfl]
    rfl
  rw [this]
  rfl

/-- **Refuted**: a number of 2^64 or more, an infinity and NaN have no defined text: they are converted to a 64-bit integer. -/
theorem C85_large_refuted (D : Nat) : (∀ x : Rat, 2 ^ 64 ≤ |x| → printReal D (.fin x) = none)
    ∧ printReal D .nan = none ∧ printReal D .posInf = none ∧ printReal D .negInf = none := by
  refine ⟨?_, rfl, rfl, rfl⟩
  intro x hx
  by_cases hn : x < 0
  · rw [abs_of_neg hn] at hx
    simp [printReal, hn, printAbs, not_lt.mpr hx]
  · rw [abs_of_nonneg (not_lt.mp hn)] at hx
    simp [printReal, hn, printAbs, not_lt.mpr hx]

/-- **Refuted**: a third does not read back. -/
theorem C85_lossy_refuted (env : Env) : (print (withNumbers env) (.real (.fin (rnd (1 / 3))))).bind (toData (withNumbers env))
    ≠ some (.real (.fin (rnd (1 / 3)))) := by
  have hr : right 10 (rnd (1 / 3)) = 3333333333 := by decide +kernel
  have hf : (rnd (1 / 3)).floor = 0 := by decide +kernel
  have hlt : rnd (1 / 3) < 2 ^ 64 := by decide +kernel
  have hn : ¬ (rnd (1 / 3) < 0) := by decide +kernel
  have hl : leading 10 3333333333 = 0 := by decide +kernel
  have hc : chop 11 3333333333 = 3333333333 := by decide +kernel
  have hdg : digits 3333333333 = [3, 3, 3, 3, 3, 3, 3, 3, 3, 3] := by
    rw [digits, if_neg (by omega)]
    iterate 10 rw [posDigits, if_neg (by omega)]
    rw [posDigits, if_pos (by omega)]
    rfl
  have hp : print (withNumbers env) (.real (.fin (rnd (1 / 3)))) = some (decimalText false [0] [3, 3, 3, 3, 3, 3, 3, 3, 3, 3]) := by
    have : printReal 10 (.fin (rnd (1 / 3))) = some (decimalText false [0] [3, 3, 3, 3, 3, 3, 3, 3, 3, 3]) := by
      simp only [printReal]
      rw [if_neg hn, printAbs, if_pos hlt, hr, hf, hl, hc, printNat_eq 3333333333, hdg]
      rfl
    simp only [print, withNumbers, this, Option.getD_some]
  rw [hp, Option.bind_some, toData_num ⟨by decide, by decide⟩ ⟨by decide, by decide⟩ (by decide) (by decide)]
  show some (Data.real (.fin (litVal ⟨_, _, _⟩))) ≠ _
  have : litVal ⟨false, [0], [3, 3, 3, 3, 3, 3, 3, 3, 3, 3]⟩ ≠ rnd (1 / 3) := by decide +kernel
  simpa using this

end Verif.Number
