import Verif.Number.DurationLemmas
import Verif.Number.Props
/-!
C86: the text of durations.
-/
namespace Verif.Number
open Verif.DataText Verif.Data Verif.Calendar Verif.DataText.Spec Verif.Number.Spec

theorem ascii_eq (name : String) : name.toList.map ch = ascii name := rfl

theorem printDuration_of {d : Int} (hd : -(2 ^ 63) < d) {name : String} {u : Nat} (hu : UnitFor d name u) {t : Str}
    (ht : printReal 2 (.fin (Number.count d u)) = some t) : printDuration d = some (t ++ ascii name) := by
  unfold printDuration
  rw [if_neg (by omega), pick_unit hu, ht]
  rfl

/-- The text of a duration: a decimal numeral with at most two decimals and the longest unit that is not longer than the
duration.  If the part below a whole unit is at most 99 hundredths of it, the text denotes the duration up to half a hundredth
of the unit.  (The small excess stems from rounding errors.) -/
theorem C86_text_partial (d : Int) (h0 : -(2 ^ 63) < d) (h1 : d < 2 ^ 63) (name : String) (u : Nat) (hu : UnitFor d name u)
    (hc : d.natAbs % u * 100 ≤ 99 * u) :
    ∃ ds fs, printDuration d = some (decimalText (decide (d < 0)) ds fs ++ ascii name)
      ∧ Digits ds ∧ Digits fs ∧ NoLeadingZero ds ∧ NoTrailingZero fs ∧ fs.length ≤ 2 ∧ numeral ds = d.natAbs / u
      ∧ |decimalValue (decide (d < 0)) ds fs * u - d| ≤ 501 / 100000 * u := by
  have hn : d.natAbs < 2 ^ 63 := by omega
  have hcase := unit_cases hu
  have hu0 : 0 < u := by omega
  have huq : (0 : Rat) < u := by exact_mod_cast hu0
  obtain ⟨b1, b2, b3⟩ := countAbs_bounds hn hcase
  have hsplit := div_split d.natAbs u hu0
  have hrem : ((d.natAbs % u : Nat) : Rat) / u ≤ 99 / 100 := by
    rw [div_le_iff₀ huq]
    have : ((d.natAbs % u : Nat) : Rat) * 100 ≤ 99 * u := by exact_mod_cast hc
    linarith
  have hsign := int_sign d
  have hce := count_eq d u
  have hk1 : d < 0 → 1 ≤ d.natAbs / u := by
    intro h
    rw [Nat.le_div_iff_mul_le hu0]
    rcases hu.2.1 with h' | h' <;> omega
  generalize hnn : d.natAbs = n at *
  generalize hcc : countAbs n u = c at *
  generalize hk : n / u = k at *
  have hfl := floor_count (c := c) (k := k) b3 (by
    have : (99 : Rat) / 100 + 1 / 10 ^ 10 < 1 := by norm_num
    linarith)
  have hc0 : 0 ≤ c := le_trans (by exact_mod_cast Nat.zero_le k) b3
  obtain ⟨r1, r2⟩ := right_bounds 2 (by omega) hc0
  rw [hfl] at r1 r2
  push_cast at r1 r2
  have hr : right 2 c < 10 ^ 2 := by
    have : (right 2 c : Rat) < 100 := by
      have : ((99 : Rat) / 100 + 1 / 10 ^ 10) * 10 ^ 2 + (1 / 2 + 1 / 2 ^ 19) < 100 := by norm_num
      linarith
    exact_mod_cast this
  have hnu : (n : Rat) / u ≤ 2 ^ 63 := by
    rw [div_le_iff₀ huq]
    have h2 : (n : Rat) ≤ 2 ^ 63 := by exact_mod_cast hn.le
    have h3 : (1 : Rat) ≤ u := by exact_mod_cast hu0
    calc (n : Rat) ≤ 2 ^ 63 * 1 := by linarith
      _ ≤ 2 ^ 63 * u := by apply mul_le_mul_of_nonneg_left h3; norm_num
  have hbig : c < 2 ^ 64 := by
    have : (2 : Rat) ^ 63 + 1 / 10 ^ 10 < 2 ^ 64 := by norm_num
    linarith
  obtain ⟨fs, e1, e2, e3, e4, e5⟩ := printAbs_text 2 (by omega) hc0 hbig hr
  have hfn : c.floor.toNat = k := by rw [hfl]; rfl
  rw [hfn] at e1
  refine ⟨digits k, fs, ?_, digits_ok _, e2, noLeading_digits _, e4, e3, numeral_digits _, ?_⟩
  · apply printDuration_of h0 hu
    rw [hce]
    by_cases hneg : d < 0
    · have : -c < 0 := by
        have : (1 : Rat) ≤ k := by exact_mod_cast hk1 hneg
        linarith
      simp [hneg, printReal, this, e1, decimalText, show ch '-' = 45 from rfl]
    · simp [hneg, printReal, not_lt.mpr hc0, e1, decimalText]
  · have e : decimalValue (decide (d < 0)) (digits k) fs * u - d = (if decide (d < 0) then -1 else 1) * (((k : Rat) + right 2 c / 10 ^ 2) * u - n) := by
      rw [hsign]
      simp only [decimalValue, numeral_digits, e5]
      ring
    have habs : |(if decide (d < 0) = true then (-1 : Rat) else 1)| = 1 := by split <;> simp
    rw [e, abs_mul, habs, one_mul]
    have f : ((k : Rat) + right 2 c / 10 ^ 2) * u - n = ((k : Rat) + right 2 c / 10 ^ 2 - n / u) * u := by field_simp
    rw [f, abs_mul, abs_of_pos huq]
    apply mul_le_mul_of_nonneg_right _ huq.le
    rw [abs_le]
    have : (1 / 2 + 1 / 2 ^ 19 : Rat) / 10 ^ 2 + 1 / 10 ^ 10 ≤ 501 / 100000 := by norm_num
    constructor
    · have : (c - k) - (1 / 2 + 1 / 2 ^ 19) / 10 ^ 2 ≤ (right 2 c : Rat) / 10 ^ 2 := by
        rw [le_div_iff₀ (by norm_num)]; linarith
      linarith
    · have : (right 2 c : Rat) / 10 ^ 2 ≤ (c - k) + (1 / 2 + 1 / 2 ^ 19) / 10 ^ 2 := by
        rw [div_le_iff₀ (by norm_num)]; linarith
      linarith

/-- Ninety minutes, for example. -/
example : UnitFor 5400000000000 "h" 3600000000000 ∧ (5400000000000 : Int).natAbs % 3600000000000 * 100 ≤ 99 * 3600000000000 := by
  refine ⟨⟨by decide, .inl (by decide), ?_⟩, by decide⟩
  intro name' u' hm
  simp only [Spec.units, List.mem_cons, List.not_mem_nil, or_false, Prod.mk.injEq] at hm
  omega

/-- Every duration has such a unit. -/
theorem C86_unit (d : Int) : ∃ name u, UnitFor d name u := unit_exists d

theorem duration_whole (env : Env) (d : Int) (h0 : -(2 ^ 63) < d) (h1 : d < 2 ^ 63) (name : String) (u : Nat) (hu : UnitFor d name u)
    (hw : d.natAbs % u = 0) :
    printDuration d = some (decimalText (decide (d < 0)) (digits (d.natAbs / u)) [0] ++ ascii name)
    ∧ scale env ⟨decide (d < 0), digits (d.natAbs / u), [0]⟩ u = d ∧ d.natAbs / u < 2 ^ 53 := by
  have hn : d.natAbs < 2 ^ 63 := by omega
  have hcase := unit_cases hu
  have hu0 : 0 < u := by omega
  have huq : (0 : Rat) < u := by exact_mod_cast hu0
  have hmul : d.natAbs / u * u = d.natAbs := Nat.div_mul_cancel (Nat.dvd_of_mod_eq_zero hw)
  have hkn : d < 0 → d.natAbs / u ≠ 0 := by
    intro h hz
    rw [hz] at hmul
    omega
  have hk53 : d.natAbs / u < 2 ^ 53 := by
    rcases hcase with ⟨h, _, _⟩ | h
    · exact Nat.lt_of_le_of_lt (Nat.div_le_self _ _) h
    · rw [h]; omega
  have hunits : rnd ((d.natAbs / u * u : Nat) : Rat) = ((d.natAbs / u * u : Nat) : Rat) :=
    rnd_units (by omega) (by rw [hmul]; rcases hcase with ⟨h, _, _⟩ | h; exact .inl h; exact .inr h)
  have hcount : Number.count d u = (if decide (d < 0) then -1 else 1) * ((d.natAbs / u : Nat) : Rat) := by
    rw [count_eq]
    have : countAbs d.natAbs u = (d.natAbs / u : Nat) := by
      unfold countAbs
      rw [← hmul, hunits, hmul]
      have : ((d.natAbs / u * u : Nat) : Rat) / u = (d.natAbs / u : Nat) := by push_cast; field_simp
      rw [hmul] at this
      rw [this, rnd_small _ hk53]
    rw [this]
    simp
  have htext : printDuration d = some (decimalText (decide (d < 0)) (digits (d.natAbs / u)) [0] ++ ascii name) := by
    apply printDuration_of h0 hu
    rw [hcount]
    exact printReal_whole 2 (by omega) _ _ (by omega) (by simpa using hkn)
  refine ⟨htext, ?_, hk53⟩
  unfold Number.scale
  rw [litVal_num _ _ hk53]
  have hv : rnd ((u : Rat) * ((if decide (d < 0) = true then -1 else 1) * ((d.natAbs / u : Nat) : Rat))) = (d : Int) := by
    rw [int_sign d]
    have e : (u : Rat) * ((if decide (d < 0) = true then -1 else 1) * ((d.natAbs / u : Nat) : Rat))
        = (if decide (d < 0) = true then -1 else 1) * ((d.natAbs / u * u : Nat) : Rat) := by push_cast; ring
    rw [e]
    by_cases hneg : d < 0
    · simp only [hneg, decide_true, if_true, neg_one_mul]
      rw [rnd_neg, hunits, hmul]
    · simp only [hneg, decide_false, Bool.false_eq_true, if_false, one_mul]
      rw [hunits, hmul]
  rw [hv, trunc_int]
  exact int64_in env (by omega) h1

/-- A whole number of units is printed exactly and reads back exactly. -/
theorem C86_whole (env : Env) (d : Int) (h0 : -(2 ^ 63) < d) (h1 : d < 2 ^ 63) (name : String) (u : Nat) (hu : UnitFor d name u)
    (hw : d.natAbs % u = 0) :
    (∃ ds, Digits ds ∧ numeral ds = d.natAbs / u ∧ printDuration d = some (decimalText (decide (d < 0)) ds [0] ++ ascii name))
    ∧ (print (withNumbers env) (.duration d)).bind (toData (withNumbers env)) = some (.duration d) := by
  obtain ⟨htext, hscale, hk53⟩ := duration_whole env d h0 h1 name u hu hw
  refine ⟨⟨_, digits_ok _, numeral_digits _, htext⟩, ?_⟩
  have hp : print (withNumbers env) (.duration d) = some (decimalText (decide (d < 0)) (digits (d.natAbs / u)) [0] ++ ascii name) := by
    simp only [print, withNumbers, htext, Option.getD_some]
  rw [hp, Option.bind_some, toData_dur (digits_ok _) ⟨by simp, by simp⟩ (digits_length 20 _ (by omega) (by omega)) (by simp) _ _ name u hu.1]
  show some (Data.duration (Number.scale env ⟨_, _, _⟩ u)) = _
  rw [hscale]

example : UnitFor (-7200000000000) "h" 3600000000000 ∧ (-7200000000000 : Int).natAbs % 3600000000000 = 0 := by
  refine ⟨⟨by decide, .inl (by decide), ?_⟩, by decide⟩
  intro name' u' hm
  simp only [Spec.units, List.mem_cons, List.not_mem_nil, or_false, Prod.mk.injEq] at hm
  omega

/-- **Refuted**: if the part below a whole unit is almost a unit, the carry is lost, and the text is that of a duration shorter by
almost nine tenths of the unit. -/
theorem C86_carry_refuted (d : Int) (h0 : 0 < d) (h1 : d < 2 ^ 63) (name : String) (u : Nat) (hu : UnitFor d name u)
    (hc : 998 * u ≤ d.natAbs % u * 1000) (hc' : d.natAbs % u * 10 ^ 9 ≤ (10 ^ 9 - 1) * u) :
    ∃ ds, Digits ds ∧ numeral ds = d.natAbs / u ∧ printDuration d = some (decimalText false ds [1] ++ ascii name) := by
  have hn : d.natAbs < 2 ^ 63 := by omega
  have hcase := unit_cases hu
  have hu0 : 0 < u := by omega
  have huq : (0 : Rat) < u := by exact_mod_cast hu0
  obtain ⟨b1, b2, b3⟩ := countAbs_bounds hn hcase
  have hsplit := div_split d.natAbs u hu0
  have hrem : 998 / 1000 ≤ ((d.natAbs % u : Nat) : Rat) / u := by
    rw [le_div_iff₀ huq]
    have : (998 : Rat) * u ≤ ((d.natAbs % u : Nat) : Rat) * 1000 := by exact_mod_cast hc
    linarith
  have hrem' : ((d.natAbs % u : Nat) : Rat) / u ≤ 1 - 1 / 10 ^ 9 := by
    rw [div_le_iff₀ huq]
    have : ((d.natAbs % u : Nat) : Rat) * 10 ^ 9 ≤ 999999999 * u := by exact_mod_cast hc'
    have e : (1 - 1 / 10 ^ 9 : Rat) = 999999999 / 10 ^ 9 := by norm_num
    rw [e]
    linarith
  have hce := count_eq d u
  rw [if_neg (by omega), one_mul] at hce
  generalize hnn : d.natAbs = n at *
  generalize hcc : countAbs n u = c at *
  generalize hk : n / u = k at *
  have hfl := floor_count (c := c) (k := k) b3 (by
    have : (1 : Rat) - 1 / 10 ^ 9 + 1 / 10 ^ 10 < 1 := by norm_num
    linarith)
  have hc0 : 0 ≤ c := le_trans (by exact_mod_cast Nat.zero_le k) b3
  obtain ⟨r1, r2⟩ := right_bounds 2 (by omega) hc0
  rw [hfl] at r1 r2
  push_cast at r1 r2
  have hr : right 2 c = 10 ^ 2 := by
    have a1 : (right 2 c : Rat) < 101 := by
      have : ((1 : Rat) - 1 / 10 ^ 9 + 1 / 10 ^ 10) * 10 ^ 2 + (1 / 2 + 1 / 2 ^ 19) < 101 := by norm_num
      linarith
    have a2 : (99 : Rat) < right 2 c := by
      have : ((998 : Rat) / 1000 - 1 / 10 ^ 10) * 10 ^ 2 - (1 / 2 + 1 / 2 ^ 19) > 99 := by norm_num
      linarith
    have a1 : right 2 c < 101 := by exact_mod_cast a1
    have a2 : 99 < right 2 c := by exact_mod_cast a2
    omega
  have hnu : (n : Rat) / u ≤ 2 ^ 63 := by
    rw [div_le_iff₀ huq]
    have h2 : (n : Rat) ≤ 2 ^ 63 := by exact_mod_cast hn.le
    have h3 : (1 : Rat) ≤ u := by exact_mod_cast hu0
    calc (n : Rat) ≤ 2 ^ 63 * 1 := by linarith
      _ ≤ 2 ^ 63 * u := by apply mul_le_mul_of_nonneg_left h3; norm_num
  have hbig : c < 2 ^ 64 := by
    have : (2 : Rat) ^ 63 + 1 / 10 ^ 10 < 2 ^ 64 := by norm_num
    linarith
  have hfn : c.floor.toNat = k := by rw [hfl]; rfl
  have ht := carry_text 2 hbig hr
  rw [hfn] at ht
  refine ⟨digits k, digits_ok _, numeral_digits _, ?_⟩
  apply printDuration_of (by omega) hu
  rw [hce]
  simp [printReal, not_lt.mpr hc0, ht, decimalText]

theorem unit_second {d : Int} (h0 : 1000000000 ≤ d.natAbs) (h1 : d.natAbs < 60000000000) : UnitFor d "s" 1000000000 := by
  refine ⟨by decide, .inl h0, ?_⟩
  intro name' u' hm
  simp only [Spec.units, List.mem_cons, List.not_mem_nil, or_false, Prod.mk.injEq] at hm
  omega

theorem digits_one : digits 1 = [1] := by
  rw [digits, if_neg (by omega), posDigits, if_neg (by omega), show 1 / 10 = 0 from rfl, posDigits, if_pos rfl]
  rfl

/-- **Refuted**: 1.999 seconds are printed as `1.1s`, which reads back as 1.1 seconds. -/
theorem C86_read_refuted (env : Env) : printDuration 1999000000 = some (text "1.1s")
    ∧ toData (withNumbers env) (text "1.1s") = some (.duration 1100000000) := by
  have hf : (Number.count 1999000000 1000000000).floor = 1 := by decide +kernel
  have hr : right 2 (Number.count 1999000000 1000000000) = 10 ^ 2 := by decide +kernel
  have hn : ¬ (Number.count 1999000000 1000000000 < 0) := by decide +kernel
  have hlt : Number.count 1999000000 1000000000 < 2 ^ 64 := by decide +kernel
  constructor
  · have ht := carry_text 2 hlt hr
    rw [hf, show (1 : Int).toNat = 1 from rfl, digits_one] at ht
    have : printReal 2 (.fin (Number.count 1999000000 1000000000)) = some (decimalText false [1] [1]) := by
      simp [printReal, hn, ht, decimalText]
    rw [printDuration_of (by decide) (unit_second (by decide) (by decide)) this]
    rfl
  · have h := toData_dur (ds := [1]) (fs := [1]) ⟨by decide, by decide⟩ ⟨by decide, by decide⟩ (by decide) (by decide) false (withNumbers env) "s" 1000000000
      (by decide)
    rw [show decimalText false [1] [1] ++ ascii "s" = text "1.1s" from rfl] at h
    rw [h]
    have e : trunc (rnd (((1000000000 : Nat) : Rat) * litVal ⟨false, [1], [1]⟩)) = 1100000000 := by decide +kernel
    show some (Data.duration (Number.scale env ⟨_, _, _⟩ _)) = _
    rw [Number.scale, e, int64_in env (by decide) (by decide)]

/-- **Refuted**: different durations have the same text. -/
theorem C86_lossy_refuted : printDuration 1001000000 = some (text "1.0s") ∧ printDuration 1002000000 = some (text "1.0s") := by
  have key : ∀ d : Int, 1000000000 ≤ d.natAbs → d.natAbs < 60000000000 → -(2 ^ 63) < d → (Number.count d 1000000000).floor = 1 →
      right 2 (Number.count d 1000000000) = 0 → ¬ (Number.count d 1000000000 < 0) → Number.count d 1000000000 < 2 ^ 64 →
      printDuration d = some (text "1.0s") := by
    intro d h1 h2 h3 hf hr hn hlt
    have : printReal 2 (.fin (Number.count d 1000000000)) = some (decimalText false [1] [0]) := by
      simp only [printReal]
      rw [if_neg hn, printAbs, if_pos hlt, hr, hf, show (1 : Int).toNat = 1 from rfl, printNat_eq 1, digits_one]
      rfl
    rw [printDuration_of h3 (unit_second h1 h2) this]
    rfl
  exact ⟨key _ (by decide) (by decide) (by decide) (by decide +kernel) (by decide +kernel) (by decide +kernel) (by decide +kernel),
    key _ (by decide) (by decide) (by decide) (by decide +kernel) (by decide +kernel) (by decide +kernel) (by decide +kernel)⟩

/-- **Refuted**: the least duration has no defined text. -/
theorem C86_least_refuted : printDuration (-(2 ^ 63)) = none := rfl

end Verif.Number
