import Verif.Json.ReadProps
import Verif.Zeek.Round
import Verif.Number.Props
/-!
# C88: numbers for durations, points in time and strings, and numbers that are too large
-/
namespace Verif.Json
open Verif.Data Verif.DataText Verif.DataText.Spec Verif.Json.Spec Verif.Calendar Verif.Number Verif.Number.Spec

theorem classify_big {n : Num} (h : ¬ Fits (.num n)) : classify n = .big := by
  simp only [Fits, not_and_or, Classical.not_imp] at h
  rcases h with ⟨hi, h⟩ | ⟨hi, h⟩
  · have hv := integral_value hi
    unfold classify
    rw [if_pos (show n.frac = [] ∧ n.exp = none from hi)]
    simp only [value_numeral]
    cases hn : n.neg with
    | true =>
      rw [hn] at hv
      simp only [if_true, neg_one_mul] at hv
      simp only [if_true]
      rw [if_neg]
      intro hle
      have hle' : (numeral n.int : Rat) ≤ 2 ^ 63 := by exact_mod_cast hle
      have h0 : (0 : Rat) ≤ numeral n.int := by positivity
      rw [hv] at h
      rcases h with h | h
      · exact h (by linarith)
      · exact h (by linarith)
    | false =>
      rw [hn] at hv
      simp only [Bool.false_eq_true, if_false, one_mul] at hv
      simp only [Bool.false_eq_true, if_false]
      have h0 : (0 : Rat) ≤ numeral n.int := by positivity
      have hge : ¬ numeral n.int < 2 ^ 64 := by
        intro hlt
        have hlt' : (numeral n.int : Rat) < 2 ^ 64 := by exact_mod_cast hlt
        rw [hv] at h
        rcases h with h | h
        · exact h (by linarith)
        · exact h hlt'
      rw [if_neg (by omega), if_neg hge]
  · unfold classify
    rw [if_neg (show ¬ (n.frac = [] ∧ n.exp = none) from hi), if_neg]
    intro hb
    exact h (abs_lt.mpr hb)

mutual
theorem fits_not : ∀ (v : Value), ¬ Fits v → fits v = false
  | .num n, h => by simp only [fits, classify_big h]
  | .arr xs, h => by simp only [Fits] at h; simp only [fits]; exact fitsAll_not xs h
  | .obj _ xs, h => by simp only [Fits] at h; simp only [fits]; exact fitsAll_not xs h
  | .null, h => absurd trivial h
  | .bool _, h => absurd trivial h
  | .str _, h => absurd trivial h
theorem fitsAll_not : ∀ (vs : List Value), ¬ FitsAll vs → fitsAll vs = false
  | [], h => absurd trivial h
  | v :: vs, h => by
    simp only [FitsAll, not_and_or] at h
    simp only [fitsAll]
    rcases h with h | h
    · rw [fits_not v h, Bool.false_and]
    · rw [fitsAll_not vs h, Bool.and_false]
end

/-- C88: a line with a number that is too large, anywhere in it, makes no row. -/
theorem C88_too_large (env : Env) (layout : Fields) (line : Str) (v : Value) (hd : Document line v) (h : ¬ Fits v) : readLine env layout line = none := by
  unfold readLine simdjson
  rw [document_reads hd]
  simp [fits_not v h]

example : ¬ Fits (.num ⟨false, [1, 8, 4, 4, 6, 7, 4, 4, 0, 7, 3, 7, 0, 9, 5, 5, 1, 6, 1, 6], [], none⟩) := by
  simp only [Fits, not_and_or, Classical.not_imp]
  left
  refine ⟨⟨rfl, rfl⟩, .inr ?_⟩
  decide +kernel

theorem seconds_close (env : Env) {v x : Rat} (h : |v| < 2 ^ 32) (hx : |x - v| ≤ |v| / 2 ^ 53) : |(fromSeconds env x : Rat) - v * 10 ^ 9| ≤ 2000 := by
  have h0 := abs_nonneg v
  have hv1 : |x - v| ≤ 1 / 2 ^ 21 := by
    refine hx.trans ?_
    rw [div_le_div_iff₀ (by norm_num) (by norm_num)]; linarith
  have hx1 : |x| ≤ 2 ^ 32 + 1 := by
    have := abs_sub_abs_le_abs_sub x v
    have : (1 : Rat) / 2 ^ 21 ≤ 1 := by norm_num
    linarith
  have hr1 : |rnd x - x| ≤ 1 / 2 ^ 20 := by
    refine (Zeek.rnd_all x).trans ?_
    rw [div_le_div_iff₀ (by norm_num) (by norm_num)]; linarith
  have hr2 : |rnd x - v| ≤ 3 / 2 ^ 21 := by
    have : rnd x - v = (rnd x - x) + (x - v) := by ring
    rw [this]
    refine (abs_add_le _ _).trans ?_
    have : (3 : Rat) / 2 ^ 21 = 1 / 2 ^ 20 + 1 / 2 ^ 21 := by norm_num
    linarith
  have hy : |rnd x * 10 ^ 9 - v * 10 ^ 9| ≤ 1431 := by
    rw [← sub_mul, abs_mul, abs_of_pos (show (0 : Rat) < 10 ^ 9 by norm_num)]
    have := mul_le_mul_of_nonneg_right hr2 (show (0 : Rat) ≤ 10 ^ 9 by norm_num)
    have h2 : (3 : Rat) / 2 ^ 21 * 10 ^ 9 ≤ 1431 := by norm_num
    linarith
  generalize hz : rnd x * 10 ^ 9 = z at hy
  have hz1 : |z| ≤ 2 ^ 32 * 10 ^ 9 + 1431 := by
    have h1 := abs_sub_abs_le_abs_sub z (v * 10 ^ 9)
    have h2 : |v * 10 ^ 9| = |v| * 10 ^ 9 := by rw [abs_mul, abs_of_pos (show (0 : Rat) < 10 ^ 9 by norm_num)]
    have h3 := mul_lt_mul_of_pos_right h (show (0 : Rat) < 10 ^ 9 by norm_num)
    rw [h2] at h1
    linarith
  have hr3 : |rnd z - z| ≤ 500 := by
    refine (Zeek.rnd_all z).trans ?_
    rw [div_le_iff₀ (by norm_num)]
    have : (2 : Rat) ^ 32 * 10 ^ 9 + 1431 ≤ 500 * 2 ^ 53 := by norm_num
    linarith
  have ht := Zeek.trunc_abs (rnd z)
  have htot : |(trunc (rnd z) : Rat) - v * 10 ^ 9| ≤ 2000 := by
    have : (trunc (rnd z) : Rat) - v * 10 ^ 9 = (trunc (rnd z) - rnd z) + ((rnd z - z) + (z - v * 10 ^ 9)) := by ring
    rw [this]
    have a1 := abs_add_le ((trunc (rnd z) : Rat) - rnd z) ((rnd z - z) + (z - v * 10 ^ 9))
    have a2 := abs_add_le (rnd z - z) (z - v * 10 ^ 9)
    linarith
  have hb : -(2 ^ 63) ≤ trunc (rnd z) ∧ trunc (rnd z) < 2 ^ 63 := by
    have h4 := abs_le.mp htot
    have h5 := abs_lt.mp h
    have h6 : (trunc (rnd z) : Rat) < 2 ^ 63 := by linarith
    have h7 : -(2 ^ 63) ≤ (trunc (rnd z) : Rat) := by linarith
    exact ⟨by exact_mod_cast h7, by exact_mod_cast h6⟩
  rw [fromSeconds, hz, Env.int64, if_pos hb]
  exact htot

theorem classify_seconds (env : Env) {n : Num} (h : |n.value| < 2 ^ 32) : ∃ d : Int, |(d : Rat) - n.value * 10 ^ 9| ≤ 2000
    ∧ convertNumber env (classify n) .duration = some (.duration d) ∧ convertNumber env (classify n) .time = some (.time d) := by
  have h' := abs_lt.mp h
  by_cases hi : n.Integral
  · obtain ⟨i, hv⟩ := integral_int hi
    have h0 : -(2 ^ 63) ≤ i := by rw [hv] at h'; have : (-(2 ^ 63) : Rat) ≤ i := by linarith
                                  exact_mod_cast this
    have h1 : i < 2 ^ 63 := by rw [hv] at h'; have : (i : Rat) < 2 ^ 63 := by linarith
                               exact_mod_cast this
    rcases classify_integral hi i hv h0 (by omega) with ⟨_, e⟩ | ⟨h, _⟩
    · refine ⟨fromSeconds env i, ?_, by rw [e]; rfl, by rw [e]; rfl⟩
      rw [hv] at h ⊢
      exact seconds_close env h (by simp; positivity)
    · omega
  · have hb : ((2 : Rat) ^ 32) < 2 ^ 1024 - 2 ^ 970 := by decide +kernel
    rw [classify_double hi (lt_trans h hb)]
    exact ⟨fromSeconds env (rnd n.value), seconds_close env h (Zeek.rnd_all _), rfl, rfl⟩

theorem classify_string (env : Env) {n : Num} (hi : ¬ n.Integral) (h : |n.value| < 2 ^ 52) (hc : |rnd n.value| - ⌊|rnd n.value|⌋ ≤ 1 - 1 / 10 ^ 10) :
    ∃ neg ds fs, convertNumber (withNumbers env) (classify n) .string = some (.string (decimalText neg ds fs)) ∧ Digits ds ∧ Digits fs
      ∧ |decimalValue neg ds fs - n.value| ≤ 1 / 10 ^ 10 + |n.value| / 2 ^ 53 := by
  have hb : ((2 : Rat) ^ 52) < 2 ^ 1024 - 2 ^ 970 := by decide +kernel
  rw [classify_double hi (lt_trans h hb)]
  have hr := Zeek.rnd_all n.value
  have h0 := abs_nonneg n.value
  have hlt : |rnd n.value| < 2 ^ 64 := by
    have h1 := abs_sub_abs_le_abs_sub (rnd n.value) n.value
    have h2 : |n.value| / 2 ^ 53 ≤ 1 := by rw [div_le_iff₀ (by norm_num)]; linarith
    linarith
  obtain ⟨ds, fs, e, hd, hf, _, _, _, _, hn⟩ := C85_text_partial 10 ⟨by decide, by decide⟩ _ hlt hc
  refine ⟨decide (rnd n.value < 0), ds, fs, ?_, hd, hf, ?_⟩
  · show some (Data.string ((withNumbers env).printReal (.fin (rnd n.value)))) = _
    have : (withNumbers env).printReal (.fin (rnd n.value)) = (printReal 10 (.fin (rnd n.value))).getD (env.printReal (.fin (rnd n.value))) := rfl
    rw [this, e]; rfl
  · generalize decimalValue (decide (rnd n.value < 0)) ds fs = w at hn
    have h1 : |w - rnd n.value| ≤ 1 / 10 ^ 10 := by
      rw [le_div_iff₀ (by norm_num)]
      refine hn.trans ?_
      norm_num
    have : w - n.value = (w - rnd n.value) + (rnd n.value - n.value) := by ring
    rw [this]
    exact (abs_add_le _ _).trans (add_le_add h1 hr)

/-- C88: a number, whole or not, is a number of seconds in a column of durations or points in time, up to 2 microseconds; a number
that is not written as a whole one is a decimal number in a column of strings, up to ten digits.  What is missing: numbers beyond
the bounds, and those that lose a carry when they are written (C85). -/
theorem C88_numbers_partial (env : Env) (layout : Fields) (line : Str) (ns : List Str) (vs : List Value) (hd : Document line (.obj ns vs)) (row : List Data)
    (complete : Bool) (hr : readLine (withNumbers env) layout line = some (.row row complete)) :
    List.Forall₂ (fun p x => ∀ parts n, Parts (dotted p.1) parts → Finds parts ns vs (some (.num n)) →
      (p.2 = .duration → |n.value| < 2 ^ 32 → ∃ d : Int, x = .duration d ∧ |(d : Rat) - n.value * 10 ^ 9| ≤ 2000)
      ∧ (p.2 = .time → |n.value| < 2 ^ 32 → ∃ d : Int, x = .time d ∧ |(d : Rat) - n.value * 10 ^ 9| ≤ 2000)
      ∧ (p.2 = .string → ¬ n.Integral → |n.value| < 2 ^ 52 → |rnd n.value| - ⌊|rnd n.value|⌋ ≤ 1 - 1 / 10 ^ 10 →
          ∃ neg ds fs, x = .string (decimalText neg ds fs) ∧ Digits ds ∧ Digits fs ∧ |decimalValue neg ds fs - n.value| ≤ 1 / 10 ^ 10 + |n.value| / 2 ^ 53))
      (paths layout) row := by
  have hrow : row = (paths layout).map fun p => (addField (withNumbers env) (dotted p.1) p.2 ns vs).1 := by
    have e : leaves [] layout = (paths layout).map (fun p => (dotted p.1, p.2)) := by
      rw [leaves_paths]; simp
    have hall : ∀ ls row c, addLeaves (withNumbers env) ns vs ls = .row row c → row = ls.map fun l => (addField (withNumbers env) l.1 l.2 ns vs).1 := by
      intro ls
      induction ls with
      | nil => intro row c h; simp only [addLeaves, Added.row.injEq] at h; rw [← h.1]; rfl
      | cons l ls ih =>
        intro row c h
        obtain ⟨key, t⟩ := l
        simp only [addLeaves] at h
        split at h
        · split at h
          · rename_i xs ok hx
            simp only [Added.row.injEq] at h
            rw [← h.1, ih _ _ hx]; rfl
          · cases h
        · cases h
    unfold readLine simdjson at hr
    rw [document_reads hd] at hr
    by_cases hf : fits (.obj ns vs) = true
    · simp only [hf, if_true, Option.some.injEq] at hr
      rw [e] at hr
      rw [hall _ _ _ hr, List.map_map]; rfl
    · simp [hf] at hr
  rw [hrow, List.forall₂_map_right_iff, List.forall₂_same]
  intro p _ parts n h1 h2
  have h3 := addField_finds (withNumbers env) h1 p.2 h2
  refine ⟨?_, ?_, ?_⟩
  · intro ht hn
    obtain ⟨d, hd, e, _⟩ := classify_seconds (withNumbers env) hn
    rw [h3, ht]
    simp only [convert, e]
    exact ⟨d, rfl, hd⟩
  · intro ht hn
    obtain ⟨d, hd, _, e⟩ := classify_seconds (withNumbers env) hn
    rw [h3, ht]
    simp only [convert, e]
    exact ⟨d, rfl, hd⟩
  · intro ht hi hn hc
    obtain ⟨neg, ds, fs, e, g⟩ := classify_string env hi hn hc
    rw [h3, ht]
    simp only [convert, e]
    exact ⟨neg, ds, fs, rfl, g⟩

example : Document (ascii "{\"x\": 1.5}") (.obj [ascii "x"] [.num ⟨false, [1], [5], none⟩])
    ∧ ¬ (⟨false, [1], [5], none⟩ : Num).Integral ∧ (⟨false, [1], [5], none⟩ : Num).value = 3 / 2 ∧ rnd (3 / 2) = 3 / 2 := by
  refine ⟨?_, by simp [Num.Integral], by decide +kernel, by decide +kernel⟩
  have h2 : Text (ascii "1.5") (.num ⟨false, [1], [5], none⟩) := .num _ _ (.mk false [1] [5] [] none ⟨by simp, by simp⟩ (by simp) (by simp) .absent)
  have h := object_text (ns := [ascii "x"]) (ts := [ascii "1.5"]) rfl (.cons h2 .nil)
  exact ⟨utf8_ascii (by decide +kernel), [], _, [], by decide +kernel, ws_nil, h, ws_nil⟩

/-- C88 (refuted): a string with a fraction is cut to a whole number in a column of whole numbers, and nothing is reported. -/
theorem C88_word_refuted (env : Env) :
    readLine (withNumbers env) (.cons (ascii "x") .int (.cons (ascii "y") .count .nil)) (ascii "{\"x\": \"-1.5\", \"y\": \"1.5\"}")
      = some (.row [.int (-1), .count 1] true) := by
  have h : simdjson (ascii "{\"x\": \"-1.5\", \"y\": \"1.5\"}") = some (.obj [ascii "x", ascii "y"] [.str (ascii "-1.5"), .str (ascii "1.5")]) :=
    simdjson_eq (by decide +kernel)
  have c1 : convert (withNumbers env) (.str (ascii "-1.5")) .int = some (.int (-1)) := by
    have e1 : full (int64P (withNumbers env)) (ascii "-1.5") = none := rfl
    have e2 : full (jsonNumberP (withNumbers env)) (ascii "-1.5") = some (.fin (litVal ⟨true, [1], [5]⟩)) := rfl
    have e3 : trunc (litVal ⟨true, [1], [5]⟩) = -1 := by decide +kernel
    simp only [convert, convertString, e1, e2, Option.map_some, narrow, e3]
    rw [Env.int64, if_pos (by decide)]
  have c2 : convert (withNumbers env) (.str (ascii "1.5")) .count = some (.count 1) := by
    have e1 : full jsonCountP (ascii "1.5") = none := rfl
    have e2 : full (jsonNumberP (withNumbers env)) (ascii "1.5") = some (.fin (litVal ⟨false, [1], [5]⟩)) := rfl
    have e3 : trunc (litVal ⟨false, [1], [5]⟩) = 1 := by decide +kernel
    simp only [convert, convertString, e1, e2, Option.map_some, narrowCount, e3]
    rfl
  have l1 : lookup 2 (ascii "x") [ascii "x", ascii "y"] [.str (ascii "-1.5"), .str (ascii "1.5")] = some (.str (ascii "-1.5")) := rfl
  have l2 : lookup 2 (ascii "y") [ascii "x", ascii "y"] [.str (ascii "-1.5"), .str (ascii "1.5")] = some (.str (ascii "1.5")) := rfl
  have k1 : (ascii "x").length + 1 = 2 := rfl
  have k2 : (ascii "y").length + 1 = 2 := rfl
  unfold readLine
  rw [h]
  simp only [leaves, leafOf, List.nil_append, List.append_nil, List.cons_append, addLeaves, addField, k1, k2, l1, l2, c1, c2, typeCheck, if_true, Bool.and_self]

end Verif.Json
