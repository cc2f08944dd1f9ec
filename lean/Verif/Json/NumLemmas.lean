import Verif.Json.WriteLemmas
/-!
Numbers written by the printer.
-/
namespace Verif.Json
open Verif.Data Verif.DataText Verif.DataText.Spec Verif.Json.Spec Verif.Calendar

theorem lead {n : Nat} : (digits n).head? = some 0 → digits n = [0] := by
  intro h
  rcases Number.noLeading_digits n with h' | h'
  · exact h'
  · exact absurd h h'

/-- An integer as a numeral. -/
def intNum (i : Int) : Num := ⟨decide (i < 0), digits i.natAbs, [], none⟩

theorem intNum_value (i : Int) : (intNum i).value = i := by
  simp only [Num.value, Num.mantissa, intNum, Number.numeral_digits, numeral, List.length_nil, Option.getD_none, zpow_zero, mul_one]
  rw [Number.int_sign i]
  simp

theorem intText_text (i : Int) : Text (intText i) (.num (intNum i)) := by
  refine .num _ _ ?_
  have := Numeral.mk (decide (i < 0)) (digits i.natAbs) [] [] none (Number.digits_ok _) lead (by simp) .absent
  have e : intText i = (if decide (i < 0) = true then [45] else []) ++ digitText (digits i.natAbs) ++ (if ([] : List Nat) = [] then [] else 46 :: digitText []) ++ [] := by
    unfold intText
    rw [printNat_eq, Number.txt_digitText]
    by_cases h : i < 0 <;> simp [h, ch]
  rw [e]; exact this

theorem plain_intText (i : Int) : Plain (intText i) := by
  unfold intText
  split
  · exact plain_cons (by decide) (plain_printNat _)
  · exact plain_printNat _

theorem printNat_intText (n : Nat) : printNat n = intText n := by
  unfold intText
  rw [if_neg (by omega)]; rfl

/-! ## Numbers with a fraction -/

/-- Digits without the zeros at the end. -/
def strip (ds : List Nat) : List Nat := (ds.reverse.dropWhile (· == 0)).reverse

theorem dropWhile_map_digit {ds : List Nat} (h : ∀ d ∈ ds, d < 10) :
    (digitText ds).dropWhile (· == ch '0') = digitText (ds.dropWhile (· == 0)) := by
  induction ds with
  | nil => rfl
  | cons d ds ih =>
    have hd := h d (by simp)
    simp only [digitText, List.map_cons, List.dropWhile_cons] at ih ⊢
    by_cases h0 : d = 0
    · subst h0
      simpa [ch] using ih fun x hx => h x (by simp [hx])
    · have : ((48 + d).toUInt8 == ch '0') = false := by
        have : ∀ d, d < 10 → d ≠ 0 → ((48 + d).toUInt8 == ch '0') = false := by decide
        exact this d hd h0
      have h1 : (d == 0) = false := by simpa using h0
      rw [this, h1]; rfl

theorem dropZeros_point (a : Str) {ds : List Nat} (h : ∀ d ∈ ds, d < 10) :
    dropZeros (a ++ (ch '.' :: digitText ds)) = a ++ (ch '.' :: digitText (strip ds)) := by
  have hr : (digitText ds).reverse = digitText ds.reverse := by simp [digitText]
  have hdot : (ch '.' == ch '0') = false := by decide
  unfold dropZeros strip
  rw [List.reverse_append, List.reverse_cons, hr, List.append_assoc, List.dropWhile_append, dropWhile_map_digit (by simpa using h)]
  split
  · rename_i he
    have he' : digitText (ds.reverse.dropWhile (· == 0)) = [] := by simpa using he
    have he2 : ds.reverse.dropWhile (· == 0) = [] := by simpa [digitText] using he'
    rw [he2]
    simp [List.dropWhile_cons, hdot, digitText]
  · simp [digitText]

theorem dropWhile_split (ds : List Nat) : ∃ k, ds = List.replicate k 0 ++ ds.dropWhile (· == 0) := by
  induction ds with
  | nil => exact ⟨0, rfl⟩
  | cons d ds ih =>
    by_cases h0 : d = 0
    · subst h0
      obtain ⟨k, hk⟩ := ih
      refine ⟨k + 1, ?_⟩
      simp only [List.dropWhile_cons, beq_self_eq_true, if_true, List.replicate_succ, List.cons_append]
      rw [← hk]
    · exact ⟨0, by simp [List.dropWhile_cons, h0]⟩

theorem strip_split (ds : List Nat) : ∃ k, ds = strip ds ++ List.replicate k 0 := by
  obtain ⟨k, hk⟩ := dropWhile_split ds.reverse
  refine ⟨k, ?_⟩
  have := congrArg List.reverse hk
  simpa [strip] using this

theorem numeral_append (a b : List Nat) : numeral (a ++ b) = numeral a * 10 ^ b.length + numeral b := by
  induction a with
  | nil => simp [numeral]
  | cons d a ih => simp only [List.cons_append, numeral, ih, List.length_append, pow_add]; ring

theorem numeral_replicate (k : Nat) : numeral (List.replicate k 0) = 0 := by
  have := Number.numeral_zeros k []
  simpa [numeral] using this

theorem strip_value (ds : List Nat) : (numeral (strip ds) : Rat) / 10 ^ (strip ds).length = (numeral ds : Rat) / 10 ^ ds.length := by
  obtain ⟨k, hk⟩ := strip_split ds
  have h1 : numeral ds = numeral (strip ds) * 10 ^ k := by
    conv_lhs => rw [hk]
    rw [numeral_append, numeral_replicate]; simp
  have h2 : ds.length = (strip ds).length + k := by
    conv_lhs => rw [hk]
    simp
  rw [h1, h2, pow_add]
  push_cast
  rw [mul_div_mul_right _ _ (by positivity)]

theorem strip_ne {ds : List Nat} (h : numeral ds ≠ 0) : strip ds ≠ [] := by
  intro h0
  obtain ⟨k, hk⟩ := strip_split ds
  rw [h0] at hk
  rw [hk] at h
  exact h (by simpa using numeral_replicate k)

/-- The whole number of millionths that is written. -/
def millionths (x : Rat) : Nat := nearest (x.num.toNat * 10 ^ 6) x.den

theorem fixed_eq (x : Rat) : fixed x = digitText (digits (millionths x / 10 ^ 6)) ++ (ch '.' :: digitText (pd 6 (millionths x % 10 ^ 6))) := by
  unfold fixed
  simp only
  rw [padNat_field 6 _ (by omega) (Nat.mod_lt _ (by decide)), printNat_eq, field_txt]
  rfl

theorem rat_num {x : Rat} (h0 : 0 ≤ x) : x = (x.num.toNat : Rat) / x.den := by
  have hn : 0 ≤ x.num := Rat.num_nonneg.mpr h0
  have : ((x.num.toNat : Int) : Rat) = (x.num : Rat) := by rw [Int.toNat_of_nonneg hn]
  have h2 : ((x.num.toNat : Nat) : Rat) = (x.num : Rat) := by exact_mod_cast this
  rw [h2]; exact (Rat.num_div_den x).symm

theorem millionths_near {x : Rat} (h0 : 0 ≤ x) : |(millionths x : Rat) / 10 ^ 6 - x| ≤ 1 / (2 * 10 ^ 6) := by
  have hd : 0 < x.den := x.den_pos
  obtain ⟨b1, b2⟩ := nearest_bounds (x.num.toNat * 10 ^ 6) x.den hd
  have hq : (0 : Rat) < x.den := by exact_mod_cast hd
  have c1 : 2 * ((millionths x : Rat) * x.den) ≤ 2 * ((x.num.toNat : Rat) * 10 ^ 6) + x.den := by
    unfold millionths; exact_mod_cast b1
  have c2 : 2 * ((x.num.toNat : Rat) * 10 ^ 6) ≤ 2 * ((millionths x : Rat) * x.den) + x.den := by
    unfold millionths; exact_mod_cast b2
  have hx := rat_num h0
  have hxd : (x.num.toNat : Rat) = x * x.den := (div_eq_iff (ne_of_gt hq)).mp hx.symm
  rw [hxd] at c1 c2
  rw [abs_le]
  constructor
  · have : x * 10 ^ 6 ≤ (millionths x : Rat) + 1 / 2 := by
      have : 2 * (x * 10 ^ 6) * x.den ≤ (2 * (millionths x : Rat) + 1) * x.den := by linarith
      have := le_of_mul_le_mul_right this hq
      linarith
    linarith
  · have : (millionths x : Rat) ≤ x * 10 ^ 6 + 1 / 2 := by
      have : 2 * (millionths x : Rat) * x.den ≤ (2 * (x * 10 ^ 6) + 1) * x.den := by linarith
      have := le_of_mul_le_mul_right this hq
      linarith
    linarith

theorem millionths_whole {x : Rat} (h : x.den = 1) : millionths x = x.num.toNat * 10 ^ 6 := by
  unfold millionths
  rw [h]
  have := nearest_exact (x.num.toNat * 10 ^ 6) 1 (by omega)
  rwa [Nat.mul_one] at this

theorem takeWhile_dot {ds : List Nat} (h : ∀ d ∈ ds, d < 10) (r : Str) :
    (digitText ds ++ (ch '.' :: r)).takeWhile (· != ch '.') = digitText ds := by
  induction ds with
  | nil => simp [digitText]
  | cons d ds ih =>
    have hd : ((48 + d).toUInt8 != ch '.') = true := by
      have : ∀ d, d < 10 → ((48 + d).toUInt8 != ch '.') = true := by decide
      exact this d (h d (by simp))
    have := ih fun x hx => h x (by simp [hx])
    simp only [digitText, List.map_cons, List.cons_append, List.takeWhile_cons, hd, if_true] at this ⊢
    rw [this]

/-- The numeral that is written for a number that is not negative. -/
def absFrac (x : Rat) : List Nat := if x.den = 1 then [] else strip (pd 6 (millionths x % 10 ^ 6))

theorem realAbs_text (x : Rat) (h : x.den = 1 ∨ millionths x % 10 ^ 6 ≠ 0) :
    realAbs x = digitText (digits (millionths x / 10 ^ 6)) ++ (if absFrac x = [] then [] else 46 :: digitText (absFrac x)) := by
  unfold realAbs absFrac
  split
  · rw [fixed_eq, takeWhile_dot (digits_lt _)]; simp
  · rename_i hn
    have h1 : millionths x % 10 ^ 6 ≠ 0 := by rcases h with h | h <;> [exact absurd h hn; exact h]
    rw [fixed_eq, dropZeros_point _ (pd_lt 6 _), if_neg]
    · rfl
    · apply strip_ne
      rw [← value_numeral, value_pd 6 _ (Nat.mod_lt _ (by decide))]
      exact h1

theorem absFrac_lt (x : Rat) : ∀ d ∈ absFrac x, d < 10 := by
  intro d hd
  unfold absFrac at hd
  split at hd
  · simp at hd
  · obtain ⟨k, hk⟩ := strip_split (pd 6 (millionths x % 10 ^ 6))
    exact pd_lt 6 (millionths x % 10 ^ 6) d (by rw [hk]; exact List.mem_append_left _ hd)

theorem absFrac_value (x : Rat) :
    ((numeral (digits (millionths x / 10 ^ 6)) : Rat) + (numeral (absFrac x) : Rat) / 10 ^ (absFrac x).length) = (millionths x : Rat) / 10 ^ 6 := by
  have hdiv : (millionths x : Rat) = ((millionths x / 10 ^ 6 : Nat) : Rat) * 10 ^ 6 + ((millionths x % 10 ^ 6 : Nat) : Rat) := by
    have := Nat.div_add_mod (millionths x) (10 ^ 6)
    have h2 : millionths x = millionths x / 10 ^ 6 * 10 ^ 6 + millionths x % 10 ^ 6 := by omega
    exact_mod_cast h2
  rw [Number.numeral_digits]
  unfold absFrac
  split
  · rename_i h
    have hz : millionths x % 10 ^ 6 = 0 := by rw [millionths_whole h]; simp
    rw [hz] at hdiv
    rw [hdiv]
    simp [numeral]
  · rw [strip_value, pd_length, ← value_numeral, value_pd 6 _ (Nat.mod_lt _ (by decide))]
    generalize millionths x / 10 ^ 6 = a at hdiv ⊢
    generalize millionths x % 10 ^ 6 = b at hdiv ⊢
    rw [hdiv]
    field_simp

theorem ok_millionths {x : Rat} (h0 : 0 ≤ x) (h : RealOk x) : x.den = 1 ∨ millionths x % 10 ^ 6 ≠ 0 := by
  rcases h with h | h
  · exact .inl h
  · right
    intro hz
    have hn := millionths_near h0
    have := h ((millionths x / 10 ^ 6 : Nat) : Int)
    have hdiv : (millionths x : Rat) = ((millionths x / 10 ^ 6 : Nat) : Rat) * 10 ^ 6 := by
      have h2 : millionths x = millionths x / 10 ^ 6 * 10 ^ 6 := by omega
      exact_mod_cast h2
    generalize millionths x / 10 ^ 6 = a at *
    rw [hdiv, mul_div_cancel_right₀ _ (by norm_num), abs_sub_comm] at hn
    push_cast at this
    linarith

theorem realOk_neg {x : Rat} (h : RealOk x) : RealOk (-x) := by
  rcases h with h | h
  · left; simpa using h
  · right
    intro i
    have := h (-i)
    push_cast at this ⊢
    have e : -x - (i : Rat) = -(x - -(i : Rat)) := by ring
    rw [e, abs_neg]
    exact this

/-- A finite number as a numeral. -/
def realNum (x : Rat) : Num := ⟨decide (x < 0), digits (millionths |x| / 10 ^ 6), absFrac |x|, none⟩

theorem jsonReal_eq (x : Rat) : jsonReal (.fin x) = (if decide (x < 0) = true then [45] else []) ++ realAbs |x| := by
  simp only [jsonReal]
  by_cases h : x < 0
  · simp [h, abs_of_neg h, ch]
  · simp [h, abs_of_nonneg (not_lt.mp h)]

theorem jsonReal_text {x : Rat} (h : RealOk x) :
    Text (jsonReal (.fin x)) (.num (realNum x)) ∧ |(realNum x).value - x| ≤ 1 / (2 * 10 ^ 6) := by
  have ha : RealOk |x| := by
    rcases abs_choice x with h' | h' <;> rw [h']
    · exact h
    · exact realOk_neg h
  have h0 : 0 ≤ |x| := abs_nonneg x
  constructor
  · refine .num _ _ ?_
    have := Numeral.mk (decide (x < 0)) (digits (millionths |x| / 10 ^ 6)) (absFrac |x|) [] none (Number.digits_ok _) lead (absFrac_lt _) .absent
    rw [jsonReal_eq, realAbs_text _ (ok_millionths h0 ha), ← List.append_assoc]
    rw [List.append_nil] at this
    exact this
  · have hn := millionths_near h0
    simp only [Num.value, Num.mantissa, realNum, absFrac_value, Option.getD_none, zpow_zero, mul_one]
    by_cases hx : x < 0
    · simp only [hx, decide_true, if_true]
      rw [abs_of_neg hx] at hn ⊢
      have e : -1 * ((millionths (-x) : Rat) / 10 ^ 6) - x = -((millionths (-x) : Rat) / 10 ^ 6 - -x) := by ring
      rw [e, abs_neg]; exact hn
    · simp only [hx, decide_false, Bool.false_eq_true, if_false]
      rw [abs_of_nonneg (not_lt.mp hx)] at hn ⊢
      rw [one_mul]; exact hn

theorem realNum_value (x : Rat) : ∃ k : Int, (realNum x).value = k / 10 ^ 6 := by
  simp only [Num.value, Num.mantissa, realNum, absFrac_value, Option.getD_none, zpow_zero, mul_one]
  by_cases hx : x < 0
  · refine ⟨-(millionths |x| : Int), ?_⟩
    simp only [hx, decide_true, if_true]
    push_cast
    ring
  · refine ⟨(millionths |x| : Int), ?_⟩
    simp [hx]

theorem plain_jsonReal (r : Real) : Plain (jsonReal r) := by
  have hf : ∀ x, Plain (fixed x) := fun x => plain_append (plain_printNat _) (plain_cons (by decide) (plain_pad _ _))
  have ha : ∀ x, Plain (realAbs x) := by
    intro x
    unfold realAbs
    split
    · intro b hb; exact hf x b ((List.takeWhile_sublist _).subset hb)
    · intro b hb
      unfold dropZeros at hb
      exact hf x b (List.mem_reverse.mp ((List.dropWhile_sublist _).subset (List.mem_reverse.mp hb)))
  unfold jsonReal
  split
  · split
    · exact plain_cons (by decide) (ha _)
    · exact ha _
  · exact plain_chars_of (by decide)

/-! ## Durations in seconds -/

theorem rnd_near_int (d : Int) (h : d.natAbs < 2 ^ 63) : |rnd (d : Rat) - d| ≤ 512 := by
  obtain ⟨a, b⟩ := Number.rnd_near_nat d.natAbs h
  by_cases hd : d < 0
  · obtain ⟨n, rfl⟩ : ∃ n : Nat, d = -(n : Int) := ⟨d.natAbs, by omega⟩
    rw [Int.natAbs_neg, Int.natAbs_natCast] at a b
    push_cast
    rw [Number.rnd_neg, abs_le]
    constructor <;> linarith
  · obtain ⟨n, rfl⟩ : ∃ n : Nat, d = (n : Int) := ⟨d.natAbs, by omega⟩
    rw [Int.natAbs_natCast] at a b
    push_cast
    rw [abs_le]
    constructor <;> linarith

theorem rnd_near {x : Rat} (h : |x| < 2 ^ 53) : |rnd x - x| ≤ |x| / 2 ^ 53 := by
  rcases lt_or_ge x 0 with hx | hx
  · rw [abs_of_neg hx] at h ⊢
    have := rnd_bounds (x := -x) (by linarith) h
    rw [Number.rnd_neg] at this
    rw [abs_le]
    constructor <;> linarith
  · rw [abs_of_nonneg hx] at h ⊢
    have := rnd_bounds hx h
    rw [abs_le]
    constructor <;> linarith

theorem seconds_near (d : Int) (h : d.natAbs < 2 ^ 63) : |rnd (rnd (d : Rat) / 10 ^ 9) - (d : Rat) / 10 ^ 9| ≤ 2 / 10 ^ 6 := by
  have h1 := rnd_near_int d h
  have hd : |(d : Rat)| ≤ 2 ^ 63 := by
    have : |d| ≤ 2 ^ 63 := by rw [Int.abs_eq_natAbs]; omega
    exact_mod_cast this
  have hr : |rnd (d : Rat)| ≤ 2 ^ 63 + 512 := by
    have := abs_add_le (rnd (d : Rat) - d) d
    rw [sub_add_cancel] at this
    linarith
  have hq : |rnd (d : Rat) / 10 ^ 9| ≤ (2 ^ 63 + 512) / 10 ^ 9 := by
    rw [abs_div, abs_of_pos (by norm_num : (0 : Rat) < 10 ^ 9)]
    exact div_le_div_of_nonneg_right hr (by norm_num)
  have h2 := rnd_near (x := rnd (d : Rat) / 10 ^ 9) (lt_of_le_of_lt hq (by norm_num))
  have h3 : |rnd (d : Rat) / 10 ^ 9 - (d : Rat) / 10 ^ 9| ≤ 512 / 10 ^ 9 := by
    rw [← sub_div, abs_div, abs_of_pos (by norm_num : (0 : Rat) < 10 ^ 9)]
    exact div_le_div_of_nonneg_right h1 (by norm_num)
  have h4 : |rnd (d : Rat) / 10 ^ 9| / 2 ^ 53 ≤ (2 ^ 63 + 512) / 10 ^ 9 / 2 ^ 53 := div_le_div_of_nonneg_right hq (by norm_num)
  have h5 : ((2 : Rat) ^ 63 + 512) / 10 ^ 9 / 2 ^ 53 + 512 / 10 ^ 9 ≤ 2 / 10 ^ 6 := by norm_num
  have := abs_add_le (rnd (rnd (d : Rat) / 10 ^ 9) - rnd (d : Rat) / 10 ^ 9) (rnd (d : Rat) / 10 ^ 9 - (d : Rat) / 10 ^ 9)
  rw [sub_add_sub_cancel] at this
  linarith

/-- Every duration but the least has a text. -/
theorem printDuration_some (d : Int) (h : d.natAbs < 2 ^ 63) : ∃ t, Number.printDuration d = some t := by
  have hu : (d.natAbs < 2 ^ 53 ∧ d.natAbs < 1000 * (Number.pick d).1 ∧ 1 ≤ (Number.pick d).1) ∨ (Number.pick d).1 = 86400000000000 := by
    rw [Number.pick_eq]
    split
    · exact .inr rfl
    · left
      repeat' split
      all_goals (simp only; omega)
  obtain ⟨_, b2, b3⟩ := Number.countAbs_bounds h hu
  unfold Number.printDuration
  rw [if_neg (by omega), Number.count_eq]
  generalize (Number.pick d).1 = u at *
  have hlt : Number.countAbs d.natAbs u < 2 ^ 64 := by
    have hu1 : (1 : Rat) ≤ u := by
      have : 1 ≤ u := by omega
      exact_mod_cast this
    have h1 : (d.natAbs : Rat) / u ≤ d.natAbs := div_le_self (by positivity) hu1
    have h2 : (d.natAbs : Rat) < 2 ^ 63 := by exact_mod_cast h
    have : (1 : Rat) / 10 ^ 10 ≤ 1 := by norm_num
    have : (2 : Rat) ^ 63 + 1 < 2 ^ 64 := by norm_num
    linarith
  have h0 : 0 ≤ Number.countAbs d.natAbs u := le_trans (by positivity) b3
  generalize Number.countAbs d.natAbs u = c at *
  have habs : ∀ y : Rat, y < 2 ^ 64 → ∃ t, Number.printAbs 2 y = some t := by
    intro y hy; unfold Number.printAbs; rw [if_pos hy]; exact ⟨_, rfl⟩
  have : ∃ t, Number.printReal 2 (.fin ((if d < 0 then -1 else 1) * c)) = some t := by
    have hb : (if d < 0 then -1 else 1) * c < 2 ^ 64 ∧ -((if d < 0 then -1 else 1) * c) < 2 ^ 64 := by
      split <;> constructor <;> linarith
    generalize (if d < 0 then -1 else 1) * c = y at hb ⊢
    simp only [Number.printReal]
    split
    · obtain ⟨t, ht⟩ := habs _ hb.2
      rw [ht]; exact ⟨_, rfl⟩
    · exact habs _ hb.1
  obtain ⟨t, ht⟩ := this
  rw [ht]
  exact ⟨_, rfl⟩

end Verif.Json
