import Verif.SynopsisStore.Model
import Verif.Number.Reading
import Verif.Zeek.Cells
import Mathlib.Data.Nat.Prime.Basic
/-! # The text of the parameters of a Bloom filter -/
namespace Verif.SynopsisStore
open Verif.Data Verif.DataText Verif.Calendar Verif.Number Verif.DataText.Spec

/-! ## `double`s stay as they are when they are rounded -/

theorem rnd_dyadic (m e : Nat) (hm : m < 2 ^ 53) : rnd ((m : Rat) / (2 ^ e : Nat)) = (m : Rat) / (2 ^ e : Nat) := by
  have hE : (0 : Rat) < (2 ^ e : Nat) := by exact_mod_cast Nat.two_pow_pos e
  generalize hx : (m : Rat) / (2 ^ e : Nat) = x
  have hxe : x * (2 ^ e : Nat) = m := by rw [← hx]; field_simp
  have h0 : 0 ≤ x := by rw [← hx]; exact div_nonneg (by exact_mod_cast Nat.zero_le m) hE.le
  unfold rnd
  rw [if_neg (not_lt.mpr h0)]
  unfold rndPos
  split
  · rename_i h
    exact (Rat.num_eq_zero.mp h).symm
  · rename_i hne
    have hnum : 0 < x.num := by
      have := Rat.num_nonneg.mpr h0
      omega
    obtain ⟨n, hn⟩ : ∃ n : Nat, x.num = n := ⟨x.num.toNat, by omega⟩
    simp only [hn, Int.toNat_natCast]
    have hn0 : 0 < n := by omega
    have hd : 0 < x.den := x.den_pos
    have hxd : x * x.den = n := by
      have := Rat.mul_den_eq_num x
      rw [this, hn]; norm_cast
    have hdvd : x.den ∣ 2 ^ e := by
      have h := Rat.den_dvd (m : Int) ((2 ^ e : Nat) : Int)
      have hx' : ((m : Int) : Rat) / (((2 ^ e : Nat) : Int) : Rat) = x := by rw [← hx, Int.cast_natCast, Int.cast_natCast]
      rw [Rat.divInt_eq_div, hx'] at h
      exact_mod_cast h
    obtain ⟨f, hfe, hf⟩ := (Nat.dvd_prime_pow Nat.prime_two).mp hdvd
    rw [hf] at hxd ⊢
    have hnm : n * 2 ^ e = m * 2 ^ f := by
      have : (n : Rat) * (2 ^ e : Nat) = m * (2 ^ f : Nat) := by rw [← hxd, ← hxe]; ring
      exact_mod_cast this
    have hle : n ≤ m := by
      have h2 : 2 ^ f ≤ 2 ^ e := Nat.pow_le_pow_right (by omega) hfe
      have h3 : n * 2 ^ f ≤ m * 2 ^ f := by rw [← hnm]; exact Nat.mul_le_mul_left _ h2
      exact Nat.le_of_mul_le_mul_right h3 (Nat.two_pow_pos f)
    have hlt : n < 2 ^ 53 * 2 ^ f := by
      have := Nat.two_pow_pos f
      calc n < 2 ^ 53 := by omega
        _ ≤ 2 ^ 53 * 2 ^ f := Nat.le_mul_of_pos_right _ this
    rw [rndFrac, if_pos hlt]
    have hp := places_ge n (2 ^ f) hn0 (Nat.two_pow_pos f) hlt
    generalize places n (2 ^ f) = k at *
    have hfk : f ≤ k := by
      by_contra hc
      have h1 : n * 2 ^ k < 2 ^ 53 * 2 ^ k := Nat.mul_lt_mul_of_pos_right (by omega) (Nat.two_pow_pos k)
      have h2 : 2 ^ 52 * 2 ^ (k + 1) ≤ 2 ^ 52 * 2 ^ f := Nat.mul_le_mul_left _ (Nat.pow_le_pow_right (by omega) (by omega))
      rw [Nat.pow_succ] at h2
      omega
    have hs : n * 2 ^ k = n * 2 ^ (k - f) * 2 ^ f := by
      rw [Nat.mul_assoc, ← Nat.pow_add]
      congr 2
      omega
    rw [hs, nearest_exact _ _ (Nat.two_pow_pos f)]
    have hK : (0 : Rat) < (2 ^ k : Nat) := by exact_mod_cast Nat.two_pow_pos k
    rw [div_eq_iff hK.ne']
    have : ((2 ^ k : Nat) : Rat) = (2 ^ (k - f) : Nat) * (2 ^ f : Nat) := by
      rw [← Nat.cast_mul, ← Nat.pow_add]
      congr 2
      omega
    rw [this, Nat.cast_mul, ← hxd]
    ring

theorem rnd_rnd {x : Rat} (h0 : 0 ≤ x) (h1 : x < 2 ^ 52) : rnd (rnd x) = rnd x := by
  have hr : ∃ q k : Nat, q ≤ 2 ^ 53 ∧ 0 < k ∧ rnd x = (q : Rat) / (2 ^ k : Nat) := by
    unfold rnd
    rw [if_neg (not_lt.mpr h0)]
    unfold rndPos
    split
    · exact ⟨0, 1, by omega, by omega, by norm_num⟩
    · rename_i hne
      have hnum : 0 < x.num := by
        have := Rat.num_nonneg.mpr h0
        omega
      obtain ⟨n, hn⟩ : ∃ n : Nat, x.num = n := ⟨x.num.toNat, by omega⟩
      simp only [hn, Int.toNat_natCast]
      have hd : 0 < x.den := x.den_pos
      have hxd : x * x.den = n := by
        have := Rat.mul_den_eq_num x
        rw [this, hn]; norm_cast
      have hlt : n < 2 ^ 52 * x.den := by
        have hdq : (0 : Rat) < x.den := by exact_mod_cast hd
        have : (n : Rat) < 2 ^ 52 * x.den := by rw [← hxd]; exact mul_lt_mul_of_pos_right h1 hdq
        exact_mod_cast this
      rw [rndFrac, if_pos (by omega)]
      have hp := places_ge n x.den (by omega) hd (by omega)
      have hlt' : n * 2 ^ places n x.den ≤ 2 ^ 53 * x.den := by
        unfold places
        simp only
        split
        · omega
        · rename_i hge
          by_cases hz : 53 + x.den.log2 - n.log2 = 0
          · rw [hz] at hge ⊢; omega
          · have a1 := Nat.log2_self_le (n := x.den) (by omega)
            have a2 : n < 2 ^ (n.log2 + 1) := Nat.lt_log2_self
            generalize n.log2 = a at *
            generalize x.den.log2 = b at *
            have hm : n * 2 ^ (53 + b - a - 1) ≤ 2 ^ (a + 1) * 2 ^ (53 + b - a - 1) := Nat.mul_le_mul_right _ a2.le
            rw [← Nat.pow_add, show a + 1 + (53 + b - a - 1) = 53 + b by omega, Nat.pow_add] at hm
            calc _ ≤ 2 ^ 53 * 2 ^ b := hm
              _ ≤ _ := Nat.mul_le_mul_left _ a1
      have hb := (nearest_bounds (n * 2 ^ places n x.den) x.den hd).1
      refine ⟨_, places n x.den, ?_, ?_, rfl⟩
      · generalize nearest _ _ = q at *
        generalize n * 2 ^ places n x.den = z at *
        have h2 : 2 * q * x.den ≤ (2 * 2 ^ 53 + 1) * x.den := by
          rw [Nat.add_mul, Nat.mul_assoc, Nat.mul_assoc]
          omega
        have := Nat.le_of_mul_le_mul_right h2 hd
        omega
      · rcases Nat.eq_zero_or_pos (places n x.den) with h | h
        · rw [h] at hp; omega
        · exact h
  obtain ⟨q, k, hq, hk, hr⟩ := hr
  rw [hr]
  by_cases h : q < 2 ^ 53
  · exact rnd_dyadic q k h
  · have he : q = 2 ^ 52 * 2 := by omega
    obtain ⟨j, rfl⟩ : ∃ j, k = j + 1 := ⟨k - 1, by omega⟩
    have : (q : Rat) / (2 ^ (j + 1) : Nat) = ((2 ^ 52 : Nat) : Rat) / (2 ^ j : Nat) := by
      rw [he, Nat.cast_mul, Nat.pow_succ 2 j, Nat.cast_mul]
      have hJ : (0 : Rat) < (2 ^ j : Nat) := by exact_mod_cast Nat.two_pow_pos j
      field_simp
    rw [this]
    exact rnd_dyadic _ j (by omega)

/-! ## The text -/

/-- The `double` that is nearest to so many millionths. -/
def millionths (i : Nat) : Rat := rnd ((i : Rat) / (10 ^ 6 : Nat))

theorem millionths_bounds {i : Nat} (h : i ≤ 10 ^ 6) : |millionths i - (i : Rat) / (10 ^ 6 : Nat)| ≤ 1 / 2 ^ 53 := by
  have h1 : (i : Rat) / (10 ^ 6 : Nat) ≤ 1 := by
    rw [div_le_one (by norm_num)]
    exact_mod_cast h
  have h0 : (0 : Rat) ≤ (i : Rat) / (10 ^ 6 : Nat) := by positivity
  unfold millionths
  generalize (i : Rat) / (10 ^ 6 : Nat) = x at *
  have hb := rnd_bounds h0 (by linarith)
  have : x / 2 ^ 53 ≤ 1 / 2 ^ 53 := by apply div_le_div_of_nonneg_right h1; norm_num
  rw [abs_le]
  constructor <;> linarith

theorem millionths_nonneg {i : Nat} (h : i ≤ 10 ^ 6) : 0 ≤ millionths i := by
  refine rnd_nonneg (by positivity) ?_
  have : (i : Rat) / (10 ^ 6 : Nat) ≤ 1 := by
    rw [div_le_one (by norm_num)]
    exact_mod_cast h
  linarith

theorem nearest_millionths {i : Nat} (h : i ≤ 10 ^ 6) : nearest ((millionths i).num.natAbs * 10 ^ 6) (millionths i).den = i := by
  have hb := millionths_bounds h
  have h0 := millionths_nonneg h
  generalize millionths i = p at *
  have hd : 0 < p.den := p.den_pos
  have hN : p * p.den = p.num.natAbs := by
    have h1 := Rat.mul_den_eq_num p
    have h2 : (p.num.natAbs : Int) = p.num := Int.natAbs_of_nonneg (Rat.num_nonneg.mpr h0)
    rw [h1, ← Int.cast_natCast, h2]
  obtain ⟨b1, b2⟩ := nearest_bounds (p.num.natAbs * 10 ^ 6) p.den hd
  generalize nearest (p.num.natAbs * 10 ^ 6) p.den = q at *
  have hdq : (0 : Rat) < p.den := by exact_mod_cast hd
  have c1 : 2 * ((q : Rat) * p.den) ≤ 2 * ((p.num.natAbs : Rat) * 10 ^ 6) + p.den := by exact_mod_cast b1
  have c2 : 2 * ((p.num.natAbs : Rat) * 10 ^ 6) ≤ 2 * ((q : Rat) * p.den) + p.den := by exact_mod_cast b2
  rw [← hN] at c1 c2
  have d1 : 2 * (q : Rat) ≤ 2 * (p * 10 ^ 6) + 1 := by
    apply le_of_mul_le_mul_right _ hdq
    linarith
  have d2 : 2 * (p * 10 ^ 6) ≤ 2 * (q : Rat) + 1 := by
    apply le_of_mul_le_mul_right _ hdq
    linarith
  rw [abs_le] at hb
  have e1 : p * 10 ^ 6 ≤ i + 10 ^ 6 / 2 ^ 53 := by
    have := hb.2
    have h3 : (i : Rat) / (10 ^ 6 : Nat) * 10 ^ 6 = i := by norm_num
    linarith [mul_le_mul_of_nonneg_right this (by norm_num : (0 : Rat) ≤ 10 ^ 6)]
  have e2 : (i : Rat) - 10 ^ 6 / 2 ^ 53 ≤ p * 10 ^ 6 := by
    have := hb.1
    have h3 : (i : Rat) / (10 ^ 6 : Nat) * 10 ^ 6 = i := by norm_num
    linarith [mul_le_mul_of_nonneg_right this (by norm_num : (0 : Rat) ≤ 10 ^ 6)]
  have f1 : (q : Rat) < i + 1 := by linarith [show (10 : Rat) ^ 6 / 2 ^ 53 < 1 / 2 by norm_num]
  have f2 : (i : Rat) < q + 1 := by linarith [show (10 : Rat) ^ 6 / 2 ^ 53 < 1 / 2 by norm_num]
  have g1 : q < i + 1 := by exact_mod_cast f1
  have g2 : i < q + 1 := by exact_mod_cast f2
  omega

theorem sixDigits_text {p : Rat} (hp : 0 ≤ p) (r : Str) : ∃ i, i = nearest (p.num.natAbs * 10 ^ 6) p.den ∧
    sixDigits p ++ r = numText false (digits (i / 10 ^ 6)) (pd 6 (i % 10 ^ 6)) r := by
  refine ⟨_, rfl, ?_⟩
  unfold sixDigits
  simp only [if_neg (not_lt.mpr hp), numText]
  generalize nearest _ _ = i
  rw [padNat_field 6 _ (by omega) (Nat.mod_lt _ (by omega)), field_txt, printNat_eq]
  simp

theorem litVal_millionths (i : Nat) (h : i ≤ 10 ^ 6) : litVal ⟨false, digits (i / 10 ^ 6), pd 6 (i % 10 ^ 6)⟩ = millionths i := by
  have hm : i % 10 ^ 6 < 10 ^ 6 := Nat.mod_lt _ (by omega)
  have hv : numeral (pd 6 (i % 10 ^ 6)) = i % 10 ^ 6 := by rw [← value_numeral, value_pd 6 _ hm]
  rw [Zeek.litVal_eq false (by rw [numeral_digits]; omega) (pd_lt _ _) (by rw [pd_length]; omega), numeral_digits, hv, pd_length]
  unfold millionths
  simp only [Bool.false_eq_true, if_false, one_mul]
  by_cases hi : i < 10 ^ 6
  · rw [Nat.div_eq_of_lt hi, Nat.mod_eq_of_lt hi]
    have e : ((10 : Rat) ^ 6) = (10 ^ 6 : Nat) := by norm_num
    rw [e, Nat.cast_zero, zero_add]
    refine rnd_rnd (by positivity) ?_
    have : (i : Rat) / (10 ^ 6 : Nat) ≤ 1 := by
      rw [div_le_one (by norm_num)]
      exact_mod_cast h
    linarith
  · have : i = 10 ^ 6 := by omega
    subst this
    decide +kernel

theorem digits_length_le (n : Nat) (h : n < 10 ^ 20) : (digits n).length ≤ 20 := by
  unfold digits
  split
  · simp
  · rename_i h0
    have := (pos_bounds n (by omega)).1
    by_contra hc
    have h2 : 10 ^ 20 ≤ 10 ^ ((posDigits n).length - 1) := Nat.pow_le_pow_right (by omega) (by omega)
    omega

theorem kw_append (s : String) (r : Str) : kw s.toList (str s ++ r) = some r := by
  have : ∀ cs : List Char, kw cs (cs.map ch ++ r) = some r := by
    intro cs
    induction cs with
    | nil => rfl
    | cons c cs ih => simp [kw, eat, ih]
  exact this s.toList

/-- What is written is read again, up to six digits. -/
theorem parse_annotate (n : Nat) (hn : n < 2 ^ 64) {p : Rat} (hp : 0 ≤ p) (hp1 : nearest (p.num.natAbs * 10 ^ 6) p.den ≤ 10 ^ 6) :
    parseText (str "bloomfilter(" ++ printNat n ++ [ch ','] ++ sixDigits p ++ [ch ')']) =
      some (n, millionths (nearest (p.num.natAbs * 10 ^ 6) p.den)) := by
  obtain ⟨i, hi, ht⟩ := sixDigits_text hp [ch ')']
  rw [← hi] at hp1 ⊢
  have e : str "bloomfilter(" ++ printNat n ++ [ch ','] ++ sixDigits p ++ [ch ')'] =
      str "bloomfilter(" ++ (txt (digits n) ++ (ch ',' :: numText false (digits (i / 10 ^ 6)) (pd 6 (i % 10 ^ 6)) [ch ')'])) := by
    rw [← ht, printNat_eq]; simp
  rw [e]
  unfold parseText
  rw [kw_append, Option.bind_some]
  have h1 : uintP 64 20 1 (txt (digits n) ++ (ch ',' :: numText false (digits (i / 10 ^ 6)) (pd 6 (i % 10 ^ 6)) [ch ')'])) =
      some (n, ch ',' :: numText false (digits (i / 10 ^ 6)) (pd 6 (i % 10 ^ 6)) [ch ')']) := by
    unfold uintP
    rw [takeDigits_all 20 (digits n) (digits_lt n) (digits_length_le n (by omega)) _ rfl]
    have hl : 1 ≤ (digits n).length := by
      have := digits_ne_nil n
      cases h : digits n with
      | nil => exact absurd h this
      | cons a l => simp
    rw [if_pos hl, value_digits, Nat.mod_eq_of_lt hn]
  have hne : pd 6 (i % 10 ^ 6) ≠ [] := by
    intro h
    have := congrArg List.length h
    rw [pd_length] at this
    cases this
  have h2 := realP_num (digits_ok (i / 10 ^ 6)) (fs := pd 6 (i % 10 ^ 6)) ⟨hne, pd_lt _ _⟩ (digits_length_le _ (by omega)) (by rw [pd_length]; omega) false false [ch ')'] rfl
  simp only [h1, Option.bind_some, eat_cons, h2, litVal_millionths i hp1, if_true]

end Verif.SynopsisStore
