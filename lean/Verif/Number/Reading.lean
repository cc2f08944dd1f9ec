import Verif.Number.Lemmas
/-! Reading decimal numerals and durations back. -/
namespace Verif.Number
open Verif.DataText Verif.Data Verif.Calendar Verif.DataText.Spec Verif.Number.Spec

/-- A numeral in front of something. -/
def numText (neg : Bool) (ds fs : List Nat) (r : Str) : Str := (if neg then [ch '-'] else []) ++ (txt ds ++ (ch '.' :: (txt fs ++ r)))

theorem decimalText_eq (neg : Bool) (ds fs : List Nat) (r : Str) : decimalText neg ds fs ++ r = numText neg ds fs r := by
  simp [decimalText, numText, txt_digitText, show ch '-' = 45 from rfl, show ch '.' = 46 from rfl]

section
variable {ds fs : List Nat} (hd : Digits ds) (hf : Digits fs) (hl : ds.length ≤ 20) (hlf : fs.length ≤ 20) (neg : Bool)
include hd

theorem takeSign_num (r : Str) : takeSign (numText neg ds fs r) = (neg, txt ds ++ (ch '.' :: (txt fs ++ r))) := by
  cases neg
  · exact takeSign_txt ds hd.2 hd.1 _
  · rfl

theorem num_ne (r : Str) : numText neg ds fs r ≠ [] := by
  cases neg
  · exact txt_append_ne ds hd.1 _
  · simp [numText]

theorem ymd_num (env : Env) (r : Str) : ymdhmsP env (numText neg ds fs r) = none := by
  have h1 := takeDigits_txt 4 ds hd.2 (ch '.' :: (txt fs ++ r)) rfl
  have h2 : eat '-' (txt (ds.drop 4) ++ (ch '.' :: (txt fs ++ r))) = none := by
    cases hdr : ds.drop 4 with
    | nil => rfl
    | cons d es =>
      have : d ∈ ds := List.mem_of_mem_drop (i := 4) (by rw [hdr]; simp)
      have := digitChar_isDigit d (hd.2 d this)
      simp [txt, eat, digit_ne this '-' (by decide)]
  unfold ymdhmsP guarded fixedP
  rw [takeSign_num hd neg r, h1]
  split
  · rfl
  · rename_i y x hx
    split at hx
    · cases hx
    · rename_i v x' hx'
      split at hx'
      · cases hx'
      · split at hx'
        · injection hx' with hx'
          injection hx' with _ e
          split at hx
          · injection hx with hx
            injection hx with _ e'
            rw [← e', ← e, h2]; rfl
          · cases hx
        · cases hx'

theorem head_num (r : Str) : headNot (fun b => b == ch '@' || b == ch 'n' || b == ch 'i') (numText neg ds fs r) = true := by
  cases neg
  · exact head_special ds hd.2 hd.1 _
  · rfl

theorem time_num (env : Env) (r : Str) (ha : agoP env (numText neg ds fs r) = none) : timeP env (numText neg ds fs r) = none := by
  have h0 := head_num (fs := fs) hd neg r
  have a1 : eat '@' (numText neg ds fs r) = none := eat_none (headNot_mono h0 fun b hb => by simp_all)
  have a2 : eat 'n' (numText neg ds fs r) = none := eat_none (headNot_mono h0 fun b hb => by simp_all)
  have a3 : eat 'i' (numText neg ds fs r) = none := eat_none (headNot_mono h0 fun b hb => by simp_all)
  simp [timeP, ymd_num hd neg env r, unixP, a1, nowShiftP, kw_none a2, inP, kw_none a3, ha]

include hf hl hlf in
theorem realP_num (q : Bool) (r : Str) (hr : headNot isDigit r = true) : realP q (numText neg ds fs r) = some (⟨neg, ds, fs⟩, r) := by
  have h1 := takeDigits_all 20 ds hd.2 hl (ch '.' :: (txt fs ++ r)) rfl
  have h2 := takeDigits_all 20 fs hf.2 hlf r hr
  simp only [realP, takeSign_num hd neg r, h1, eat_cons, h2, if_neg (num_ne hd neg r), hd.1, false_and, if_false]

include hf in
theorem addr_num : addrP (numText neg ds fs []) = none := by
  have hcol : ch ':' ∉ numText neg ds fs [] := by
    intro h
    have e1 := txt_absent ds hd.2 ':' (by decide)
    have e2 := txt_absent fs hf.2 ':' (by decide)
    have e3 : ch ':' ≠ ch '.' := by decide
    have e4 : ch ':' ≠ ch '-' := by decide
    cases neg <;> simp [numText, e1, e2, e3, e4] at h
  apply addrP_none (eat_absent hcol)
  · generalize numText neg ds fs [] = s at *
    cases s with
    | nil => rfl
    | cons b s =>
      rw [h16c, h16]
      split
      · obtain ⟨p, hp⟩ := dropX_suffix 3 s
        rw [Option.bind_some]
        exact eat_absent (absent_suffix (fun h => hcol (by simp [h])) hp)
      · rfl
  · cases neg
    · have hdot : ∀ s p : Str, txt fs = p ++ s → eat '.' s = none := fun s p h => eat_absent (absent_suffix (txt_absent fs hf.2 '.' (by decide)) h)
      have h1 := takeDigits_txt 3 ds hd.2 (ch '.' :: (txt fs ++ [])) rfl
      have hs : numText false ds fs [] = txt ds ++ (ch '.' :: (txt fs ++ [])) := rfl
      have dec : ∀ {s v r}, decP s = some (v, r) → r = (takeDigits 3 s).2 := by
        intro s v r h
        unfold decP uintP at h
        split at h
        · cases h
        · rename_i v' r' hx
          split at hx
          · injection hx with hx
            injection hx with _ e
            split at h
            · injection h with h
              injection h with _ e'
              rw [← e', ← e]
            · cases h
          · cases hx
      unfold v4P
      split
      · rfl
      · rename_i a r ha
        have ha := dec ha
        rw [hs, h1] at ha
        subst ha
        split
        · rfl
        · rename_i b r hb
          cases hdr : ds.drop 3 with
          | cons d es =>
            have hm : d ∈ ds := List.mem_of_mem_drop (i := 3) (by rw [hdr]; simp)
            have := digitChar_isDigit d (hd.2 d hm)
            simp only [hdr] at hb
            simp [txt, eat, digit_ne this '.' (by decide)] at hb
          | nil =>
            simp only [hdr] at hb
            have e : eat '.' (txt [] ++ (ch '.' :: (txt fs ++ []))) = some (txt fs ++ []) := by simp [txt, eat_cons]
            rw [e, Option.bind_some, List.append_nil] at hb
            have hb := dec hb
            obtain ⟨p, hp⟩ := takeDigits_suffix 3 (txt fs)
            subst hb
            rw [hdot _ p hp]
            rfl
    · apply v4P_other; rfl

include hf hl hlf in
/-- A numeral alone is read as a number. -/
theorem toData_num (env : Env) : toData env (decimalText neg ds fs) = some (.real (env.real ⟨neg, ds, fs⟩)) := by
  have he : decimalText neg ds fs = numText neg ds fs [] := by rw [← decimalText_eq, List.append_nil]
  rw [he]
  have h1 := realP_num hd hf hl hlf neg false [] rfl
  have h2 := realP_num hd hf hl hlf neg true [] rfl
  have hdur : durationP env (numText neg ds fs []) = none := by
    simp only [durationP, durOneP, h1]
    rfl
  have hago : agoP env (numText neg ds fs []) = none := by simp [agoP, hdur]
  have h3 := time_num hd neg env [] hago
  have h4 := addr_num hd hf neg
  apply toData_some
  simp [alternatives, firstOf, as, h3, hdur, netP_none h4, h4, h2]

include hf hl hlf in
theorem durationP_num (env : Env) (name : String) (u : Nat) (hu : (name, u) ∈ Spec.units) :
    durationP env (decimalText neg ds fs ++ ascii name) = some (env.scale ⟨neg, ds, fs⟩ u, []) := by
  rw [decimalText_eq]
  have hn : headNot isDigit (ascii name) = true ∧ lookup DataText.units (skipWs (ascii name)) = some (u, []) := by
    simp only [Spec.units, List.mem_cons, List.not_mem_nil, or_false, Prod.mk.injEq] at hu
    rcases hu with ⟨rfl, rfl⟩ | ⟨rfl, rfl⟩ | ⟨rfl, rfl⟩ | ⟨rfl, rfl⟩ | ⟨rfl, rfl⟩ | ⟨rfl, rfl⟩ | ⟨rfl, rfl⟩ <;> exact ⟨by decide, by decide +kernel⟩
  have h1 := realP_num hd hf hl hlf neg false (ascii name) hn.1
  have hone : durOneP env (numText neg ds fs (ascii name)) = some (env.scale ⟨neg, ds, fs⟩ u, []) := by
    simp [durOneP, h1, hn.2]
  simp [durationP, hone, durLoop]

include hf hl hlf in
/-- A numeral with a unit is read as a duration. -/
theorem toData_dur (env : Env) (name : String) (u : Nat) (hu : (name, u) ∈ Spec.units) :
    toData env (decimalText neg ds fs ++ ascii name) = some (.duration (env.scale ⟨neg, ds, fs⟩ u)) := by
  have hdur := durationP_num hd hf hl hlf neg env name u hu
  rw [decimalText_eq] at hdur ⊢
  have hago : agoP env (numText neg ds fs (ascii name)) = none := by simp only [agoP, hdur]; rfl
  have h3 := time_num hd neg env (ascii name) hago
  apply toData_some
  simp [alternatives, firstOf, as, h3, hdur]

end

/-! Arithmetic -/

theorem litVal_num (neg : Bool) (n : Nat) (h : n < 2 ^ 53) : litVal ⟨neg, digits n, [0]⟩ = (if neg then -1 else 1) * (n : Rat) := by
  have h1 : dbl (digits n) = n := by rw [dbl_value _ (by rw [value_digits]; exact h), value_digits]
  have h2 : dbl [0] = 0 := by rw [dbl_value _ (by decide)]; rfl
  have h3 : rnd (0 / 10 ^ 1) = 0 := by decide +kernel
  have h4 : rnd (n : Rat) = n := rnd_small n h
  simp only [litVal, h1, h2, List.length_cons, List.length_nil]
  rw [h3, add_zero, h4]
  cases neg <;> simp

/-- An integer that is not greater stays so under rounding. -/
theorem rnd_ge {x : Rat} {m : Nat} (hm : (m : Rat) ≤ x) (h1 : x < 2 ^ 53) : (m : Rat) ≤ rnd x := by
  have h0 : (0 : Rat) ≤ x := le_trans (by exact_mod_cast Nat.zero_le m) hm
  unfold rnd
  rw [if_neg (not_lt.mpr h0)]
  unfold rndPos
  have hden : (0 : Rat) < x.den := by exact_mod_cast x.den_pos
  have hn0 : 0 ≤ x.num := Rat.num_nonneg.mpr h0
  have hx : x = (x.num.toNat : Rat) / x.den := by
    conv_lhs => rw [← Rat.num_div_den x]
    rw [show ((x.num.toNat : Nat) : Rat) = (x.num : Rat) by rw [← Int.cast_natCast, Int.toNat_of_nonneg hn0]]
  have hmul : m * x.den ≤ x.num.toNat := by
    have : (m : Rat) * x.den ≤ x.num.toNat := by
      rw [hx] at hm
      exact (le_div_iff₀ hden).mp hm
    exact_mod_cast this
  split
  · rename_i h
    have : x = 0 := Rat.num_eq_zero.mp h
    rw [this] at hm
    exact hm
  · have hlt : x.num.toNat < 2 ^ 53 * x.den := by
      have : (x.num.toNat : Rat) < 2 ^ 53 * x.den := by
        rw [hx] at h1
        exact (div_lt_iff₀ hden).mp h1
      exact_mod_cast this
    unfold rndFrac
    rw [if_pos hlt]
    generalize places x.num.toNat x.den = k
    have hk : (0 : Rat) < (2 ^ k : Nat) := by exact_mod_cast Nat.pow_pos (by omega)
    rw [le_div_iff₀ hk]
    have : m * 2 ^ k ≤ nearest (x.num.toNat * 2 ^ k) x.den := by
      have hq : m * 2 ^ k ≤ x.num.toNat * 2 ^ k / x.den := by
        rw [Nat.le_div_iff_mul_le x.den_pos]
        calc m * 2 ^ k * x.den = m * x.den * 2 ^ k := by ring
          _ ≤ x.num.toNat * 2 ^ k := Nat.mul_le_mul_right _ hmul
      unfold nearest
      simp only
      split <;> omega
    exact_mod_cast this

/-- The same for large integers. -/
theorem rnd_ge_nat (m b n : Nat) (hn : n < 2 ^ (53 + b)) (h : m * 2 ^ b ≤ n) : ((m * 2 ^ b : Nat) : Rat) ≤ rnd n := by
  by_cases hs : n < 2 ^ 53
  · rw [rnd_small n hs]; exact_mod_cast h
  · have h53 : 2 ^ 53 ≤ n := by omega
    have h0 : ¬ ((n : Rat) < 0) := not_lt.mpr (by exact_mod_cast Nat.zero_le n)
    unfold rnd
    rw [if_neg h0]
    unfold rndPos
    have e1 : (n : Rat).num = n := by simp
    have e2 : (n : Rat).den = 1 := by simp
    rw [e1, e2, if_neg (by omega)]
    unfold rndFrac
    rw [Int.toNat_natCast, if_neg (by omega)]
    have hl := lost_le n b h53 hn
    generalize lost n 1 = j at *
    have hp : 0 < 2 ^ j := Nat.pow_pos (by omega)
    have hb : 2 ^ b = 2 ^ (b - j) * 2 ^ j := by rw [← Nat.pow_add]; congr 1; omega
    have hq : m * 2 ^ (b - j) ≤ n / 2 ^ j := by
      rw [Nat.le_div_iff_mul_le hp, Nat.mul_assoc, ← hb]; exact h
    have : m * 2 ^ (b - j) ≤ nearest n (1 * 2 ^ j) := by
      rw [Nat.one_mul]
      unfold nearest
      simp only
      split <;> omega
    have := Nat.mul_le_mul_right (2 ^ j) this
    rw [Nat.mul_assoc, ← hb] at this
    exact_mod_cast this

end Verif.Number
