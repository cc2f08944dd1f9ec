import Verif.Calendar.Text
import Verif.Calendar.TextSpec
import Verif.Calendar.Lemmas
import Verif.Calendar.DoubleLemmas
import Verif.DataText.Numbers
/-!
# Lemmas about the text of times
-/
namespace Verif.Calendar
open Verif.DataText Verif.Data

/-- The last `k` decimal digits. -/
def pd : Nat → Nat → List Nat
  | 0, _ => []
  | k + 1, x => pd k (x / 10) ++ [x % 10]

theorem field_txt (k x : Nat) : field k x = txt (pd k x) := by
  induction k generalizing x with
  | zero => rfl
  | succ k ih => simp [field, pd, ih, txt, digitChar]

theorem pd_length (k x : Nat) : (pd k x).length = k := by
  induction k generalizing x with
  | zero => rfl
  | succ k ih => simp [pd, ih]

theorem pd_lt (k x : Nat) : ∀ d ∈ pd k x, d < 10 := by
  induction k generalizing x with
  | zero => simp [pd]
  | succ k ih =>
    intro d hd
    simp only [pd, List.mem_append, List.mem_singleton] at hd
    rcases hd with hd | hd
    · exact ih _ d hd
    · omega

theorem value_pd (k x : Nat) (h : x < 10 ^ k) : value (pd k x) = x := by
  induction k generalizing x with
  | zero => simp [pd, value]; omega
  | succ k ih =>
    rw [pd, value_snoc, ih (x / 10) (by rw [Nat.pow_succ] at h; omega)]
    omega

theorem pad_pos (w x : Nat) (h : x < 10 ^ w) : List.replicate (w - (posDigits x).length) 0 ++ posDigits x = pd w x := by
  induction w generalizing x with
  | zero =>
    have : x = 0 := by simpa using h
    subst this
    rw [posDigits]; simp [pd]
  | succ w ih =>
    rw [posDigits]
    split
    · rename_i h0
      subst h0
      have := ih 0 (Nat.pow_pos (by omega))
      rw [posDigits] at this
      simp only [if_true, List.length_nil, Nat.sub_zero, List.append_nil] at this ⊢
      rw [pd, ← this, List.replicate_succ']
    · have := ih (x / 10) (by rw [Nat.pow_succ] at h; omega)
      rw [pd, ← this]
      simp

theorem padNat_field (w x : Nat) (hw : 0 < w) (h : x < 10 ^ w) : padNat w x = field w x := by
  have hz : ∀ n, List.replicate n (ch '0') = txt (List.replicate n 0) := by
    intro n; simp [txt]; right; rfl
  have hl : (txt (digits x)).length = (digits x).length := by simp [txt]
  rw [padNat, field_txt, printNat_eq, hl, hz]
  have : txt (List.replicate (w - (digits x).length) 0) ++ txt (digits x)
      = txt (List.replicate (w - (digits x).length) 0 ++ digits x) := by simp [txt]
  rw [this, ← pad_pos w x h]
  unfold digits
  split
  · rename_i h0
    subst h0
    congr 1
    rw [posDigits]
    obtain ⟨v, rfl⟩ : ∃ v, w = v + 1 := ⟨w - 1, by omega⟩
    simp [List.replicate_succ']
  · rfl

theorem printNat_field (x : Nat) (h : 1000 ≤ x) (h' : x < 10000) : printNat x = field 4 x := by
  have := padNat_field 4 x (by omega) (by omega)
  rw [padNat] at this
  have hl : 4 ≤ (printNat x).length := by
    rw [printNat_eq, digits, if_neg (by omega)]
    rw [posDigits, if_neg (by omega), posDigits, if_neg (by omega), posDigits, if_neg (by omega), posDigits, if_neg (by omega)]
    simp [txt]
  rw [show 4 - (printNat x).length = 0 by omega] at this
  simpa using this

theorem printSub_fraction (sub : Nat) (h : sub < 10 ^ 9) : Fraction sub (printSub sub) := by
  unfold printSub
  split
  · rename_i h0; subst h0; exact .none
  · split
    · rename_i h0 h1
      rw [padNat_field 3 _ (by omega) (by omega)]
      have := Fraction.milli (f := sub / 1000000) (by omega) (by omega)
      rwa [show sub / 1000000 * 10 ^ 6 = sub by omega] at this
    · split
      · rename_i h0 h1 h2
        rw [padNat_field 6 _ (by omega) (by omega)]
        have := Fraction.micro (f := sub / 1000) (by omega) (by omega)
        rwa [show sub / 1000 * 10 ^ 3 = sub by omega] at this
      · rename_i h0 h1 h2
        rw [padNat_field 9 _ (by omega) (by omega)]
        exact .nano (by omega) (by omega)

/-! Reading fields -/

theorem takeDigits_exact (ds : List Nat) (hd : ∀ d ∈ ds, d < 10) (r : Str) : takeDigits ds.length (txt ds ++ r) = (ds, r) := by
  induction ds with
  | nil => rfl
  | cons d ds ih =>
    have h1 := digitChar_isDigit d (hd d (by simp))
    have h2 := digitChar_val d (hd d (by simp))
    have h3 := ih fun x hx => hd x (by simp [hx])
    simp only [txt, List.map_cons, List.cons_append, List.length_cons, takeDigits, h1, if_true, h2] at *
    rw [h3]

theorem pd_ne (k x : Nat) (hk : 0 < k) : pd k x ≠ [] := by
  intro h
  have := pd_length k x
  rw [h] at this
  simp at this
  omega

theorem guarded_field (k x : Nat) (lo hi : Int) (hk : 0 < k) (h : x < 10 ^ k) (r : Str) :
    guarded k lo hi (field k x ++ r) = if lo ≤ (x : Int) ∧ (x : Int) ≤ hi then some ((x : Int), r) else none := by
  have h1 := takeSign_txt (pd k x) (pd_lt k x) (pd_ne k x hk) r
  have h2 := takeDigits_exact (pd k x) (pd_lt k x) r
  have h3 := txt_append_ne (pd k x) (pd_ne k x hk) r
  rw [pd_length] at h2
  rw [field_txt]
  simp only [guarded, fixedP, h1, h2, if_neg h3, pd_length, if_true, value_pd k x h]
  simp

/-- Characters with which a time could go on. -/
def goesOn (b : UInt8) : Bool := isDigit b || b == ch '.' || b == ch 'Z' || b == ch '+' || b == ch '-'

theorem goesOn_eat {r : Str} {c : Char} (h : headNot goesOn r = true) (hc : goesOn (ch c) = true) : eat c r = none := by
  apply eat_none
  refine headNot_mono h fun b hb => ?_
  simp only [beq_iff_eq] at hb
  rw [hb]; exact hc

theorem goesOn_digit {r : Str} (h : headNot goesOn r = true) : headNot isDigit r = true :=
  headNot_mono h fun b hb => by simp [goesOn, hb]

/-- Seconds without a fraction. -/
theorem realP_whole (x : Nat) (r : Str) (h : headNot isDigit r = true) (h' : eat '.' r = none) :
    realP false (field 2 x ++ r) = some (⟨false, pd 2 x, []⟩, r) := by
  have hs := takeSign_txt (pd 2 x) (pd_lt 2 x) (pd_ne 2 x (by omega)) r
  have h1 := takeDigits_all 20 (pd 2 x) (pd_lt 2 x) (by rw [pd_length]; omega) r h
  have h2 := takeDigits_stop 20 r h
  have h3 := txt_append_ne (pd 2 x) (pd_ne 2 x (by omega)) r
  rw [field_txt]
  simp [realP, hs, h1, h2, h', h3, pd_ne 2 x (by omega)]

/-- Seconds with a fraction. -/
theorem realP_frac (x k f : Nat) (hk : k ≤ 20) (r : Str) (h : headNot isDigit r = true) :
    realP false (field 2 x ++ (ch '.' :: (field k f ++ r))) = some (⟨false, pd 2 x, pd k f⟩, r) := by
  have hs := takeSign_txt (pd 2 x) (pd_lt 2 x) (pd_ne 2 x (by omega)) (ch '.' :: (txt (pd k f) ++ r))
  have h1 := takeDigits_all 20 (pd 2 x) (pd_lt 2 x) (by rw [pd_length]; omega) (ch '.' :: (txt (pd k f) ++ r)) rfl
  have h2 := takeDigits_all 20 (pd k f) (pd_lt k f) (by rw [pd_length]; omega) r h
  have h3 := txt_append_ne (pd 2 x) (pd_ne 2 x (by omega)) (ch '.' :: (txt (pd k f) ++ r))
  rw [field_txt, field_txt]
  simp only [realP, hs, h1, eat_cons, h2, if_neg h3, pd_ne 2 x (by omega), false_and, if_false]

/-! Values of literals -/

theorem foldl_mono (ds : List Nat) (a : Nat) : a ≤ ds.foldl (fun a d => a * 10 + d) a := by
  induction ds generalizing a with
  | nil => exact Nat.le_refl a
  | cons d ds ih =>
    have := ih (a * 10 + d)
    simp only [List.foldl_cons]
    omega

theorem dbl_foldl (ds : List Nat) (a : Nat) (h : ds.foldl (fun a d => a * 10 + d) a < 2 ^ 53) :
    ds.foldl (fun (a : Rat) (d : Nat) => rnd (rnd (a * 10) + d)) (a : Rat) = (ds.foldl (fun a d => a * 10 + d) a : Nat) := by
  induction ds generalizing a with
  | nil => rfl
  | cons d ds ih =>
    simp only [List.foldl_cons] at h ⊢
    have hm := foldl_mono ds (a * 10 + d)
    have h1 : rnd ((a : Rat) * 10) = ((a * 10 : Nat) : Rat) := by
      rw [← rnd_small (a * 10) (by omega)]; congr 1; push_cast; ring
    have h2 : rnd (((a * 10 : Nat) : Rat) + d) = ((a * 10 + d : Nat) : Rat) := by
      rw [← rnd_small (a * 10 + d) (by omega)]; congr 1; push_cast; ring
    rw [h1, h2]
    exact ih (a * 10 + d) h

theorem dbl_value (ds : List Nat) (h : value ds < 2 ^ 53) : dbl ds = value ds := by
  have := dbl_foldl ds 0 h
  exact_mod_cast this

theorem litVal_whole (ds : List Nat) (h : value ds < 2 ^ 53) : litVal ⟨false, ds, []⟩ = value ds := by
  have h0 : dbl [] = 0 := rfl
  have h1 : rnd 0 = 0 := by have := rnd_small 0 (by omega); simpa using this
  simp only [litVal, dbl_value ds h, h0, zero_div, h1, add_zero, rnd_small _ h]
  simp

theorem litVal_pd (x k f : Nat) (hx : x < 100) (hf : f < 10 ^ k) (hk : k ≤ 9) :
    litVal ⟨false, pd 2 x, pd k f⟩ = rnd (x + rnd (f / (10 ^ k : Nat))) := by
  have hp : 10 ^ k ≤ 10 ^ 9 := Nat.pow_le_pow_right (by omega) hk
  have h1 := value_pd 2 x (by omega)
  have h2 := value_pd k f hf
  simp only [litVal, pd_length, dbl_value (pd 2 x) (by omega), dbl_value (pd k f) (by omega), h1, h2]
  simp

theorem secOk_pd (x k f : Nat) (hx : x < 60) (hf : f < 10 ^ k) (hk : k ≤ 9) : secOk ⟨false, pd 2 x, pd k f⟩ = true := by
  have hp : 10 ^ k ≤ 10 ^ 9 := Nat.pow_le_pow_right (by omega) hk
  rw [secOk, litVal_pd x k f (by omega) hf hk]
  have hp0 : 0 < 10 ^ k := Nat.pow_pos (by omega)
  generalize 10 ^ k = p at *
  have hpq : (0 : Rat) < p := by exact_mod_cast hp0
  have hfq : (f : Rat) / p ≤ 1 - 1 / 10 ^ 9 := by
    rw [div_le_iff₀ hpq]
    have e1 : (f : Rat) + 1 ≤ p := by exact_mod_cast hf
    have e2 : (p : Rat) ≤ 10 ^ 9 := by exact_mod_cast hp
    have e3 : (1 - 1 / 10 ^ 9 : Rat) * p = p - p / 10 ^ 9 := by ring
    have e4 : (p : Rat) / 10 ^ 9 ≤ 1 := by rw [div_le_one (by norm_num)]; exact e2
    rw [e3]; linarith
  have hf0 : (0 : Rat) ≤ f / p := div_nonneg (by exact_mod_cast Nat.zero_le f) hpq.le
  have hsq : (x : Rat) ≤ 59 := by exact_mod_cast (show x ≤ 59 by omega)
  have hs0 : (0 : Rat) ≤ x := by exact_mod_cast Nat.zero_le x
  generalize (f : Rat) / p = g at *
  obtain ⟨u1, u2, u3⟩ := rnd_abs (x := g) (B := 1) hf0 (by linarith) (by norm_num) (e := 1 / 10 ^ 15) (by norm_num)
  generalize rnd g = u at *
  obtain ⟨v1, v2, v3⟩ := rnd_abs (x := x + u) (B := 61) (by linarith) (by linarith) (by norm_num) (e := 1 / 10 ^ 13) (by norm_num)
  simp only [Bool.and_eq_true, decide_eq_true_eq]
  exact ⟨v3, by linarith⟩

theorem secOk_whole (x : Nat) (hx : x ≤ 60) : secOk ⟨false, pd 2 x, []⟩ = true := by
  have h1 := value_pd 2 x (by omega)
  rw [secOk, litVal_whole _ (by omega), h1]
  have e1 : (x : Rat) ≤ 60 := by exact_mod_cast hx
  have e2 : (0 : Rat) ≤ x := by exact_mod_cast Nat.zero_le x
  simp only [Bool.and_eq_true, decide_eq_true_eq]
  exact ⟨e2, e1⟩

/-! Whole texts -/

section
variable (env : Env)

theorem ymd_time (y m d h mi : Nat) (hy : 1900 ≤ y ∧ y ≤ 9999) (hm : 1 ≤ m ∧ m ≤ 12) (hd : 1 ≤ d ∧ d ≤ 31) (hh : h ≤ 23)
    (hmi : mi ≤ 59) (q : Str) :
    ymdhmsP env (dateText y m d ++ (ch 'T' :: (field 2 h ++ (ch ':' :: (field 2 mi ++ q)))))
      = some (env.civil y m d h mi (secPart env q).1 (zonePart (secPart env q).2).1, (zonePart (secPart env q).2).2) := by
  have e1 : ∀ r, guarded 4 1900 9999 (field 4 y ++ r) = some ((y : Int), r) := fun r => by
    rw [guarded_field 4 y _ _ (by omega) (by omega), if_pos (by omega)]
  have e2 : ∀ r, guarded 2 1 12 (field 2 m ++ r) = some ((m : Int), r) := fun r => by
    rw [guarded_field 2 m _ _ (by omega) (by omega), if_pos (by omega)]
  have e3 : ∀ r, guarded 2 1 31 (field 2 d ++ r) = some ((d : Int), r) := fun r => by
    rw [guarded_field 2 d _ _ (by omega) (by omega), if_pos (by omega)]
  have e4 : ∀ r, guarded 2 0 23 (field 2 h ++ r) = some ((h : Int), r) := fun r => by
    rw [guarded_field 2 h _ _ (by omega) (by omega), if_pos (by omega)]
  have e5 : ∀ r, guarded 2 0 59 (field 2 mi ++ r) = some ((mi : Int), r) := fun r => by
    rw [guarded_field 2 mi _ _ (by omega) (by omega), if_pos (by omega)]
  have e6 : ∀ r, divider (ch 'T' :: r) = some r := fun r => by
    have : eat '+' (ch 'T' :: r) = none := by simp [eat]; decide
    simp [divider, this, eat_cons]
  have hs : dateText y m d ++ (ch 'T' :: (field 2 h ++ (ch ':' :: (field 2 mi ++ q))))
      = field 4 y ++ (ch '-' :: (field 2 m ++ (ch '-' :: (field 2 d ++ (ch 'T' :: (field 2 h ++ (ch ':' :: (field 2 mi ++ q)))))))) := by
    simp [dateText]
  rw [hs]
  simp only [ymdhmsP, e1, eat_cons, Option.bind_some, e2, dayPart, e3, hourPart, e6, e4, minPart, e5]

theorem ymd_date (y m d : Nat) (hy : 1900 ≤ y ∧ y ≤ 9999) (hm : 1 ≤ m ∧ m ≤ 12) (hd : 1 ≤ d ∧ d ≤ 31) :
    ymdhmsP env (dateText y m d) = some (env.civil y m d 0 0 none 0, []) := by
  have e1 : ∀ r, guarded 4 1900 9999 (field 4 y ++ r) = some ((y : Int), r) := fun r => by
    rw [guarded_field 4 y _ _ (by omega) (by omega), if_pos (by omega)]
  have e2 : ∀ r, guarded 2 1 12 (field 2 m ++ r) = some ((m : Int), r) := fun r => by
    rw [guarded_field 2 m _ _ (by omega) (by omega), if_pos (by omega)]
  have e3 : ∀ r, guarded 2 1 31 (field 2 d ++ r) = some ((d : Int), r) := fun r => by
    rw [guarded_field 2 d _ _ (by omega) (by omega), if_pos (by omega)]
  have hs : dateText y m d = field 4 y ++ (ch '-' :: (field 2 m ++ (ch '-' :: (field 2 d ++ [])))) := by
    simp [dateText]
  have e4 : hourPart env [] = ((0, 0, none, 0), []) := rfl
  rw [hs]
  simp only [ymdhmsP, e1, eat_cons, Option.bind_some, e2, dayPart, e3, e4]

/-- The year before 1900. -/
theorem ymd_early (y : Nat) (hy : y < 1900) (q : Str) : ymdhmsP env (field 4 y ++ q) = none := by
  have e1 : guarded 4 1900 9999 (field 4 y ++ q) = none := by
    rw [guarded_field 4 y _ _ (by omega) (by omega), if_neg (by omega)]
  simp [ymdhmsP, e1]

theorem zonePart_none {r : Str} (h : headNot goesOn r = true) : zonePart r = (0, r) := by
  simp [zonePart, goesOn_eat h (c := 'Z') (by decide), goesOn_eat h (c := '+') (by decide), goesOn_eat h (c := '-') (by decide)]

theorem zonePart_zone (neg : Bool) (zh zm : Nat) (h1 : zh ≤ 23) (h2 : zm ≤ 59) :
    zonePart (zoneText neg zh zm) = ((if neg then -1 else 1) * (zh * 60 + zm : Int), []) := by
  have e1 : ∀ r, guarded 2 0 23 (field 2 zh ++ r) = some ((zh : Int), r) := fun r => by
    rw [guarded_field 2 zh _ _ (by omega) (by omega), if_pos (by omega)]
  have e2 : ∀ r, guarded 2 0 59 (field 2 zm ++ r) = some ((zm : Int), r) := fun r => by
    rw [guarded_field 2 zm _ _ (by omega) (by omega), if_pos (by omega)]
  have hz : ∀ c, zoneHour c (field 2 zh ++ (ch ':' :: field 2 zm)) = some (c * (zh * 60 + zm), []) := by
    intro c
    have e3 := e2 []
    rw [List.append_nil] at e3
    simp [zoneHour, e1, zoneMin, eat_cons, e3]
  cases neg with
  | true =>
    have hs : zoneText true zh zm = ch '-' :: (field 2 zh ++ (ch ':' :: field 2 zm)) := by simp [zoneText]
    rw [hs]
    have n1 : ∀ r, eat 'Z' (ch '-' :: r) = none := fun r => by simp [eat]; decide
    have n2 : ∀ r, eat '+' (ch '-' :: r) = none := fun r => by simp [eat]; decide
    simp [zonePart, n1, n2, eat_cons, hz]
  | false =>
    have hs : zoneText false zh zm = ch '+' :: (field 2 zh ++ (ch ':' :: field 2 zm)) := by simp [zoneText]
    rw [hs]
    have n1 : ∀ r, eat 'Z' (ch '+' :: r) = none := fun r => by simp [eat]; decide
    simp [zonePart, n1, eat_cons, hz]

theorem secPart_whole (s : Nat) (hs : s ≤ 60) (r : Str) (h : headNot isDigit r = true) (h' : eat '.' r = none) :
    secPart (withTimes env) (ch ':' :: (field 2 s ++ r)) = (some ⟨false, pd 2 s, []⟩, r) := by
  have : (withTimes env).secOk ⟨false, pd 2 s, []⟩ = true := secOk_whole s hs
  simp [secPart, eat_cons, realP_whole s r h h', this]

theorem secPart_frac (s k f : Nat) (hs : s < 60) (hf : f < 10 ^ k) (hk : k ≤ 9) (r : Str) (h : headNot isDigit r = true) :
    secPart (withTimes env) (ch ':' :: (field 2 s ++ (ch '.' :: (field k f ++ r)))) = (some ⟨false, pd 2 s, pd k f⟩, r) := by
  have : (withTimes env).secOk ⟨false, pd 2 s, pd k f⟩ = true := secOk_pd s k f hs hf hk
  simp [secPart, eat_cons, realP_frac s k f (by omega) r h, this]

end

/-! Points in time -/

theorem trunc_int (n : Int) : trunc n = n := by
  unfold trunc
  split
  · have : (-(n : Rat)) = ((-n : Int) : Rat) := by push_cast; ring
    rw [this, Rat.floor_intCast]; omega
  · rw [Rat.floor_intCast]

theorem rnd_int (n : Int) (h : n.natAbs < 2 ^ 53) : rnd n = n := by
  rcases Int.lt_or_le n 0 with hn | hn
  · have hneg : (n : Rat) < 0 := by exact_mod_cast hn
    obtain ⟨m, rfl⟩ : ∃ m : Nat, n = -m := ⟨n.natAbs, by omega⟩
    have h2 := rnd_small m (by omega)
    have h3 : -((-(m : Int) : Int) : Rat) = (m : Rat) := by push_cast; ring
    unfold rnd at h2 ⊢
    rw [if_pos hneg, h3]
    rw [if_neg (not_lt.mpr (by exact_mod_cast Nat.zero_le _))] at h2
    rw [h2]; push_cast; rfl
  · obtain ⟨m, rfl⟩ := Int.eq_ofNat_of_zero_le hn
    have := rnd_small m (by simpa using h)
    simpa using this

theorem int64_in (env : Env) {i : Int} (h0 : -(2 ^ 63) ≤ i) (h1 : i < 2 ^ 63) : env.int64 i = i := by
  unfold Env.int64
  rw [if_pos ⟨h0, h1⟩]

/-- Whole seconds are exact. -/
theorem civil_whole (env : Env) (y m d : Nat) (h mi : Nat) (s : Nat) (off : Int) (hh : h ≤ 23) (hmi : mi ≤ 59) (hs : s ≤ 60)
    (ho : -1440 < off ∧ off < 1440) (l : Option Lit) (hl : (l.map litVal).getD 0 = s)
    (h1 : -(2 ^ 63) ≤ toDays y m d * nsPerDay ∧ toDays y m d * nsPerDay < 2 ^ 63)
    (h2 : -(2 ^ 63) ≤ toDays y m d * nsPerDay + (3600 * h + 60 * mi + s - 60 * off) * 10 ^ 9
      ∧ toDays y m d * nsPerDay + (3600 * h + 60 * mi + s - 60 * off) * 10 ^ 9 < 2 ^ 63) :
    civil env y m d h mi l off = toDays y m d * nsPerDay + (3600 * h + 60 * mi + s - 60 * off) * 10 ^ 9 := by
  generalize hx : (3600 * h + 60 * mi + s - 60 * off : Int) = x at *
  have hxb : x.natAbs < 200000 := by omega
  have e1 : ((60 * ((h : Int) * 60 + mi - off) : Int) : Rat) + s = (x : Rat) := by
    have : (60 * ((h : Int) * 60 + mi - off) : Int) + s = x := by omega
    rw [← this]; push_cast; ring
  have e2 : rnd (x * 10 ^ 9 : Rat) = ((x * 10 ^ 9 : Int) : Rat) := by
    rw [← rnd_int (x * 10 ^ 9) (by omega)]; push_cast; rfl
  simp only [civil, hl, e1, rnd_int x (by omega), e2, trunc_int, Int.toNat_natCast]
  unfold Env.int64
  rw [if_pos (h := _) h1, if_pos h2]

/-- The years of the days that `int64_t` nanoseconds reach. -/
theorem years (n : Int) (h0 : -106752 ≤ n) (h1 : n ≤ 106751) :
    1677 ≤ (ideal n).year ∧ (ideal n).year ≤ 2262 ∧ (-25567 ≤ n ↔ 1900 ≤ (ideal n).year) := by
  obtain ⟨e, c, q, a, doy, hi, rfl⟩ := day_split n
  rw [ideal_mk e hi]
  obtain ⟨hc, hq, ha, hd⟩ := hi
  have hm : ∀ x < 366, (md x).1 ≤ 2 ↔ 306 ≤ x := by decide +kernel
  have hm' := hm doy (by omega)
  simp only [mk, hm']
  have he : e = 4 ∨ e = 5 := by omega
  have hcs : c = 0 ∨ c = 1 ∨ c = 2 ∨ c = 3 := by omega
  have has : a = 0 ∨ a = 1 ∨ a = 2 ∨ a = 3 := by omega
  rcases he with rfl | rfl <;> rcases hcs with rfl | rfl | rfl | rfl <;> rcases has with rfl | rfl | rfl | rfl <;>
    (split <;> omega)

theorem date_of (n : Int) (h0 : -106752 ≤ n) (h1 : n ≤ 106751) :
    ∃ y m d : Nat, fromDays n = ⟨y, m, d⟩ ∧ ideal n = ⟨y, m, d⟩ ∧ 1677 ≤ y ∧ y ≤ 2262 ∧ (-25567 ≤ n ↔ 1900 ≤ y)
      ∧ 1 ≤ m ∧ m ≤ 12 ∧ 1 ≤ d ∧ d ≤ 31 := by
  have hy := years n h0 h1
  have hv := ideal_valid n
  have hf := fromDays_ideal n (by omega) (by omega)
  have hl := monthLength_bounds (ideal n).year (ideal n).month
  obtain ⟨v1, v2, v3, v4⟩ := hv
  refine ⟨(ideal n).year.toNat, (ideal n).month, (ideal n).day, ?_, ?_, by omega, by omega, by omega, v1, v2, v3, by omega⟩
  · rw [hf, Int.toNat_of_nonneg (by omega)]
  · rw [Int.toNat_of_nonneg (by omega)]

/-- The text of a point in time, in terms of its day, hour, minute, second and nanosecond. -/
theorem printTime_text (n : Int) (h mi s sub : Nat) (y m d : Nat) (hf : fromDays n = ⟨y, m, d⟩) (hy : 1677 ≤ y ∧ y ≤ 2262)
    (hm : m ≤ 12) (hd : d ≤ 31) (hh : h ≤ 23) (hmi : mi ≤ 59) (hs : s ≤ 59) (hsub : sub < 10 ^ 9) :
    printTime (n * nsPerDay + (3600 * h + 60 * mi + s) * 10 ^ 9 + sub)
      = dateText y m d ++ (ch 'T' :: (field 2 h ++ (ch ':' :: (field 2 mi ++ (ch ':' :: (field 2 s ++ printSub sub)))))) := by
  generalize ht : n * nsPerDay + (3600 * h + 60 * mi + s) * 10 ^ 9 + sub = t
  have e1 : t / nsPerDay = n := by simp only [nsPerDay] at *; omega
  have e2 : (t - n * nsPerDay).toNat = (3600 * h + 60 * mi + s) * 10 ^ 9 + sub := by simp only [nsPerDay] at *; omega
  generalize hr : (3600 * h + 60 * mi + s) * 10 ^ 9 + sub = r at e2
  have e3 : r / (3600 * 10 ^ 9) = h := by omega
  have e4 : (r - h * (3600 * 10 ^ 9)) / (60 * 10 ^ 9) = mi := by omega
  have e5 : (r - h * (3600 * 10 ^ 9) - mi * (60 * 10 ^ 9)) / 10 ^ 9 = s := by omega
  have e6 : r - h * (3600 * 10 ^ 9) - mi * (60 * 10 ^ 9) - s * 10 ^ 9 = sub := by omega
  simp only [printTime, e1, e2, e3, e4, e5, e6, hf, Int.toNat_natCast, printNat_field y (by omega) (by omega),
    padNat_field 2 m (by omega) (by omega), padNat_field 2 d (by omega) (by omega), padNat_field 2 h (by omega) (by omega),
    padNat_field 2 mi (by omega) (by omega), padNat_field 2 s (by omega) (by omega)]
  simp [dateText]

/-- Every point in time has a day and a time of that day. -/
theorem time_split (t : Int) (h0 : -(2 ^ 63) ≤ t) (h1 : t < 2 ^ 63) : ∃ (n : Int) (h mi s sub : Nat),
    h ≤ 23 ∧ mi ≤ 59 ∧ s ≤ 59 ∧ sub < 10 ^ 9 ∧ t = n * nsPerDay + (3600 * h + 60 * mi + s) * 10 ^ 9 + sub
      ∧ -106752 ≤ n ∧ n ≤ 106751 := by
  refine ⟨t / nsPerDay, (t % nsPerDay).toNat / 10 ^ 9 / 3600, (t % nsPerDay).toNat / 10 ^ 9 / 60 % 60,
    (t % nsPerDay).toNat / 10 ^ 9 % 60, (t % nsPerDay).toNat % 10 ^ 9, ?_⟩
  simp only [nsPerDay]
  have hb : 0 ≤ t % (86400 * 10 ^ 9) ∧ t % (86400 * 10 ^ 9) < 86400 * 10 ^ 9 := by omega
  have hdm := Int.emod_add_mul_ediv t (86400 * 10 ^ 9)
  generalize t % (86400 * 10 ^ 9) = r at *
  have hn : -106752 ≤ t / (86400 * 10 ^ 9) ∧ t / (86400 * 10 ^ 9) ≤ 106751 := by omega
  generalize t / (86400 * 10 ^ 9) = n at *
  obtain ⟨r, rfl⟩ : ∃ k : Nat, r = k := ⟨r.toNat, by omega⟩
  rw [Int.toNat_natCast]
  have hs : r = r / 10 ^ 9 * 10 ^ 9 + r % 10 ^ 9 := by omega
  have hs' : r % 10 ^ 9 < 10 ^ 9 := by omega
  generalize r / 10 ^ 9 = q at *
  generalize r % 10 ^ 9 = u at *
  have hq : q < 86400 := by omega
  have hq2 : q = 3600 * (q / 3600) + 60 * (q / 60 % 60) + q % 60 := by omega
  refine ⟨by omega, by omega, by omega, hs', ?_, hn.1, hn.2⟩
  omega

/-- The days of a date that was computed from days. -/
theorem toDays_ideal {n : Int} {y m d : Nat} (h : ideal n = ⟨y, m, d⟩) (hy : y < 2 ^ 16) : toDays y m d = n := by
  have hv := ideal_valid n
  rw [h] at hv
  have := ideal_toDays y m d hy hv
  rw [← h] at this
  exact ideal_inj this

theorem toData_time (env : Env) (s : Str) (t : Int) (h : ymdhmsP env s = some (t, [])) : toData env s = some (.time t) := by
  simp [toData, dataP, alternatives, timeP, h, as, firstOf]

theorem toData_unix (env : Env) (s : Str) (t : Int) (h0 : ymdhmsP env s = none) (h : unixP env s = some (t, [])) :
    toData env s = some (.time t) := by
  simp [toData, dataP, alternatives, timeP, h0, h, as, firstOf]

end Verif.Calendar
