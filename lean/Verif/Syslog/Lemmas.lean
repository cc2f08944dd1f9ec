import Verif.Calendar.Props
import Verif.Syslog.Spec
/-! # Lemmas about the syslog parser -/
namespace Verif.Syslog
open Verif.Data Verif.DataText Verif.Calendar Spec

theorem takeN_all {p : UInt8 → Bool} {c : UInt8} (hc : p c = false) {t : Str} (r : Str) : ∀ {n : Nat}, t.length ≤ n → (∀ b ∈ t, p b = true) →
    takeN p n (t ++ c :: r) = (t, c :: r) := by
  induction t with
  | nil =>
    intro n _ _
    cases n with
    | zero => rfl
    | succ n => simp [takeN, hc]
  | cons b t ih =>
    intro n hl hp
    cases n with
    | zero => simp at hl
    | succ n =>
      rw [List.cons_append, takeN, if_pos (hp b (List.mem_cons_self ..)), ih (by simpa using hl) (fun x hx => hp x (List.mem_cons_of_mem _ hx))]

theorem rep_all {p : UInt8 → Bool} {c : UInt8} (hc : p c = false) {t : Str} (r : Str) {n : Nat} (hne : t ≠ []) (hl : t.length ≤ n)
    (hp : ∀ b ∈ t, p b = true) : rep p n (t ++ c :: r) = some (t, c :: r) := by
  unfold rep
  rw [takeN_all hc r hl hp, if_neg hne]

theorem eat_self (c : Char) (s : Str) : eat c (ch c :: s) = some s := by simp [eat]

theorem maybeNil_nil {α : Type} (nil : α) (p : P α) (r : Str) : maybeNil nil p (ch '-' :: ch ' ' :: r) = some (nil, ch ' ' :: r) := by
  simp [maybeNil, eat]

theorem maybeNil_other {α : Type} (nil : α) (p : P α) (t r : Str) (ht : t ≠ []) (h : t ≠ [ch '-']) (hs : ch ' ' ∉ t) :
    maybeNil nil p (t ++ r) = p (t ++ r) := by
  unfold maybeNil
  cases t with
  | nil => exact absurd rfl ht
  | cons b t =>
    by_cases hb : b = ch '-'
    · subst hb
      rw [List.cons_append, eat_self]
      cases t with
      | nil => exact absurd rfl h
      | cons c t =>
        have hc : c ≠ ch ' ' := fun e => hs (by simp [e])
        simp [eat, hc]
    · simp [eat, hb]

theorem plain_ascii {b : UInt8} (h : Ascii b) : plain b = true := by
  unfold Ascii at h
  unfold plain printable isCntrl
  have : b ≠ ch ' ' := by
    rintro rfl
    exact absurd h.1 (by decide)
  simp [this]
  omega

theorem plain_space : plain (ch ' ') = false := by decide

theorem name_text {max : Nat} {t : Option Str} (h : Name max t) (r : Str) : nameP max (ch ' ' :: (dash t ++ ch ' ' :: r)) = some (t.getD [], ch ' ' :: r) := by
  unfold nameP
  rw [eat_self, Option.bind_some]
  cases t with
  | none => exact maybeNil_nil _ _ _
  | some x =>
    obtain ⟨h1, h2, h3, h4⟩ := h x rfl
    have hs : ch ' ' ∉ x := fun hx => absurd (h3 _ hx).1 (by decide)
    show maybeNil [] (rep plain max) (x ++ ch ' ' :: r) = _
    rw [maybeNil_other [] _ x _ h1 h4 hs, rep_all plain_space r h1 h2 (fun b hb => plain_ascii (h3 b hb))]
    rfl

/-! ### Numbers -/

theorem digits_text {t : Str} (h : Digits t) (c : UInt8) (hc : isDigit c = false) (r : Str) : uintP 16 3 1 (t ++ c :: r) = some (number t, c :: r) := by
  obtain ⟨hne, hl, hd⟩ := h
  have ht : ∀ (t : Str) (n : Nat), t.length ≤ n → (∀ b ∈ t, 48 ≤ b.toNat ∧ b.toNat ≤ 57) →
      takeDigits n (t ++ c :: r) = (t.map fun b => b.toNat - 48, c :: r) := by
    intro t
    induction t with
    | nil =>
      intro n _ _
      cases n with
      | zero => rfl
      | succ n => simp [takeDigits, hc]
    | cons b t ih =>
      intro n hl hd
      cases n with
      | zero => simp at hl
      | succ n =>
        have hb : isDigit b = true := by have := hd b (List.mem_cons_self ..); simp [isDigit, this]
        rw [List.cons_append, takeDigits, if_pos hb, ih n (by simpa using hl) (fun x hx => hd x (List.mem_cons_of_mem _ hx))]
        rfl
  have hv : value (t.map fun b => b.toNat - 48) = number t := by
    unfold value number
    rw [List.foldl_map]
  have hb : number t < 2 ^ 16 := by
    have : ∀ (t : Str) (n : Nat), (∀ b ∈ t, 48 ≤ b.toNat ∧ b.toNat ≤ 57) → t.foldl (fun n b => n * 10 + (b.toNat - 48)) n < (n + 1) * 10 ^ t.length := by
      intro t
      induction t with
      | nil => intro n _; simp
      | cons b t ih =>
        intro n hd
        have h1 := ih (n * 10 + (b.toNat - 48)) (fun x hx => hd x (List.mem_cons_of_mem _ hx))
        have h2 := hd b (List.mem_cons_self ..)
        rw [List.foldl_cons, List.length_cons, Nat.pow_succ]
        refine Nat.lt_of_lt_of_le h1 ?_
        have : (n * 10 + (b.toNat - 48) + 1) ≤ (n + 1) * 10 := by omega
        calc _ ≤ (n + 1) * 10 * 10 ^ t.length := Nat.mul_le_mul_right _ this
          _ = _ := by rw [Nat.mul_assoc, Nat.mul_comm 10]
    have h1 := this t 0 hd
    have h2 : 10 ^ t.length ≤ 10 ^ 3 := Nat.pow_le_pow_right (by omega) hl
    unfold number
    omega
  unfold uintP
  rw [ht t 3 hl hd]
  simp only [hv, List.length_map]
  rw [if_pos (show 1 ≤ t.length from List.length_pos_iff.mpr hne), Nat.mod_eq_of_lt hb]

/-! ### Points in time -/

theorem zonePart_rest (neg : Bool) (zh zm : Nat) (h1 : zh ≤ 23) (h2 : zm ≤ 59) (r : Str) :
    zonePart (zoneText neg zh zm ++ r) = ((if neg then -1 else 1) * (zh * 60 + zm : Int), r) := by
  have e1 : ∀ r, guarded 2 0 23 (field 2 zh ++ r) = some ((zh : Int), r) := fun r => by
    rw [guarded_field 2 zh _ _ (by omega) (by omega), if_pos (by omega)]
  have e2 : ∀ r, guarded 2 0 59 (field 2 zm ++ r) = some ((zm : Int), r) := fun r => by
    rw [guarded_field 2 zm _ _ (by omega) (by omega), if_pos (by omega)]
  have hz : ∀ c, zoneHour c (field 2 zh ++ (ch ':' :: (field 2 zm ++ r))) = some (c * (zh * 60 + zm), r) := by
    intro c
    simp [zoneHour, e1, zoneMin, eat_cons, e2]
  cases neg with
  | true =>
    have hs : zoneText true zh zm ++ r = ch '-' :: (field 2 zh ++ (ch ':' :: (field 2 zm ++ r))) := by simp [zoneText]
    rw [hs]
    have n1 : ∀ r, eat 'Z' (ch '-' :: r) = none := fun r => by simp [eat]; decide
    have n2 : ∀ r, eat '+' (ch '-' :: r) = none := fun r => by simp [eat]; decide
    simp [zonePart, n1, n2, eat_cons, hz]
  | false =>
    have hs : zoneText false zh zm ++ r = ch '+' :: (field 2 zh ++ (ch ':' :: (field 2 zm ++ r))) := by simp [zoneText]
    rw [hs]
    have n1 : ∀ r, eat 'Z' (ch '+' :: r) = none := fun r => by simp [eat]; decide
    simp [zonePart, n1, eat_cons, hz]

theorem zonePart_utc (r : Str) : zonePart (ch 'Z' :: r) = (0, r) := by simp [zonePart, eat_cons]

/-- The day of a year between 1900 and 2261. -/
theorem day_bounds {n : Int} {y m d : Nat} (hy : 1900 ≤ y ∧ y ≤ 2261) (hd : DaysSince1970 n ⟨y, m, d⟩) : -25567 ≤ n ∧ n ≤ 106650 := by
  have e := days_unique hd
  obtain ⟨e', c, q, a, doy, hi, hx⟩ := day_split n
  have hmk := ideal_mk e' hi
  rw [← hx, ← e] at hmk
  have hyear := congrArg Date.year hmk
  simp only [mk] at hyear
  have hm : ∀ x < 366, (md x).1 ≤ 2 ↔ 306 ≤ x := by decide +kernel
  obtain ⟨hc, hq, ha, hd⟩ := hi
  have hm' := hm doy (by omega)
  simp only [hm'] at hyear
  have hes : e' = 4 ∨ e' = 5 := by split at hyear <;> omega
  have hcs : c = 0 ∨ c = 1 ∨ c = 2 ∨ c = 3 := by omega
  have has : a = 0 ∨ a = 1 ∨ a = 2 ∨ a = 3 := by omega
  rcases hes with rfl | rfl <;> rcases hcs with rfl | rfl | rfl | rfl <;> rcases has with rfl | rfl | rfl | rfl <;>
    (split at hyear <;> omega)

theorem stamp_time (env : Env) {t : Stamp} (ht : t.Valid) (hf : t.frac = none) (r : Str) : timeP (withTimes env) (t.text ++ ch ' ' :: r) = some (t.instant, ch ' ' :: r) := by
  obtain ⟨hd, hy1, hy2, hh, hmi, hs, _, hz⟩ := ht
  have e := days_unique hd
  have hv := ideal_valid t.n
  rw [← e] at hv
  obtain ⟨v1, v2, v3, v4⟩ := hv
  have hl := monthLength_bounds t.y t.m
  simp only at v1 v2 v3 v4
  have hday := toDays_ideal e.symm (by omega)
  have hnb := day_bounds ⟨hy1, hy2⟩ hd
  have hlit : (Option.map litVal (some ⟨false, pd 2 t.s, []⟩)).getD 0 = t.s := by
    have h1 := value_pd 2 t.s (by omega)
    simp [litVal_whole _ (show value (pd 2 t.s) < 2 ^ 53 by omega), h1]
  -- the zone
  obtain ⟨ztext, off, htext, hoff, hinst, hzone, hhead, hdot⟩ : ∃ (z : Str) (off : Int),
      t.text = dateText t.y t.m t.d ++ [ch 'T'] ++ clockText t.h t.mi t.s ++ z ∧ (-1440 < off ∧ off < 1440) ∧
      t.instant = ((((t.n * 24 + t.h) * 60 + t.mi) - off) * 60 + t.s) * 10 ^ 9 ∧
      zonePart (z ++ ch ' ' :: r) = (off, ch ' ' :: r) ∧ headNot isDigit (z ++ ch ' ' :: r) = true ∧ eat '.' (z ++ ch ' ' :: r) = none := by
    obtain ⟨n, y, m, d, h, mi, s, frac, zone⟩ := t
    simp only at hf
    subst hf
    cases zone with
    | none => exact ⟨[ch 'Z'], 0, by simp [Stamp.text], by omega, by simp [Stamp.instant], zonePart_utc _, rfl, rfl⟩
    | some z =>
      obtain ⟨neg, zh, zm⟩ := z
      obtain ⟨h1, h2⟩ := hz neg zh zm rfl
      refine ⟨zoneText neg zh zm, (if neg then -1 else 1) * (zh * 60 + zm : Int), by simp [Stamp.text], ?_, by simp [Stamp.instant], zonePart_rest neg zh zm (by omega) (by omega) _,
        by cases neg <;> rfl, by cases neg <;> rfl⟩
      cases neg <;> simp <;> omega
  have hstr : t.text ++ ch ' ' :: r
      = dateText t.y t.m t.d ++ (ch 'T' :: (field 2 t.h ++ (ch ':' :: (field 2 t.mi ++ (ch ':' :: (field 2 t.s ++ (ztext ++ ch ' ' :: r))))))) := by
    rw [htext]; simp [clockText]
  have hy := ymd_time (withTimes env) t.y t.m t.d t.h t.mi ⟨hy1, by omega⟩ ⟨v1, v2⟩ ⟨v3, by omega⟩ (by omega) (by omega)
    (ch ':' :: (field 2 t.s ++ (ztext ++ ch ' ' :: r)))
  rw [secPart_whole env t.s (by omega) _ hhead hdot] at hy
  simp only [hzone] at hy
  have hc := civil_whole env t.y t.m t.d t.h t.mi t.s off (by omega) (by omega) (by omega) hoff _ hlit
    (by rw [hday]; simp only [nsPerDay]; omega) (by rw [hday]; simp only [nsPerDay]; omega)
  unfold timeP
  rw [hstr, hy]
  show some (civil env t.y t.m t.d t.h t.mi _ off, _) = _
  rw [hc, hday, hinst]
  simp only [nsPerDay]
  congr 2
  omega

theorem stamp_head (t : Stamp) (r : Str) : eat '-' (t.text ++ r) = none := by
  have : ∃ b s, t.text ++ r = b :: s ∧ 48 ≤ b.toNat := by
    refine ⟨(48 + t.y / 10 / 10 / 10 % 10).toUInt8, ?_⟩
    obtain ⟨q, hq⟩ : ∃ q, t.text = (48 + t.y / 10 / 10 / 10 % 10).toUInt8 :: q := by
      unfold Stamp.text dateText field field field field field
      exact ⟨_, rfl⟩
    rw [hq]
    refine ⟨_, rfl, ?_⟩
    have : t.y / 10 / 10 / 10 % 10 < 10 := Nat.mod_lt _ (by omega)
    generalize t.y / 10 / 10 / 10 % 10 = k at this
    have : ∀ k < 10, 48 ≤ ((48 + k).toUInt8).toNat := by decide
    exact this k (by omega)
  obtain ⟨b, s, h, hb⟩ := this
  rw [h]
  have : b ≠ ch '-' := by rintro rfl; exact absurd hb (by decide)
  simp [eat, this]

/-- The nanoseconds of a day, from binary floating point. -/
def nanos (h mi s k f : Nat) : Int := trunc (rnd (rnd (((60 * ((h : Int) * 60 + mi - 0) : Int) : Rat) + litVal ⟨false, pd 2 s, pd k f⟩) * 10 ^ 9))

/-- A fraction of a second, in Universal Time. -/
theorem stamp_frac (env : Env) {t : Stamp} (ht : t.Valid) (hz : t.zone = none) {k f : Nat} (hfr : t.frac = some (k, f)) :
    (t.n * nsPerDay + nanos t.h t.mi t.s k f = t.instant ∨ t.n * nsPerDay + nanos t.h t.mi t.s k f = t.instant - 1) ∧
    ∀ r, timeP (withTimes env) (t.text ++ ch ' ' :: r) = some (t.n * nsPerDay + nanos t.h t.mi t.s k f, ch ' ' :: r) := by
  obtain ⟨hd, hy1, hy2, hh, hmi, hs, hk, _⟩ := ht
  obtain ⟨hk1, hk6, hf⟩ := hk k f hfr
  have hk : k ≤ 9 := by omega
  have e := days_unique hd
  have hv := ideal_valid t.n
  rw [← e] at hv
  obtain ⟨v1, v2, v3, v4⟩ := hv
  have hl := monthLength_bounds t.y t.m
  simp only at v1 v2 v3 v4
  have hday := toDays_ideal e.symm (by omega)
  have hnb := day_bounds ⟨hy1, hy2⟩ hd
  have hsub9 : f * 10 ^ (9 - k) < 10 ^ 9 := by
    have h1 : f * 10 ^ (9 - k) < 10 ^ k * 10 ^ (9 - k) := Nat.mul_lt_mul_of_pos_right hf (Nat.pow_pos (by omega))
    rwa [← Nat.pow_add, Nat.add_sub_cancel' hk] at h1
  have hinst : t.instant = t.n * nsPerDay + (((3600 * t.h + 60 * t.mi + t.s) * 10 ^ 9 + f * 10 ^ (9 - k) : Nat) : Int) := by
    unfold Stamp.instant
    rw [hz, hfr]
    simp only [nsPerDay]
    push_cast
    omega
  have hstr : ∀ r, t.text ++ ch ' ' :: r = dateText t.y t.m t.d ++ (ch 'T' :: (field 2 t.h ++ (ch ':' :: (field 2 t.mi ++ (ch ':' :: (field 2 t.s ++
      (ch '.' :: (field k f ++ (ch 'Z' :: ch ' ' :: r))))))))) := by
    intro r
    simp [Stamp.text, hz, hfr, clockText]
  have hy := fun r => ymd_time (withTimes env) t.y t.m t.d t.h t.mi ⟨hy1, by omega⟩ ⟨v1, v2⟩ ⟨v3, by omega⟩ (by omega) (by omega)
    (ch ':' :: (field 2 t.s ++ (ch '.' :: (field k f ++ (ch 'Z' :: ch ' ' :: r)))))
  simp only [secPart_frac env t.s k f hs hf hk _ (show headNot isDigit (ch 'Z' :: ch ' ' :: _) = true from rfl), zonePart_utc] at hy
  have hp0 : 0 < 10 ^ k := Nat.pow_pos (by omega)
  obtain ⟨c1, c2, c3⟩ := seconds_bounds (t.h * 60 + t.mi) t.s f (10 ^ k) hp0 hf (by omega) (by omega)
  have hx : (60 * ((t.h * 60 + t.mi : Nat) : Rat) + t.s + f / (10 ^ k : Nat)) * 10 ^ 9
      = (((3600 * t.h + 60 * t.mi + t.s) * 10 ^ 9 + f * 10 ^ (9 - k) : Nat) : Rat) := by
    have hpow : (10 : Rat) ^ 9 = 10 ^ k * 10 ^ (9 - k) := by rw [← pow_add]; congr 1; omega
    have hk0 : (10 : Rat) ^ k ≠ 0 := by positivity
    push_cast
    have : (f : Rat) / 10 ^ k * 10 ^ 9 = f * 10 ^ (9 - k) := by rw [hpow]; field_simp
    linarith
  rw [hx] at c1 c2
  have hnear := trunc_near c3 c1 c2
  have hm : (((60 * ((t.h : Int) * 60 + t.mi - 0) : Int)) : Rat) = 60 * ((t.h * 60 + t.mi : Nat) : Rat) := by push_cast; ring
  rw [← litVal_pd t.s k f (by omega) hf hk, ← hm] at hnear
  generalize hN : trunc (rnd (rnd (((60 * ((t.h : Int) * 60 + t.mi - 0) : Int) : Rat) + litVal ⟨false, pd 2 t.s, pd k f⟩) * 10 ^ 9)) = N at hnear
  have hN' : nanos t.h t.mi t.s k f = N := hN
  rw [hN']
  have hlt : (3600 * t.h + 60 * t.mi + t.s) * 10 ^ 9 + f * 10 ^ (9 - k) < 86400 * 10 ^ 9 := by omega
  refine ⟨by rw [hinst]; omega, fun r => ?_⟩
  unfold timeP
  rw [hstr, hy]
  show some (civil env t.y t.m t.d t.h t.mi _ 0, _) = _
  have : civil env t.y t.m t.d t.h t.mi (some ⟨false, pd 2 t.s, pd k f⟩) 0 = t.n * nsPerDay + N := by
    simp only [civil, Option.map_some, Option.getD_some, Int.toNat_natCast, hday, hN]
    rw [int64_in env (i := t.n * nsPerDay) (by simp only [nsPerDay]; omega) (by simp only [nsPerDay]; omega),
      int64_in env (by simp only [nsPerDay]; omega) (by simp only [nsPerDay]; omega)]
  rw [this]

theorem stamp_text (env : Env) {t : Stamp} {i : Int} (ht : ∀ r, timeP env (t.text ++ ch ' ' :: r) = some (i, ch ' ' :: r)) (r : Str) :
    stampP env (t.text ++ ch ' ' :: r) = some (some i, ch ' ' :: r) := by
  unfold stampP maybeNil
  rw [stamp_head]
  simp only [Option.bind_none]
  rw [ht r]
  rfl

theorem stamp_nil (env : Env) (r : Str) : stampP env (dash none ++ ch ' ' :: r) = some (none, ch ' ' :: r) := maybeNil_nil _ _ _

/-! ### Structured data -/

theorem nameChar_ok {b : UInt8} (h : Ascii b ∧ b ≠ ch '=' ∧ b ≠ ch ']' ∧ b ≠ ch '"') : nameChar b = true := by
  unfold nameChar
  simp [plain_ascii h.1, h.2]

theorem special_iff (b : UInt8) : special b = true ↔ b = ch '"' ∨ b = ch '\\' ∨ b = ch ']' := by
  unfold special
  simp only [Bool.or_eq_true, beq_iff_eq]
  constructor
  · rintro ((h | h) | h) <;> simp [h]
  · rintro (h | h | h) <;> simp [h]

theorem escape_cons (b : UInt8) (v : Str) : escape (b :: v) = (if b = ch '"' ∨ b = ch '\\' ∨ b = ch ']' then [ch '\\', b] else [b]) ++ escape v := rfl

theorem values_text : ∀ (v r : Str), (∀ b ∈ v, 32 ≤ b.toNat ∧ b.toNat ≠ 127) → values (escape v ++ ch '"' :: r) = (v, ch '"' :: r) := by
  intro v r
  induction v with
  | nil =>
    intro _
    show values (ch '"' :: r) = _
    cases r with
    | nil => rfl
    | cons c r => rfl
  | cons b v ih =>
    intro hv
    have ih := ih (fun x hx => hv x (List.mem_cons_of_mem _ hx))
    rw [escape_cons]
    split
    · rename_i hb
      show values (ch '\\' :: b :: (escape v ++ ch '"' :: r)) = _
      rw [values, if_pos rfl, if_pos ((special_iff b).mpr hb), ih]
    · rename_i hb
      have hs : special b = false := by
        cases h : special b with
        | false => rfl
        | true => exact absurd ((special_iff b).mp h) hb
      have hp : printable b = true := by
        have := hv b (List.mem_cons_self ..)
        simp [printable, isCntrl, this]
      have hne : b ≠ ch '\\' := fun h => hb (.inr (.inl h))
      show values (b :: (escape v ++ ch '"' :: r)) = _
      obtain ⟨c, s, hcs⟩ : ∃ c s, escape v ++ ch '"' :: r = c :: s := by
        cases escape v with
        | nil => exact ⟨_, _, rfl⟩
        | cons c s => exact ⟨_, _, rfl⟩
      rw [hcs] at ih ⊢
      rw [values, if_neg hne, if_pos (by simp [hp, hs]), ih]

theorem param_text {p : Str × Str} (hk : SdName p.1) (hv : ∀ b ∈ p.2, 32 ≤ b.toNat ∧ b.toNat ≠ 127) (r : Str) :
    paramP (paramText p ++ r) = some (p, r) := by
  obtain ⟨h1, h2, h3⟩ := hk
  have e : paramText p ++ r = ch ' ' :: (p.1 ++ ch '=' :: (ch '"' :: (escape p.2 ++ ch '"' :: r))) := by simp [paramText]
  unfold paramP
  rw [e, eat_self, Option.bind_some, rep_all (by decide) _ h1 h2 (fun b hb => nameChar_ok (h3 b hb))]
  simp only [Option.bind_some, eat_self]
  rw [values_text p.2 r hv, eat_self]
  rfl

theorem many_text {α : Type} {p : P α} {text : α → Str} : ∀ {l : List α} {r : Str} {fuel : Nat}, (∀ a ∈ l, ∀ r, p (text a ++ r) = some (a, r)) → p r = none →
    l.length ≤ fuel → many p fuel (l.flatMap text ++ r) = (l, r) := by
  intro l
  induction l with
  | nil =>
    intro r fuel _ hr _
    cases fuel with
    | zero => rfl
    | succ n => simp [many, hr]
  | cons a l ih =>
    intro r fuel hp hr hl
    cases fuel with
    | zero => simp at hl
    | succ n =>
      rw [List.flatMap_cons, List.append_assoc, many, hp a (List.mem_cons_self ..)]
      simp only
      rw [ih (fun x hx => hp x (List.mem_cons_of_mem _ hx)) hr (by simpa using hl)]

theorem flatMap_length {α : Type} {text : α → Str} : ∀ {l : List α}, (∀ a ∈ l, text a ≠ []) → l.length ≤ (l.flatMap text).length := by
  intro l
  induction l with
  | nil => intro _; simp
  | cons a l ih =>
    intro h
    have h1 := ih (fun x hx => h x (List.mem_cons_of_mem _ hx))
    have h2 := List.length_pos_iff.mpr (h a (List.mem_cons_self ..))
    rw [List.flatMap_cons, List.length_append, List.length_cons]
    omega

theorem plus_text {α : Type} {p : P α} {text : α → Str} {l : List α} {r : Str} (hne : l ≠ []) (ht : ∀ a ∈ l, text a ≠ [])
    (hp : ∀ a ∈ l, ∀ r, p (text a ++ r) = some (a, r)) (hr : p r = none) : plus p (l.flatMap text ++ r) = some (l, r) := by
  cases l with
  | nil => exact absurd rfl hne
  | cons a l =>
    unfold plus
    rw [List.flatMap_cons, List.append_assoc, hp a (List.mem_cons_self ..)]
    simp only [Option.map_some]
    rw [many_text (fun x hx => hp x (List.mem_cons_of_mem _ hx)) hr (by
      have := flatMap_length (text := text) (l := l) (fun x hx => ht x (List.mem_cons_of_mem _ hx))
      rw [List.length_append]; omega)]

theorem element_text {e : Str × List (Str × Str)} (hi : SdName e.1) (hn : e.2 ≠ []) (hk : ∀ p ∈ e.2, SdName p.1)
    (hv : ∀ p ∈ e.2, ∀ b ∈ p.2, 32 ≤ b.toNat ∧ b.toNat ≠ 127) (r : Str) : elementP (elementText e ++ r) = some (e, r) := by
  obtain ⟨h1, h2, h3⟩ := hi
  have hpt : ∀ p : Str × Str, ∃ s, paramText p = ch ' ' :: s := fun p => ⟨_, rfl⟩
  have e1 : elementText e ++ r = ch '[' :: (e.1 ++ (e.2.flatMap paramText ++ ch ']' :: r)) := by simp [elementText]
  obtain ⟨s, hs⟩ : ∃ s, e.2.flatMap paramText ++ ch ']' :: r = ch ' ' :: s := by
    cases he : e.2 with
    | nil => exact absurd he hn
    | cons p l =>
      obtain ⟨s, hs⟩ := hpt p
      rw [List.flatMap_cons, hs]
      exact ⟨_, rfl⟩
  unfold elementP
  rw [e1, eat_self, Option.bind_some, hs, rep_all (by decide) _ h1 h2 (fun b hb => nameChar_ok (h3 b hb))]
  simp only [Option.bind_some]
  rw [← hs, plus_text hn (fun p _ => by obtain ⟨s, hs⟩ := hpt p; simp [hs]) (fun p hp r => param_text (hk p hp) (hv p hp) r) rfl]
  simp only [Option.bind_some, eat_self]
  rfl

theorem data_text {m : Msg} (hv : m.Valid) (hd : m.Demanded) :
    dataP (dataText m.data ++ tail m.msg) = some (m.data, tail m.msg) := by
  have htail : ∀ o : Option (Bool × Str), elementP (tail o) = none := by
    intro o
    rcases o with _ | ⟨_ | _, t⟩ <;> rfl
  unfold dataP dataText
  split
  · rename_i h
    cases hm : m.msg with
    | none => exact absurd hm (hd.text h)
    | some x =>
      obtain ⟨mark, t⟩ := x
      rw [h]
      exact maybeNil_nil _ _ _
  · rename_i h
    obtain ⟨s, hs⟩ : ∃ s, m.data.flatMap elementText ++ tail m.msg = ch '[' :: s := by
      cases he : m.data with
      | nil => exact absurd he h
      | cons p l => exact ⟨_, rfl⟩
    have hmn : maybeNil [] (plus elementP) (ch '[' :: s) = plus elementP (ch '[' :: s) := rfl
    rw [hs, hmn, ← hs]
    exact plus_text h (fun e _ => by simp [elementText])
      (fun e he r => element_text (hv.ids e he) (hd.params e he) (hv.names e he) (hd.values e he) r) (htail _)

theorem content_plain {t : Str} (h : ¬ bom <+: t) : content t = t := by
  unfold content
  split
  · exact absurd ⟨_, rfl⟩ h
  · rfl

theorem content_bom {t : Str} (h : t ≠ []) : content (bom ++ t) = t := by
  cases t with
  | nil => exact absurd rfl h
  | cons b t => rfl

/-- A message of the RFC is parsed. -/
theorem message_text (env : Env) {m : Msg} (hv : m.Valid) (hd : m.Demanded) {ts : Option Int}
    (hts : ∀ r, stampP env (dash (m.stamp.map Stamp.text) ++ ch ' ' :: r) = some (ts, ch ' ' :: r)) :
    messageP env m.text = some ⟨⟨number m.pri / 8, number m.pri % 8, number m.version, ts, m.host.getD [], m.app.getD [],
      m.proc.getD [], m.mid.getD []⟩, m.data, m.msg.map Prod.snd⟩ := by
  have e : m.text = ch '<' :: (m.pri ++ ch '>' :: (m.version ++ ch ' ' :: (dash (m.stamp.map Stamp.text) ++ ch ' ' :: (dash m.host ++ ch ' ' :: (dash m.app ++
      ch ' ' :: (dash m.proc ++ ch ' ' :: (dash m.mid ++ ch ' ' :: (dataText m.data ++ tail m.msg)))))))) := by
    simp [Msg.text]
  unfold messageP headerP priP versionP
  rw [e, eat_self, Option.bind_some, digits_text hv.pri.1 _ (by decide)]
  simp only [Option.bind_some, if_pos hv.pri.2, eat_self, Option.map_some]
  rw [digits_text hv.version.1 _ (by decide)]
  simp only [Option.bind_some, if_pos hv.version.2, eat_self]
  rw [hts]
  simp only [Option.bind_some]
  rw [name_text hv.host]
  simp only [Option.bind_some]
  rw [name_text hv.app]
  simp only [Option.bind_some]
  rw [name_text hv.proc]
  simp only [Option.bind_some]
  rw [name_text hv.mid]
  simp only [Option.bind_some, Option.map_some, eat_self]
  rw [data_text hv hd]
  simp only [Option.bind_some]
  cases hm : m.msg with
  | none => rfl
  | some x =>
    obtain ⟨mark, t⟩ := x
    cases mark with
    | false =>
      have e : tail (some (false, t)) = ch ' ' :: t := rfl
      rw [e, eat_self]
      simp only [content_plain (hv.msg t hm), Option.map_some]
    | true =>
      have e : tail (some (true, t)) = ch ' ' :: (bom ++ t) := rfl
      rw [e, eat_self]
      simp only [content_bom (hd.mark t hm), Option.map_some]

end Verif.Syslog
