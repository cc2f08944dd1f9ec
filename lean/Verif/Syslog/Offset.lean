import Verif.Syslog.Props
import Verif.Zeek.Round
/-! # C127: fractions of a second, with an offset from Universal Time -/
namespace Verif.Syslog
open Verif.Data Verif.DataText Verif.Calendar Spec

theorem seconds_near (M : Int) (s f p : Nat) (hp : 0 < p) (hf : f < p) (hs : s < 60) (hM : -1440 < M ∧ M < 2880) (N : Int)
    (hN : (60 * M + s + f / p : Rat) * 10 ^ 9 = N) :
    trunc (rnd (rnd (60 * M + rnd (s + rnd (f / p))) * 10 ^ 9)) = N ∨ trunc (rnd (rnd (60 * M + rnd (s + rnd (f / p))) * 10 ^ 9)) = N - 1 ∨
    trunc (rnd (rnd (60 * M + rnd (s + rnd (f / p))) * 10 ^ 9)) = N + 1 := by
  have hpq : (0 : Rat) < p := by exact_mod_cast hp
  have hfq : (f : Rat) / p < 1 := by rw [div_lt_one hpq]; exact_mod_cast hf
  have hf0 : (0 : Rat) ≤ f / p := div_nonneg (by exact_mod_cast Nat.zero_le f) hpq.le
  have hsq : (s : Rat) ≤ 59 := by exact_mod_cast (show s ≤ 59 by omega)
  have hs0 : (0 : Rat) ≤ s := by exact_mod_cast Nat.zero_le s
  have hMq : (M : Rat) ≤ 2880 := by exact_mod_cast (show M ≤ 2880 by omega)
  have hM0 : (-1440 : Rat) ≤ M := by exact_mod_cast (show -1440 ≤ M by omega)
  generalize (f : Rat) / p = g at *
  have u := abs_le.mp (Zeek.rnd_le (x := g) (B := 1) (e := 1 / 10 ^ 15) (abs_le.mpr ⟨by linarith, by linarith⟩) (by norm_num))
  generalize rnd g = a at *
  have v := abs_le.mp (Zeek.rnd_le (x := s + a) (B := 62) (e := 1 / 10 ^ 13) (abs_le.mpr ⟨by linarith, by linarith⟩) (by norm_num))
  generalize rnd (s + a) = b at *
  have w := abs_le.mp (Zeek.rnd_le (x := 60 * M + b) (B := 180000) (e := 1 / 10 ^ 10) (abs_le.mpr ⟨by linarith, by linarith⟩) (by norm_num))
  generalize rnd (60 * M + b) = c at *
  have r := abs_le.mp (Zeek.rnd_le (x := c * 10 ^ 9) (B := 180001 * 10 ^ 9) (e := 1 / 10) (abs_le.mpr ⟨by linarith, by linarith⟩) (by norm_num))
  generalize rnd (c * 10 ^ 9) = d at *
  have t := abs_lt.mp (Zeek.trunc_abs d)
  have t1 : (N : Rat) - 2 < (trunc d : Int) := by linarith
  have t2 : ((trunc d : Int) : Rat) < N + 2 := by linarith
  have t1' : N - 2 < trunc d := by exact_mod_cast t1
  have t2' : trunc d < N + 2 := by exact_mod_cast t2
  omega

/-- The nanoseconds of the clock, with an offset. -/
def nanosAt (h mi s k f : Nat) (off : Int) : Int := trunc (rnd (rnd (((60 * ((h : Int) * 60 + mi - off) : Int) : Rat) + litVal ⟨false, pd 2 s, pd k f⟩) * 10 ^ 9))

theorem stamp_offset (env : Env) {t : Stamp} (ht : t.Valid) {k f : Nat} (hfr : t.frac = some (k, f)) : ∃ i : Int,
    (i = t.instant ∨ i = t.instant - 1 ∨ i = t.instant + 1) ∧ ∀ r, timeP (withTimes env) (t.text ++ ch ' ' :: r) = some (i, ch ' ' :: r) := by
  obtain ⟨hd, hy1, hy2, hh, hmi, hs, hk, hz⟩ := ht
  obtain ⟨hk1, hk6, hf⟩ := hk k f hfr
  have hk : k ≤ 9 := by omega
  have e := days_unique hd
  have hv := ideal_valid t.n
  rw [← e] at hv
  obtain ⟨v1, v2, v3, v4⟩ := hv
  have hl := monthLength_bounds t.y t.m
  simp only at v1 v2 v3 v4
  have hday := toDays_ideal e.symm (by omega)
  have hnb := day_bounds ⟨hy1, hy2⟩ hd
  obtain ⟨ztext, off, htext, hoff, hinst, hzone, hhead⟩ : ∃ (z : Str) (off : Int),
      t.text = dateText t.y t.m t.d ++ [ch 'T'] ++ clockText t.h t.mi t.s ++ ([ch '.'] ++ field k f) ++ z ∧ (-1440 < off ∧ off < 1440) ∧
      t.instant = ((((t.n * 24 + t.h) * 60 + t.mi) - off) * 60 + t.s) * 10 ^ 9 + (f * 10 ^ (9 - k) : Nat) ∧
      (∀ r, zonePart (z ++ ch ' ' :: r) = (off, ch ' ' :: r)) ∧ (∀ r, headNot isDigit (z ++ ch ' ' :: r) = true) := by
    obtain ⟨n, y, m, d, h, mi, s, frac, zone⟩ := t
    simp only at hfr
    subst hfr
    cases zone with
    | none => exact ⟨[ch 'Z'], 0, by simp [Stamp.text], by omega, by simp [Stamp.instant], fun r => zonePart_utc _, fun r => rfl⟩
    | some z =>
      obtain ⟨neg, zh, zm⟩ := z
      obtain ⟨h1, h2⟩ := hz neg zh zm rfl
      refine ⟨zoneText neg zh zm, (if neg then -1 else 1) * (zh * 60 + zm : Int), by simp [Stamp.text], ?_, by simp [Stamp.instant],
        fun r => zonePart_rest neg zh zm (by omega) (by omega) _, fun r => by cases neg <;> rfl⟩
      cases neg <;> simp <;> omega
  have hsub9 : f * 10 ^ (9 - k) < 10 ^ 9 := by
    have h1 : f * 10 ^ (9 - k) < 10 ^ k * 10 ^ (9 - k) := Nat.mul_lt_mul_of_pos_right hf (Nat.pow_pos (by omega))
    rwa [← Nat.pow_add, Nat.add_sub_cancel' hk] at h1
  have hstr : ∀ r, t.text ++ ch ' ' :: r = dateText t.y t.m t.d ++ (ch 'T' :: (field 2 t.h ++ (ch ':' :: (field 2 t.mi ++ (ch ':' :: (field 2 t.s ++
      (ch '.' :: (field k f ++ (ztext ++ ch ' ' :: r))))))))) := by
    intro r
    rw [htext]; simp [clockText]
  have hy := fun r => ymd_time (withTimes env) t.y t.m t.d t.h t.mi ⟨hy1, by omega⟩ ⟨v1, v2⟩ ⟨v3, by omega⟩ (by omega) (by omega)
    (ch ':' :: (field 2 t.s ++ (ch '.' :: (field k f ++ (ztext ++ ch ' ' :: r)))))
  simp only [secPart_frac env t.s k f hs hf hk _ (hhead _), hzone] at hy
  have hp0 : 0 < 10 ^ k := Nat.pow_pos (by omega)
  generalize hsub : f * 10 ^ (9 - k) = sub at *
  have hN : (60 * (((t.h : Int) * 60 + t.mi - off : Int) : Rat) + t.s + f / (10 ^ k : Nat)) * 10 ^ 9
      = (((60 * ((t.h : Int) * 60 + t.mi - off) + t.s) * 10 ^ 9 + sub : Int) : Rat) := by
    have hpow : (10 : Rat) ^ 9 = 10 ^ k * 10 ^ (9 - k) := by rw [← pow_add]; congr 1; omega
    have hk0 : (10 : Rat) ^ k ≠ 0 := by positivity
    rw [← hsub]
    push_cast
    have : (f : Rat) / 10 ^ k * 10 ^ 9 = f * 10 ^ (9 - k) := by rw [hpow]; field_simp
    linarith
  have hnear := seconds_near ((t.h : Int) * 60 + t.mi - off) t.s f (10 ^ k) hp0 hf hs ⟨by omega, by omega⟩ _ hN
  have hm : (((60 * ((t.h : Int) * 60 + t.mi - off) : Int)) : Rat) = 60 * (((t.h : Int) * 60 + t.mi - off : Int) : Rat) := by push_cast; ring
  rw [← litVal_pd t.s k f (by omega) hf hk, ← hm] at hnear
  generalize hG : trunc (rnd (rnd (((60 * ((t.h : Int) * 60 + t.mi - off) : Int) : Rat) + litVal ⟨false, pd 2 t.s, pd k f⟩) * 10 ^ 9)) = G at hnear
  refine ⟨t.n * nsPerDay + G, ?_, fun r => ?_⟩
  · rw [hinst]; simp only [nsPerDay]; omega
  · unfold timeP
    rw [hstr, hy]
    show some (civil env t.y t.m t.d t.h t.mi _ off, _) = _
    have : civil env t.y t.m t.d t.h t.mi (some ⟨false, pd 2 t.s, pd k f⟩) off = t.n * nsPerDay + G := by
      simp only [civil, Option.map_some, Option.getD_some, Int.toNat_natCast, hday, hG]
      rw [int64_in env (i := t.n * nsPerDay) (by simp only [nsPerDay]; omega) (by simp only [nsPerDay]; omega),
        int64_in env (by simp only [nsPerDay]; omega) (by simp only [nsPerDay]; omega)]
    rw [this]

/-- **C127 (partial).**  A fraction of a second with any offset is read up to one nanosecond. -/
theorem C127_offset_partial (env : Env) {m : Msg} (hv : m.Valid) (hd : m.Demanded) {t : Stamp} (hs : m.stamp = some t) :
    ∃ i, (i = t.instant ∨ i = t.instant - 1 ∨ i = t.instant + 1) ∧ event (withTimes env) m.text = m.event (some i) := by
  obtain ⟨i, hi, ht⟩ : ∃ i, (i = t.instant ∨ i = t.instant - 1 ∨ i = t.instant + 1) ∧
      ∀ r, timeP (withTimes env) (t.text ++ ch ' ' :: r) = some (i, ch ' ' :: r) := by
    cases hf : t.frac with
    | none => exact ⟨_, .inl rfl, fun r => stamp_time env (hv.stamp t hs) hf r⟩
    | some x => exact stamp_offset env (hv.stamp t hs) hf
  have hts : ∀ r, stampP (withTimes env) (dash (m.stamp.map Stamp.text) ++ ch ' ' :: r) = some (some i, ch ' ' :: r) := by
    intro r
    rw [hs]
    exact stamp_text _ ht r
  refine ⟨i, hi, ?_⟩
  unfold event
  rw [message_text _ hv hd hts]
  rfl

/-- `<165>1 2003-10-11T22:14:15.003-07:00 host app - ID47 [ex@1 a="b\"c" d=""] hi` -/
example : let m : Msg := { exMsg with stamp := some ⟨12336, 2003, 10, 11, 22, 14, 15, some (3, 3), some (true, 7, 0)⟩ }
    m.Valid ∧ m.Demanded ∧ m.stamp.map Stamp.instant = some 1065935655003000000 := by
  refine ⟨⟨exValid.1, exValid.2, ?_, exValid.4, exValid.5, exValid.6, exValid.7, exValid.8, exValid.9, exValid.10⟩, ⟨exDemanded.1, exDemanded.2, exDemanded.3, exDemanded.4⟩, by decide⟩
  intro t ht
  cases ht
  exact ⟨exDay, by decide, by decide, by decide, by decide, by decide, (fun k f h => by cases h; decide), (fun _ _ _ h => by cases h; decide)⟩

end Verif.Syslog
