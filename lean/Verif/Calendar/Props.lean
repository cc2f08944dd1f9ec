import Verif.Calendar.TextLemmas
/-!
# Dates and times as text
-/
namespace Verif.Calendar
open Verif.DataText Verif.Data

/-! ## C83: the calendar -/

/-- A number of days has one date, and a date one number of days. -/
theorem C83_calendar {n n' : Int} {d d' : Date} (h : DaysSince1970 n d) (h' : DaysSince1970 n' d') :
    (n = n' ↔ d = d') ∧ d.Valid := by
  have e := days_unique h
  have e' := days_unique h'
  subst e; subst e'
  exact ⟨⟨fun h => by rw [h], ideal_inj⟩, ideal_valid n⟩

example : DaysSince1970 (-1) ⟨1969, 12, 31⟩ := .earlier ⟨by decide, by decide, by decide, by decide⟩ .epoch

/-- The date of a day, for every year from 0 to 65535. -/
theorem C83_from_days (n : Int) (h0 : -719528 ≤ n) (h1 : n < 23217002) : DaysSince1970 n (fromDays n) := by
  have := ideal_year n h0 h1
  rw [fromDays_ideal n this.1 this.2]
  exact days_ideal n

example : fromDays 18747 = ⟨2021, 4, 30⟩ := by decide +kernel
example : fromDays 11016 = ⟨2000, 2, 29⟩ := by decide +kernel

/-- The days of a date. -/
theorem C83_to_days (y m d : Nat) (hy : y < 2 ^ 16) (hv : Date.Valid ⟨y, m, d⟩) : DaysSince1970 (toDays y m d) ⟨y, m, d⟩ := by
  have := days_ideal (toDays y m d)
  rwa [ideal_toDays y m d hy hv] at this

example : Date.Valid ⟨2000, 2, 29⟩ := ⟨by decide, by decide, by decide, by decide⟩
example : toDays 2000 2 29 = 11016 := by decide +kernel

/-- Every point in time is printed as its date and time of day, with as many digits after the seconds as it needs. -/
theorem C83_printed (t : Int) (h0 : -(2 ^ 63) ≤ t) (h1 : t < 2 ^ 63) :
    ∃ (y m d h mi s sub : Nat) (n : Int) (fr : Str),
      DaysSince1970 n ⟨y, m, d⟩ ∧ y < 10000 ∧ h < 24 ∧ mi < 60 ∧ s < 60 ∧ sub < 10 ^ 9
      ∧ t = (((n * 24 + h) * 60 + mi) * 60 + s) * 10 ^ 9 + sub
      ∧ Fraction sub fr ∧ printTime t = dateText y m d ++ [ch 'T'] ++ clockText h mi s ++ fr := by
  obtain ⟨n, h, mi, s, sub, a1, a2, a3, a4, rfl, a5, a6⟩ := time_split t h0 h1
  obtain ⟨y, m, d, b1, b2, b3, b4, _, _, b7, _, b9⟩ := date_of n a5 a6
  refine ⟨y, m, d, h, mi, s, sub, n, printSub sub, ?_, by omega, by omega, by omega, by omega, a4, ?_,
    printSub_fraction sub a4, ?_⟩
  · rw [← b2]; exact days_ideal n
  · simp only [nsPerDay]; omega
  · rw [printTime_text n h mi s sub y m d b1 ⟨b3, b4⟩ b7 b9 a1 a2 a3 a4]
    simp [clockText]

example : dateText 1970 1 1 ++ [ch 'T'] ++ clockText 0 0 1 ++ (ch '.' :: field 3 1)
    = "1970-01-01T00:00:01.001".toList.map ch := by decide +kernel

/-- A date is read as the beginning of its day. -/
theorem C83_read_date (env : Env) (y m d : Nat) (n : Int) (hy : 1900 ≤ y ∧ y ≤ 9999) (h : DaysSince1970 n ⟨y, m, d⟩)
    (hn : n * nsPerDay < 2 ^ 63) :
    toData (withTimes env) (dateText y m d) = some (.time (n * nsPerDay)) := by
  have e := days_unique h
  have hv := ideal_valid n
  rw [← e] at hv
  obtain ⟨v1, v2, v3, v4⟩ := hv
  have hl := monthLength_bounds y m
  simp only at v1 v2 v3 v4
  have ht := toDays_ideal e.symm (by omega)
  apply toData_time
  rw [ymd_date (withTimes env) y m d hy ⟨v1, v2⟩ ⟨v3, by omega⟩]
  have hlow : -(2 ^ 63) ≤ n * nsPerDay := by
    have : -25567 ≤ n := by
      by_cases hlt : -106752 ≤ n
      · by_cases hgt : n ≤ 106751
        · have := (years n hlt hgt).2.2
          rw [← e] at this
          simp only at this
          omega
        · omega
      · exfalso
        -- an earlier day has an earlier year
        obtain ⟨e', c, q, a, doy, hi, hx⟩ := day_split n
        have hmk := ideal_mk e' hi
        rw [← hx, ← e] at hmk
        have hyear := congrArg Date.year hmk
        simp only [mk] at hyear
        obtain ⟨hc, hq, ha, hd⟩ := hi
        have hif : (if (md doy).1 ≤ 2 then (1 : Int) else 0) ≤ 1 := by split <;> omega
        omega
    simp only [nsPerDay]; omega
  have hc := civil_whole env y m d 0 0 0 0 (by omega) (by omega) (by omega) (by omega) none (by simp)
    (by rw [ht]; exact ⟨hlow, hn⟩) (by rw [ht]; simp; exact ⟨hlow, hn⟩)
  rw [ht] at hc
  show some (civil env y m d ((0 : Nat) : Int) ((0 : Nat) : Int) none 0, []) = _
  rw [hc]
  simp

example : dateText 2021 4 30 = "2021-04-30".toList.map ch := by decide +kernel
example (env : Env) : toData (withTimes env) ("2021-04-30".toList.map ch) = some (.time (18747 * nsPerDay)) := by
  have h : DaysSince1970 18747 ⟨2021, 4, 30⟩ := by
    have := C83_from_days 18747 (by decide) (by decide)
    rwa [show fromDays 18747 = ⟨2021, 4, 30⟩ by decide +kernel] at this
  have := C83_read_date env 2021 4 30 18747 (by decide) h (by decide)
  rwa [show dateText 2021 4 30 = "2021-04-30".toList.map ch by decide +kernel] at this

/-! ## C84: printing and reading points in time -/

/-- A date, a time of day and a zone: exact. -/
theorem C84_read_zone (env : Env) (y m d h mi s zh zm : Nat) (neg : Bool) (n : Int) (hy : 1900 ≤ y ∧ y ≤ 2261)
    (hd : DaysSince1970 n ⟨y, m, d⟩) (hh : h < 24) (hmi : mi < 60) (hs : s ≤ 60) (hzh : zh < 24) (hzm : zm < 60) :
    toData (withTimes env) (dateText y m d ++ [ch 'T'] ++ clockText h mi s ++ zoneText neg zh zm)
      = some (.time (((((n * 24 + h) * 60 + mi) - (if neg then -1 else 1) * (zh * 60 + zm)) * 60 + s) * 10 ^ 9)) := by
  have e := days_unique hd
  have hv := ideal_valid n
  rw [← e] at hv
  obtain ⟨v1, v2, v3, v4⟩ := hv
  have hl := monthLength_bounds y m
  simp only at v1 v2 v3 v4
  have ht := toDays_ideal e.symm (by omega)
  have hnb : -25567 ≤ n ∧ n ≤ 106650 := by
    obtain ⟨e', c, q, a, doy, hi, hx⟩ := day_split n
    have hmk := ideal_mk e' hi
    rw [← hx, ← e] at hmk
    have hyear := congrArg Date.year hmk
    simp only [mk] at hyear
    have hm : ∀ x < 366, (md x).1 ≤ 2 ↔ 306 ≤ x := by decide +kernel
    obtain ⟨hc, hq, ha, hd⟩ := hi
    have hm' := hm doy (by omega)
    simp only [hm'] at hyear
    have hes : e' = 4 ∨ e' = 5 := by split at hyear <;> omega
    have hcs : c = 0 ∨ c = 1 ∨ c = 2 ∨ c = 3 := by omega
    have has : a = 0 ∨ a = 1 ∨ a = 2 ∨ a = 3 := by omega
    rcases hes with rfl | rfl <;> rcases hcs with rfl | rfl | rfl | rfl <;> rcases has with rfl | rfl | rfl | rfl <;>
      (split at hyear <;> omega)
  apply toData_time
  have hstr : dateText y m d ++ [ch 'T'] ++ clockText h mi s ++ zoneText neg zh zm
      = dateText y m d ++ (ch 'T' :: (field 2 h ++ (ch ':' :: (field 2 mi ++ (ch ':' :: (field 2 s ++ zoneText neg zh zm)))))) := by
    simp [clockText]
  rw [hstr, ymd_time (withTimes env) y m d h mi ⟨hy.1, by omega⟩ ⟨v1, v2⟩ ⟨v3, by omega⟩ (by omega) (by omega),
    secPart_whole env s hs _ (by cases neg <;> rfl) (by cases neg <;> rfl)]
  simp only [zonePart_zone neg zh zm (by omega) (by omega)]
  have hlit : (Option.map litVal (some ⟨false, pd 2 s, []⟩)).getD 0 = s := by
    have h1 := value_pd 2 s (by omega)
    simp [litVal_whole _ (show value (pd 2 s) < 2 ^ 53 by omega), h1]
  have hoff : -1440 < (if neg then -1 else 1) * (zh * 60 + zm : Int) ∧ (if neg then -1 else 1) * (zh * 60 + zm : Int) < 1440 := by
    cases neg <;> simp <;> omega
  generalize (if neg then -1 else 1) * (zh * 60 + zm : Int) = off at *
  have hc := civil_whole env y m d h mi s off (by omega) (by omega) hs hoff _ hlit
    (by rw [ht]; simp only [nsPerDay]; omega) (by rw [ht]; simp only [nsPerDay]; omega)
  show some (civil env y m d h mi _ off, []) = _
  rw [hc, ht]
  simp only [nsPerDay]
  congr 2
  omega

example : dateText 2021 4 30 ++ [ch 'T'] ++ clockText 12 30 0 ++ zoneText false 2 0
    = "2021-04-30T12:30:00+02:00".toList.map ch := by decide +kernel

theorem ymd_whole (env : Env) (t : Int) (h0 : -2208988800 * 10 ^ 9 ≤ t) (h1 : t < 2 ^ 63) (hw : t % 10 ^ 9 = 0) :
    ymdhmsP (withTimes env) (printTime t) = some (t, []) := by
  obtain ⟨n, h, mi, s, sub, a1, a2, a3, a4, rfl, a5, a6⟩ := time_split t (by omega) h1
  obtain ⟨y, m, d, b1, b2, b3, b4, b5, b6, b7, b8, b9⟩ := date_of n a5 a6
  have hsub : sub = 0 := by simp only [nsPerDay] at hw; omega
  subst hsub
  have hn : -25567 ≤ n := by simp only [nsPerDay] at h0; omega
  have ht := toDays_ideal b2 (by omega)
  rw [printTime_text n h mi s 0 y m d b1 ⟨b3, b4⟩ b7 b9 a1 a2 a3 a4,
    ymd_time (withTimes env) y m d h mi ⟨b5.mp hn, by omega⟩ ⟨b6, b7⟩ ⟨b8, b9⟩ a1 a2,
    secPart_whole env s (by omega) _ rfl rfl, show zonePart (printSub 0) = (0, []) from rfl]
  have hlit : (Option.map litVal (some ⟨false, pd 2 s, []⟩)).getD 0 = s := by
    have h1 := value_pd 2 s (by omega)
    simp [litVal_whole _ (show value (pd 2 s) < 2 ^ 53 by omega), h1]
  have hc := civil_whole env y m d h mi s 0 a1 a2 (by omega) (by omega) _ hlit
    (by rw [ht]; simp only [nsPerDay] at h1 ⊢; omega) (by rw [ht]; simp only [nsPerDay] at h1 ⊢; omega)
  show some (civil env y m d h mi _ 0, []) = _
  rw [hc, ht]
  congr 2
  omega

/-- A point in time of whole seconds, from 1900 on, reads back exactly. -/
theorem C84_whole_seconds_partial (env : Env) (t : Int) (h0 : -2208988800 * 10 ^ 9 ≤ t) (h1 : t < 2 ^ 63) (hw : t % 10 ^ 9 = 0) :
    toData (withTimes env) (printTime t) = some (.time t) := by
  exact toData_time _ _ _ (ymd_whole env t h0 h1 hw)

example : (1619785800 * 10 ^ 9 : Int) % 10 ^ 9 = 0 ∧ (1619785800 * 10 ^ 9 : Int) < 2 ^ 63 := by decide

/-- A fraction of a second, from 1900 on, may come back one nanosecond short. -/
theorem C84_nearby_partial (env : Env) (t : Int) (h0 : -2208988800 * 10 ^ 9 ≤ t) (h1 : t < 2 ^ 63) :
    ∃ t', toData (withTimes env) (printTime t) = some (.time t') ∧ (t' = t ∨ t' = t - 1) := by
  by_cases hw : t % 10 ^ 9 = 0
  · exact ⟨t, C84_whole_seconds_partial env t h0 h1 hw, .inl rfl⟩
  obtain ⟨n, h, mi, s, sub, a1, a2, a3, a4, rfl, a5, a6⟩ := time_split t (by omega) h1
  obtain ⟨y, m, d, b1, b2, b3, b4, b5, b6, b7, b8, b9⟩ := date_of n a5 a6
  have hn : -25567 ≤ n := by simp only [nsPerDay] at h0; omega
  have ht := toDays_ideal b2 (by omega)
  -- the digits of the fraction
  obtain ⟨k, f, hk, hf, hsub, htext⟩ : ∃ k f, k ≤ 9 ∧ f < 10 ^ k ∧ sub = f * 10 ^ (9 - k) ∧ printSub sub = ch '.' :: field k f := by
    have hF := printSub_fraction sub a4
    generalize printSub sub = fr at hF
    cases hF with
    | none => exfalso; simp only [nsPerDay] at hw; omega
    | milli _ h' => exact ⟨3, _, by omega, h', rfl, rfl⟩
    | micro _ h' => exact ⟨6, _, by omega, h', rfl, rfl⟩
    | nano _ h' => exact ⟨9, _, by omega, h', by simp, rfl⟩
  have hsec : secPart (withTimes env) (ch ':' :: (field 2 s ++ printSub sub)) = (some ⟨false, pd 2 s, pd k f⟩, []) := by
    have := secPart_frac env s k f (by omega) hf hk [] rfl
    rwa [List.append_nil, ← htext] at this
  have hnear : ∃ N' : Int, trunc (rnd (rnd (((60 * ((h : Int) * 60 + mi - 0) : Int) : Rat) + litVal ⟨false, pd 2 s, pd k f⟩) * 10 ^ 9)) = N'
      ∧ (N' = (3600 * h + 60 * mi + s) * 10 ^ 9 + sub ∨ N' = (3600 * h + 60 * mi + s) * 10 ^ 9 + sub - 1) := by
    have hp0 : 0 < 10 ^ k := Nat.pow_pos (by omega)
    obtain ⟨c1, c2, c3⟩ := seconds_bounds (h * 60 + mi) s f (10 ^ k) hp0 hf (by omega) (by omega)
    have hx : (60 * ((h * 60 + mi : Nat) : Rat) + s + f / (10 ^ k : Nat)) * 10 ^ 9 = (((3600 * h + 60 * mi + s) * 10 ^ 9 + sub : Nat) : Rat) := by
      have hpow : (10 : Rat) ^ 9 = 10 ^ k * 10 ^ (9 - k) := by rw [← pow_add]; congr 1; omega
      have hk0 : (10 : Rat) ^ k ≠ 0 := by positivity
      rw [hsub]
      push_cast
      have : (f : Rat) / 10 ^ k * 10 ^ 9 = f * 10 ^ (9 - k) := by rw [hpow]; field_simp
      linarith
    rw [hx] at c1 c2
    have := trunc_near c3 c1 c2
    rw [litVal_pd s k f (by omega) hf hk]
    have hm : (((60 * ((h : Int) * 60 + mi - 0) : Int)) : Rat) = 60 * ((h * 60 + mi : Nat) : Rat) := by push_cast; ring
    rw [hm]
    refine ⟨_, rfl, ?_⟩
    push_cast at this ⊢
    omega
  obtain ⟨N', hN, hN'⟩ := hnear
  refine ⟨n * nsPerDay + N', ?_, by omega⟩
  apply toData_time
  rw [printTime_text n h mi s sub y m d b1 ⟨b3, b4⟩ b7 b9 a1 a2 a3 a4,
    ymd_time (withTimes env) y m d h mi ⟨b5.mp hn, by omega⟩ ⟨b6, b7⟩ ⟨b8, b9⟩ a1 a2, hsec]
  show some (civil env y m d h mi _ 0, []) = _
  have : civil env y m d h mi (some ⟨false, pd 2 s, pd k f⟩) 0 = n * nsPerDay + N' := by
    simp only [civil, Option.map_some, Option.getD_some, Int.toNat_natCast, ht, hN]
    rw [int64_in env (i := n * nsPerDay) (by simp only [nsPerDay] at h1 ⊢; omega) (by simp only [nsPerDay] at h1 ⊢; omega),
      int64_in env (by simp only [nsPerDay] at h1 ⊢; omega) (by simp only [nsPerDay] at h1 ⊢; omega)]
  rw [this]

/-- The first millisecond after the first second of 1970 comes back one nanosecond short. -/
theorem C84_subsecond_refuted (env : Env) :
    toData (withTimes env) (printTime 1001000000) = some (.time 1000999999) := by
  have hp := printTime_text 0 0 0 1 1000000 1970 1 1 (by decide +kernel) (by decide) (by decide) (by decide) (by decide) (by decide)
    (by decide) (by decide)
  rw [show (0 * nsPerDay + (3600 * ((0 : Nat) : Int) + 60 * ((0 : Nat) : Int) + ((1 : Nat) : Int)) * 10 ^ 9 + ((1000000 : Nat) : Int)) = 1001000000 by decide] at hp
  have hps : printSub 1000000 = ch '.' :: field 3 1 := by
    unfold printSub
    rw [if_neg (by decide), if_pos (by decide), padNat_field 3 _ (by decide) (by decide)]
  have hsec := secPart_frac env 1 3 1 (by decide) (by decide) (by decide) [] rfl
  rw [List.append_nil] at hsec
  apply toData_time
  rw [hp, ymd_time (withTimes env) 1970 1 1 0 0 (by decide) (by decide) (by decide) (by decide) (by decide), hps, hsec]
  show some (civil env (1970 : Nat) (1 : Nat) (1 : Nat) (0 : Nat) (0 : Nat) (some ⟨false, pd 2 1, pd 3 1⟩) 0, []) = _
  have e1 : toDays 1970 1 1 = 0 := by decide +kernel
  have e2 : trunc (rnd (rnd (((60 * (((0 : Nat) : Int) * 60 + ((0 : Nat) : Int) - 0) : Int) : Rat) + litVal ⟨false, pd 2 1, pd 3 1⟩) * 10 ^ 9)) = 1000999999 := by
    decide +kernel
  simp only [civil, Option.map_some, Option.getD_some, Int.toNat_natCast, e1, e2]
  rw [int64_in env (i := 0 * nsPerDay) (by decide) (by decide), int64_in env (by decide) (by decide)]
  rfl

/-- A point in time before 1900 is printed, but its text is not read. -/
theorem C84_before_1900_refuted (env : Env) (t : Int) (h0 : -(2 ^ 63) ≤ t) (h1 : t < -2208988800 * 10 ^ 9) :
    toData (withTimes env) (printTime t) = none := by
  obtain ⟨n, h, mi, s, sub, a1, a2, a3, a4, rfl, a5, a6⟩ := time_split t h0 (by omega)
  obtain ⟨y, m, d, b1, b2, b3, b4, b5, b6, b7, b8, b9⟩ := date_of n a5 a6
  have hn : ¬ (-25567 ≤ n) := by simp only [nsPerDay] at h1; omega
  have hy : y < 1900 := by
    rcases Nat.lt_or_ge y 1900 with h | h
    · exact h
    · exact absurd (b5.mpr h) hn
  rw [printTime_text n h mi s sub y m d b1 ⟨b3, b4⟩ b7 b9 a1 a2 a3 a4]
  have hstr : ∃ q, dateText y m d ++ (ch 'T' :: (field 2 h ++ (ch ':' :: (field 2 mi ++ (ch ':' :: (field 2 s ++ printSub sub))))))
      = field 4 y ++ (ch '-' :: q) :=
    ⟨field 2 m ++ (ch '-' :: (field 2 d ++ (ch 'T' :: (field 2 h ++ (ch ':' :: (field 2 mi ++ (ch ':' :: (field 2 s ++ printSub sub)))))))), by
      simp [dateText]⟩
  obtain ⟨q, hq⟩ := hstr
  rw [hq]
  have hym := ymd_early (withTimes env) y hy (ch '-' :: q)
  rw [field_txt] at hym ⊢
  have hd := pd_lt 4 y
  have hne := pd_ne 4 y (by omega)
  have hs := takeSign_txt (pd 4 y) hd hne (ch '-' :: q)
  have hnn := txt_append_ne (pd 4 y) hne (ch '-' :: q)
  have hl : (pd 4 y).length ≤ 20 := by rw [pd_length]; omega
  have h20 := takeDigits_all 20 (pd 4 y) hd hl (ch '-' :: q) rfl
  have hreal : ∀ b, realP b (txt (pd 4 y) ++ (ch '-' :: q)) = if b then none else some (⟨false, pd 4 y, []⟩, ch '-' :: q) := by
    intro b
    have e1 : eat '.' (ch '-' :: q) = none := by simp [eat]; decide
    have e2 : takeDigits 20 (ch '-' :: q) = ([], ch '-' :: q) := takeDigits_stop 20 _ rfl
    simp only [realP, if_neg hnn, hs, h20, e1, e2, hne, or_false]
  have hunit : lookup units (skipWs (ch '-' :: q)) = none := lookup_none _ _ units_names rfl
  have hsuf : lookup suffixes (skipWs (ch '-' :: q)) = none := lookup_none _ _ suffixes_names rfl
  have hdur : durationP (withTimes env) (txt (pd 4 y) ++ (ch '-' :: q)) = none := by
    simp [durationP, durOneP, hreal, hunit]
  have hhead : ∀ c, isDigit (ch c) = false → eat c (txt (pd 4 y) ++ (ch '-' :: q)) = none := by
    intro c hc
    apply eat_none
    cases hds : pd 4 y with
    | nil => exact absurd hds hne
    | cons e es =>
      have := digitChar_isDigit e (hd e (by simp [hds]))
      have e1 := digit_ne this c hc
      simp [txt, headNot, e1]
  have htime : timeP (withTimes env) (txt (pd 4 y) ++ (ch '-' :: q)) = none := by
    simp [timeP, hym, unixP, hhead '@' (by decide), nowShiftP, kw_none (hhead 'n' (by decide)), inP,
      kw_none (hhead 'i' (by decide)), agoP, hdur]
  have haddr : addrP (txt (pd 4 y) ++ (ch '-' :: q)) = none := by
    have hdrop : (pd 4 y).drop 4 = [] := List.drop_of_length_le (by rw [pd_length])
    apply addrP_none
    · exact hhead ':' (by decide)
    · have e1 : eat ':' (ch '-' :: q) = none := eat_none rfl
      have e2 := h16_txt (pd 4 y) hd hne (ch '-' :: q) rfl
      rw [hdrop, show txt [] ++ (ch '-' :: q) = ch '-' :: q from rfl] at e2
      simp only [h16c, e2, Option.bind_some, e1]
    · have h3 := takeDigits_txt 3 (pd 4 y) hd (ch '-' :: q) rfl
      have e1 : eat '.' (txt ((pd 4 y).drop 3) ++ (ch '-' :: q)) = none := by
        apply eat_none
        cases hds : (pd 4 y).drop 3 with
        | nil => exact absurd (congrArg List.length hds) (by rw [List.length_drop, pd_length]; simp)
        | cons e es =>
          have := digitChar_isDigit e (hd e (List.mem_of_mem_drop (i := 3) (by rw [hds]; simp)))
          simp [txt, headNot, digit_ne this '.' (by decide)]
      unfold v4P
      split
      · rfl
      · rename_i v x hx
        have : x = txt ((pd 4 y).drop 3) ++ (ch '-' :: q) := by
          unfold decP at hx
          split at hx
          · cases hx
          · rename_i v' x' hx'
            unfold uintP at hx'
            rw [h3] at hx'
            split at hx'
            · injection hx' with hx'
              injection hx' with _ hx'
              split at hx
              · injection hx with hx
                injection hx with _ hx
                rw [← hx, ← hx']
              · cases hx
            · cases hx'
        rw [this]
        simp [e1]
  have hcount : countP (txt (pd 4 y) ++ (ch '-' :: q)) = some (value (pd 4 y) % 2 ^ 64, ch '-' :: q) := by
    simp [countP, uintP, h20, pd_length, hsuf]
  simp [toData, dataP, alternatives, firstOf, as, htime, hdur, netP_none haddr, haddr, hreal, hcount]

example : printTime (-2208988800 * 10 ^ 9 - 1) = "1899-12-31T23:59:59.999999999".toList.map ch := by
  have hp := printTime_text (-25568) 23 59 59 999999999 1899 12 31 (by decide +kernel) (by decide) (by decide) (by decide) (by decide)
    (by decide) (by decide) (by decide)
  rw [show printSub 999999999 = ch '.' :: field 9 999999999 by
    unfold printSub
    rw [if_neg (by decide), if_neg (by decide), if_neg (by decide), padNat_field 9 _ (by decide) (by decide)]] at hp
  exact hp.trans (by decide +kernel)

/-- A day that its month does not have is read as one of the next month. -/
theorem C84_roll_over_refuted (env : Env) :
    ¬ Date.Valid ⟨2021, 2, 30⟩
    ∧ toData (withTimes env) (dateText 2021 2 30) = toData (withTimes env) (dateText 2021 3 2) := by
  constructor
  · intro h; exact absurd h.2.2.2 (by decide)
  · rw [toData_time _ _ _ (ymd_date (withTimes env) 2021 2 30 (by decide) (by decide) (by decide)),
      toData_time _ _ _ (ymd_date (withTimes env) 2021 3 2 (by decide) (by decide) (by decide))]
    show some (Data.time (civil env (2021 : Nat) (2 : Nat) (30 : Nat) 0 0 none 0)) = some (.time (civil env (2021 : Nat) (3 : Nat) (2 : Nat) 0 0 none 0))
    have e1 : toDays 2021 2 30 = toDays 2021 3 2 := by decide +kernel
    simp only [civil, Int.toNat_natCast, e1]

/-- Seconds since the epoch, without a fraction, are exact until the year 2116. -/
theorem C84_unix_partial (env : Env) (k n : Nat) (hk : 0 < k ∧ k ≤ 20) (hn : n < 10 ^ k) (h : n < 4611686018) :
    toData (withTimes env) (ch '@' :: field k n) = some (.time (n * 10 ^ 9)) := by
  apply toData_unix
  · exact ymdhmsP_other (withTimes env) rfl
  · have hs := takeSign_txt (pd k n) (pd_lt k n) (pd_ne k n hk.1) []
    have h1 := takeDigits_all 20 (pd k n) (pd_lt k n) (by rw [pd_length]; omega) [] rfl
    have h3 := txt_append_ne (pd k n) (pd_ne k n hk.1) []
    rw [List.append_nil] at hs h1 h3
    have hreal : realP false (field k n) = some (⟨false, pd k n, []⟩, []) := by
      rw [field_txt]
      simp [realP, hs, h1, h3, eat_nil, pd_ne k n hk.1, takeDigits]
    have hv := value_pd k n hn
    have hl : litVal ⟨false, pd k n, []⟩ = n := by rw [litVal_whole _ (by omega), hv]
    have hx : rnd ((n : Rat) * 10 ^ 9) = ((n * 10 ^ 9 : Int) : Rat) := by
      have := rnd_nat (n * 1953125) 9 (by omega)
      rw [show n * 1953125 * 2 ^ 9 = n * 10 ^ 9 by omega] at this
      push_cast at this ⊢
      exact this
    have hu : (withTimes env).unix ⟨false, pd k n, []⟩ = n * 10 ^ 9 := by
      show unix env _ = _
      rw [unix, hl, hx, trunc_int]
      unfold Env.int64
      rw [if_pos (by omega)]
    simp [unixP, eat_cons, hreal, hu]

example : ch '@' :: field 10 1619785800 = "@1619785800".toList.map ch := by decide +kernel

end Verif.Calendar
