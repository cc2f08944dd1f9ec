import Verif.Calendar.Spec
/-!
# Lemmas about dates
-/
namespace Verif.Calendar

/-- Month and day of the day `doy` of a year that begins in March. -/
def md (doy : Nat) : Nat × Nat :=
  let mp := (5 * doy + 2) / 153
  (if mp < 10 then mp + 3 else mp - 9, doy - (153 * mp + 2) / 5 + 1)

/-- Year `400 * e + y`, beginning in March, and its day `doy`. -/
def mk (e : Int) (y doy : Nat) : Date :=
  ⟨400 * e + y + (if (md doy).1 ≤ 2 then 1 else 0), (md doy).1, (md doy).2⟩

/-- The year 400 e + 100 c + 4 q + a has a day `doy`. -/
structure InYear (c q a doy : Nat) : Prop where
  hc : c < 4
  hq : q < 25
  ha : a < 4
  hd : doy ≤ 364 ∨ (doy = 365 ∧ a = 3 ∧ (q < 24 ∨ c = 3))

theorem subU_eq {a b : Nat} (h : b ≤ a) (h2 : a < 2 ^ 32) : subU a b = a - b := by
  unfold subU; omega

/-- The year of the era. -/
theorem yoe_eq {c q a doy : Nat} (h : InYear c q a doy) (x : Nat) (hx : x = 36524 * c + 1461 * q + 365 * a + doy) :
    (subU (subU x (x / 1460) + x / 36524) (x / 146096)) / 365 = 100 * c + 4 * q + a := by
  obtain ⟨hc, hq, ha, hd⟩ := h
  rw [subU_eq (a := x) (by omega) (by omega), subU_eq (by omega) (by omega)]
  have h1 : x / 146096 = if x = 146096 then 1 else 0 := by split <;> omega
  have h2 : x / 36524 = if x = 146096 then 4 else c := by split <;> omega
  have h3 : x / 1460 = 25 * c + q + (36524 * c + 1461 * q + 365 * a + doy - 1460 * (25 * c + q)) / 1460 := by omega
  rw [h1, h2, h3]
  split
  · omega
  · omega

theorem ofEra_eq {c q a doy : Nat} (h : InYear c q a doy) :
    ofEra (36524 * c + 1461 * q + 365 * a + doy) = (100 * c + 4 * q + a, md doy) := by
  have hy := yoe_eq h _ rfl
  have hdoy : doy ≤ 365 := by have := h.hd; omega
  obtain ⟨hc, hq, ha, hd⟩ := h
  have h1 : subU (36524 * c + 1461 * q + 365 * a + doy)
      (subU (365 * (100 * c + 4 * q + a) + (100 * c + 4 * q + a) / 4) ((100 * c + 4 * q + a) / 100)) = doy := by
    rw [subU_eq (a := 365 * (100 * c + 4 * q + a) + (100 * c + 4 * q + a) / 4) (by omega) (by omega),
      subU_eq (by omega) (by omega)]
    omega
  have h2 : subU doy ((153 * ((5 * doy + 2) / 153) + 2) / 5) = doy - (153 * ((5 * doy + 2) / 153) + 2) / 5 :=
    subU_eq (by omega) (by omega)
  have h3 : (doy - (153 * ((5 * doy + 2) / 153) + 2) / 5 + 1) % 256 = doy - (153 * ((5 * doy + 2) / 153) + 2) / 5 + 1 :=
    Nat.mod_eq_of_lt (by omega)
  have h4 : (if (5 * doy + 2) / 153 < 10 then (5 * doy + 2) / 153 + 3 else (5 * doy + 2) / 153 - 9) % 256
      = if (5 * doy + 2) / 153 < 10 then (5 * doy + 2) / 153 + 3 else (5 * doy + 2) / 153 - 9 :=
    Nat.mod_eq_of_lt (by split <;> omega)
  simp only [ofEra, hy, h1, h2, h3, h4, md]

/-- Every day of an era is a day of one of its years. -/
theorem era_split (x : Nat) (h : x < 146097) :
    ∃ c q a doy, InYear c q a doy ∧ x = 36524 * c + 1461 * q + 365 * a + doy := by
  refine ⟨min (x / 36524) 3, (x - 36524 * min (x / 36524) 3) / 1461,
    min (((x - 36524 * min (x / 36524) 3) % 1461) / 365) 3,
    (x - 36524 * min (x / 36524) 3) % 1461 - 365 * min (((x - 36524 * min (x / 36524) 3) % 1461) / 365) 3, ?_, ?_⟩
  · have h0 : min (x / 36524) 3 < 4 := by omega
    generalize hc : min (x / 36524) 3 = c at *
    have h1 : x - 36524 * c < 36525 ∧ (x - 36524 * c = 36524 → c = 3) := by omega
    generalize hr : x - 36524 * c = r at *
    refine ⟨h0, by omega, by omega, ?_⟩
    omega
  · omega

/-- The date of every day, with years of any size. -/
def ideal (n : Int) : Date :=
  let e := (n + 719468).ediv 146097
  let x := ((n + 719468).emod 146097).toNat
  ⟨400 * e + (ofEra x).1 + (if (ofEra x).2.1 ≤ 2 then 1 else 0), (ofEra x).2.1, (ofEra x).2.2⟩

theorem ideal_mk (e : Int) {c q a doy : Nat} (h : InYear c q a doy) :
    ideal (146097 * e + (36524 * c + 1461 * q + 365 * a + doy) - 719468) = mk e (100 * c + 4 * q + a) doy := by
  have hb := h
  obtain ⟨hc, hq, ha, hd⟩ := hb
  have h1 : (146097 * e + (36524 * c + 1461 * q + 365 * a + doy) - 719468 + 719468 : Int).ediv 146097 = e := by
    show (_ : Int) / _ = _
    omega
  have h2 : ((146097 * e + (36524 * c + 1461 * q + 365 * a + doy) - 719468 + 719468 : Int).emod 146097).toNat
      = 36524 * c + 1461 * q + 365 * a + doy := by
    show ((_ : Int) % _).toNat = _
    omega
  simp only [ideal, h1, h2, ofEra_eq h, mk]

theorem day_split (n : Int) : ∃ (e : Int) (c q a doy : Nat), InYear c q a doy
    ∧ n = 146097 * e + (36524 * c + 1461 * q + 365 * a + doy) - 719468 := by
  obtain ⟨c, q, a, doy, h, hx⟩ := era_split ((n + 719468) % 146097).toNat (by omega)
  exact ⟨(n + 719468) / 146097, c, q, a, doy, h, by omega⟩

/-- The length of a month, given whether the year is a leap year. -/
def len (l : Bool) (m : Nat) : Nat :=
  if m = 2 then (if l then 29 else 28) else if m = 4 ∨ m = 6 ∨ m = 9 ∨ m = 11 then 30 else 31

theorem md_month : ∀ doy < 366, 1 ≤ (md doy).1 ∧ (md doy).1 ≤ 12 ∧ 1 ≤ (md doy).2 ∧ (md doy).2 ≤ len true (md doy).1
    ∧ (doy < 365 → (md doy).2 ≤ len false (md doy).1) := by decide +kernel

theorem md_feb : ∀ doy < 366, (md doy).1 = 2 → 337 ≤ doy := by decide +kernel

def stepOk (l : Bool) (doy : Nat) : Bool :=
  if (md doy).2 < len l (md doy).1 then decide (md (doy + 1) = ((md doy).1, (md doy).2 + 1))
  else if (md doy).1 < 12 then
    decide (md (doy + 1) = ((md doy).1 + 1, 1)) && decide ((md doy).1 + 1 ≤ 2 ↔ (md doy).1 ≤ 2)
  else decide (md (doy + 1) = (1, 1)) && decide (¬ (md doy).1 ≤ 2)

/-- From a day to the next within a year. -/
theorem md_next : ∀ l : Bool, ∀ doy < 365, (doy < 364 ∨ l = true) →
    ((md doy).2 < len l (md doy).1 → md (doy + 1) = ((md doy).1, (md doy).2 + 1))
    ∧ (¬ (md doy).2 < len l (md doy).1 → (md doy).1 < 12 →
        md (doy + 1) = ((md doy).1 + 1, 1) ∧ ((md doy).1 + 1 ≤ 2 ↔ (md doy).1 ≤ 2))
    ∧ (¬ (md doy).2 < len l (md doy).1 → ¬ (md doy).1 < 12 →
        md (doy + 1) = (1, 1) ∧ ¬ (md doy).1 ≤ 2) := by
  intro l doy h h'
  have hs : ∀ doy < 365, stepOk true doy = true := by decide +kernel
  have hs' : ∀ doy < 364, stepOk false doy = true := by decide +kernel
  have : stepOk l doy = true := by
    cases l with
    | true => exact hs doy h
    | false => exact hs' doy (by simpa using h')
  simp only [stepOk] at this
  refine ⟨fun h1 => ?_, fun h1 h2 => ?_, fun h1 h2 => ?_⟩
  · simpa [h1] using this
  · simpa [h1, h2] using this
  · simpa [h1, h2] using this

theorem leap_eq (e : Int) {c q a doy : Nat} (h : InYear c q a doy) :
    leap (400 * e + (100 * c + 4 * q + a : Nat) + 1) = decide (a = 3 ∧ (q < 24 ∨ c = 3)) := by
  obtain ⟨hc, hq, ha, _⟩ := h
  have h4 : ((400 * e + (100 * c + 4 * q + a : Nat) + 1) % 4 = 0) ↔ a = 3 := by omega
  have h100 : ((400 * e + (100 * c + 4 * q + a : Nat) + 1) % 100 = 0) ↔ (a = 3 ∧ q = 24) := by omega
  have h400 : ((400 * e + (100 * c + 4 * q + a : Nat) + 1) % 400 = 0) ↔ (a = 3 ∧ q = 24 ∧ c = 3) := by omega
  simp only [leap, h4, h100, h400]
  have hq' : q < 24 ↔ ¬ q = 24 := by omega
  by_cases h1 : a = 3 <;> by_cases h2 : q = 24 <;> by_cases h3 : c = 3 <;> simp [h1, h2, h3, hq']

theorem monthLength_len (y : Int) (m : Nat) : monthLength y m = len (leap y) m := rfl

/-- The length of the month of a day depends on the year of the following February only. -/
theorem mk_len (e : Int) (y doy : Nat) :
    monthLength (mk e y doy).year (mk e y doy).month = len (leap (400 * e + y + 1)) (md doy).1 := by
  rw [monthLength_len]
  simp only [mk]
  by_cases h : (md doy).1 ≤ 2
  · rw [if_pos h]
  · have : (md doy).1 ≠ 2 := by omega
    simp only [len, if_neg this]

theorem mk_valid (e : Int) {c q a doy : Nat} (h : InYear c q a doy) : (mk e (100 * c + 4 * q + a) doy).Valid := by
  have hd := h.hd
  obtain ⟨h1, h2, h3, h4, h5⟩ := md_month doy (by omega)
  refine ⟨h1, h2, h3, ?_⟩
  rw [mk_len, leap_eq e h]
  rcases hd with hd | ⟨_, hd⟩
  · cases decide (a = 3 ∧ (q < 24 ∨ c = 3)) with
    | true => exact h4
    | false => exact h5 (by omega)
  · rw [decide_eq_true hd]; exact h4

/-- The day after, within the year. -/
theorem mk_next (e : Int) {c q a doy : Nat} (h : InYear c q a (doy + 1)) :
    (mk e (100 * c + 4 * q + a) doy).next = mk e (100 * c + 4 * q + a) (doy + 1) := by
  have hd := h.hd
  have hl := leap_eq e h
  have hn := md_next (leap (400 * e + (100 * c + 4 * q + a : Nat) + 1)) doy (by omega) (by
    rw [hl, decide_eq_true_eq]; omega)
  unfold Date.next
  rw [mk_len]
  obtain ⟨n1, n2, n3⟩ := hn
  by_cases h1 : (md doy).2 < len (leap (400 * e + (100 * c + 4 * q + a : Nat) + 1)) (md doy).1
  · have := n1 h1
    refine (if_pos h1).trans ?_
    simp only [mk, this]
  · refine (if_neg h1).trans ?_
    by_cases h2 : (md doy).1 < 12
    · have := n2 h1 h2
      refine (if_pos h2).trans ?_
      simp only [mk, this.1, this.2]
    · have := n3 h1 h2
      refine (if_neg h2).trans ?_
      simp [mk, this.1, this.2]

/-- The last day of a year and the first of the next. -/
theorem mk_last (e e' : Int) {c q a doy : Nat} (y : Nat) (h : InYear c q a doy) (hl : ¬ InYear c q a (doy + 1))
    (hy : 400 * e' + y = 400 * e + (100 * c + 4 * q + a : Nat) + 1) :
    (mk e (100 * c + 4 * q + a) doy).next = mk e' y 0 := by
  have hle := leap_eq e h
  obtain ⟨hc, hq, ha, hd⟩ := h
  have h0 : md 0 = (3, 1) := by decide
  unfold Date.next
  rw [mk_len, hle]
  by_cases hx : a = 3 ∧ (q < 24 ∨ c = 3)
  · have : doy = 365 := by
      rcases hd with hd | hd
      · exfalso; apply hl; refine ⟨hc, hq, ha, ?_⟩; omega
      · exact hd.1
    subst this
    have h1 : md 365 = (2, 29) := by decide
    rw [decide_eq_true hx]
    simp only [mk, h1, h0]
    simp [len]
    omega
  · have : doy = 364 := by
      rcases hd with hd | hd
      · by_cases h' : doy = 364
        · exact h'
        · exfalso; apply hl; refine ⟨hc, hq, ha, ?_⟩; omega
      · exact absurd hd.2 hx
    subst this
    have h1 : md 364 = (2, 28) := by decide
    rw [decide_eq_false hx]
    simp only [mk, h1, h0]
    simp [len]
    omega

theorem ideal_valid (n : Int) : (ideal n).Valid := by
  obtain ⟨e, c, q, a, doy, h, rfl⟩ := day_split n
  rw [ideal_mk e h]
  exact mk_valid e h

theorem ideal_next (n : Int) : (ideal n).next = ideal (n + 1) := by
  obtain ⟨e, c, q, a, doy, h, rfl⟩ := day_split n
  rw [ideal_mk e h]
  have hb := h
  obtain ⟨hc, hq, ha, hd⟩ := hb
  by_cases hn : InYear c q a (doy + 1)
  · have := ideal_mk e hn
    rw [mk_next e hn, ← this]
    congr 1
    omega
  · -- the next year: the same group of four, the next group, the next century, the next era
    have hlen : doy = if a = 3 ∧ (q < 24 ∨ c = 3) then 365 else 364 := by
      split
      · rcases hd with hd | hd
        · exfalso; apply hn; refine ⟨hc, hq, ha, ?_⟩; omega
        · exact hd.1
      · rcases hd with hd | hd
        · by_cases h' : doy = 364
          · exact h'
          · exfalso; apply hn; refine ⟨hc, hq, ha, ?_⟩; omega
        · rename_i hx; exact absurd hd.2 hx
    by_cases h1 : a < 3
    · have hi : InYear c q (a + 1) 0 := ⟨hc, hq, by omega, .inl (by omega)⟩
      rw [mk_last e e (100 * c + 4 * q + (a + 1)) h hn (by omega), ← ideal_mk e hi]
      congr 1
      rw [if_neg (by omega)] at hlen
      omega
    · have ha3 : a = 3 := by omega
      by_cases h2 : q < 24
      · have hi : InYear c (q + 1) 0 0 := ⟨hc, by omega, by omega, .inl (by omega)⟩
        rw [mk_last e e (100 * c + 4 * (q + 1) + 0) h hn (by omega), ← ideal_mk e hi]
        congr 1
        rw [if_pos (by omega)] at hlen
        omega
      · by_cases h3 : c < 3
        · have hi : InYear (c + 1) 0 0 0 := ⟨by omega, by omega, by omega, .inl (by omega)⟩
          rw [mk_last e e (100 * (c + 1) + 4 * 0 + 0) h hn (by omega), ← ideal_mk e hi]
          congr 1
          rw [if_neg (by omega)] at hlen
          omega
        · have hi : InYear 0 0 0 0 := ⟨by omega, by omega, by omega, .inl (by omega)⟩
          rw [mk_last e (e + 1) (100 * 0 + 4 * 0 + 0) h hn (by omega), ← ideal_mk (e + 1) hi]
          congr 1
          rw [if_pos (by omega)] at hlen
          omega

theorem ideal_epoch : ideal 0 = ⟨1970, 1, 1⟩ := by decide +kernel

theorem days_nat (n : Nat) : DaysSince1970 n (ideal n) ∧ DaysSince1970 (-n) (ideal (-n)) := by
  induction n with
  | zero => rw [show ((0 : Nat) : Int) = 0 from rfl, show (-(0 : Int)) = 0 from rfl, ideal_epoch]; exact ⟨.epoch, .epoch⟩
  | succ n ih =>
    constructor
    · have := DaysSince1970.later ih.1
      rw [ideal_next] at this
      exact_mod_cast this
    · apply DaysSince1970.earlier (ideal_valid _)
      rw [ideal_next]
      have : (-((n + 1 : Nat) : Int) + 1) = -(n : Int) := by omega
      rw [this]
      exact ih.2

theorem days_ideal (n : Int) : DaysSince1970 n (ideal n) := by
  rcases Int.le_total 0 n with h | h
  · have := (days_nat n.toNat).1
    rwa [Int.toNat_of_nonneg h] at this
  · have := (days_nat (-n).toNat).2
    rwa [Int.toNat_of_nonneg (by omega), Int.neg_neg] at this

theorem monthLength_bounds (y : Int) (m : Nat) : 28 ≤ monthLength y m ∧ monthLength y m ≤ 31 := by
  unfold monthLength; split <;> (try split) <;> (try split) <;> omega

theorem next_inj {d d' : Date} (h : d.Valid) (h' : d'.Valid) (he : d.next = d'.next) : d = d' := by
  obtain ⟨y, m, k⟩ := d
  obtain ⟨y', m', k'⟩ := d'
  obtain ⟨a1, a2, a3, a4⟩ := h
  obtain ⟨b1, b2, b3, b4⟩ := h'
  have l1 := monthLength_bounds y m
  have l2 := monthLength_bounds y' m'
  have hdec : ∀ z, monthLength z 12 = 31 := fun z => rfl
  simp only at *
  unfold Date.next at he
  simp only at he
  split at he <;> split at he <;> (try split at he) <;> (try split at he) <;> simp only [Date.mk.injEq] at he ⊢ <;>
    first
    | (obtain ⟨e1, e2, e3⟩ := he; omega)
    | (obtain ⟨e1, e2, e3⟩ := he
       have e2' : m = m' := by omega
       have e1' : y = y' := by omega
       subst e1'; subst e2'; exact ⟨rfl, rfl, by omega⟩)

theorem days_unique {n : Int} {d : Date} (h : DaysSince1970 n d) : d = ideal n := by
  induction h with
  | epoch => exact ideal_epoch.symm
  | later _ ih => rw [ih, ideal_next]
  | earlier hd _ ih => rw [← ideal_next] at ih; exact next_inj hd (ideal_valid _) ih

/-- `from_days` computes the date if the year fits. -/
theorem fromDays_ideal (n : Int) (h0 : 0 ≤ (ideal n).year) (h1 : (ideal n).year < 2 ^ 16) : fromDays n = ideal n := by
  obtain ⟨e, c, q, a, doy, h, hn⟩ := day_split n
  have hi := ideal_mk e h
  rw [← hn] at hi
  rw [hi] at h0 h1 ⊢
  have hb := h
  obtain ⟨hc, hq, ha, hd⟩ := hb
  have he : (if n + 719468 ≥ 0 then n + 719468 else n + 719468 - 146096).tdiv 146097 = e := by
    split
    · rw [Int.tdiv_eq_ediv_of_nonneg (by omega)]; omega
    · have : n + 719468 - 146096 = -(-(n + 719468 - 146096)) := by omega
      rw [this, Int.neg_tdiv, Int.tdiv_eq_ediv_of_nonneg (by omega)]; omega
  have hx : (n + 719468 - e * 146097) % 2 ^ 32 = (36524 * c + 1461 * q + 365 * a + doy : Nat) := by omega
  simp only [fromDays, he, hx, Int.toNat_natCast, ofEra_eq h]
  simp only [mk] at h0 h1 ⊢
  congr 1
  omega

/-- The day of the year, beginning in March, of a day of a month. -/
def doyOf (m d : Nat) : Nat := (153 * (if m > 2 then m - 3 else m + 9) + 2) / 5 + d - 1

def dateOk (m d : Nat) : Bool :=
  if decide (1 ≤ m) && decide (1 ≤ d) && decide (d ≤ len true m) then
    decide (md (doyOf m d) = (m, d)) && decide (doyOf m d ≤ 365) && (decide (¬ d ≤ len false m) || decide (doyOf m d ≤ 364))
  else true

theorem md_doyOf : ∀ m < 13, ∀ d < 32, 1 ≤ m → 1 ≤ d → d ≤ len true m →
    md (doyOf m d) = (m, d) ∧ doyOf m d ≤ 365 ∧ (d ≤ len false m → doyOf m d ≤ 364) := by
  intro m hm d hd h1 h2 h3
  have hs : ∀ m < 13, ∀ d < 32, dateOk m d = true := by decide +kernel
  have := hs m hm d hd
  simp only [dateOk] at this
  simp only [h1, h2, h3, decide_true, Bool.and_true, Bool.true_and, if_true, Bool.and_eq_true, decide_eq_true_eq, Bool.or_eq_true] at this
  refine ⟨this.1.1, this.1.2, fun h4 => ?_⟩
  rcases this.2 with h5 | h5
  · exact absurd h4 h5
  · exact h5

theorem monthLength_le (l : Bool) (m : Nat) : len l m ≤ len true m ∧ len l m ≤ 31 := by
  unfold len; cases l <;> simp <;> split <;> (try split) <;> omega

theorem toDays_roll (y m d : Nat) (hy : y < 2 ^ 16) (hm : 1 ≤ m ∧ m ≤ 12) (hd : 1 ≤ d ∧ d < 256) :
    toDays y m d = toDays y m 1 + (d - 1) := by
  simp only [toDays]
  generalize hz : ((y : Int) - if m ≤ 2 then 1 else 0) = z
  have hz' : -1 ≤ z ∧ z < 2 ^ 16 := by split at hz <;> omega
  generalize he : (if z ≥ 0 then z else z - 399).tdiv 400 = e
  have he' : e = z / 400 := by
    subst he
    split
    · exact Int.tdiv_eq_ediv_of_nonneg (by omega)
    · have : z - 399 = -(-(z - 399)) := by omega
      rw [this, Int.neg_tdiv, Int.tdiv_eq_ediv_of_nonneg (by omega)]; omega
  generalize hq : ((z - e * 400) % 2 ^ 32).toNat = yoe
  have hq' : yoe < 400 := by omega
  generalize hmp : (if m > 2 then m - 3 else m + 9) = mp
  have hmp' : mp ≤ 11 := by split at hmp <;> omega
  rw [subU_eq (a := (153 * mp + 2) / 5 + d) (by omega) (by omega), subU_eq (a := (153 * mp + 2) / 5 + 1) (by omega) (by omega)]
  omega

/-- Where `to_days` puts a date. -/
theorem toDays_split (y m d : Nat) (hy : y < 2 ^ 16) (hv : Date.Valid ⟨y, m, d⟩) :
    ∃ (e : Int) (c q a doy : Nat), InYear c q a doy ∧ mk e (100 * c + 4 * q + a) doy = ⟨y, m, d⟩
      ∧ toDays y m d = 146097 * e + (36524 * c + 1461 * q + 365 * a + doy) - 719468 := by
  obtain ⟨h1, h2, h3, h4⟩ := hv
  simp only at h1 h2 h3 h4
  rw [monthLength_len] at h4
  have hl := monthLength_le (leap y) m
  obtain ⟨hmd, hb, hb'⟩ := md_doyOf m (by omega) d (by omega) h1 h3 (by omega)
  generalize hz : ((y : Int) - if m ≤ 2 then 1 else 0) = z
  have hz' : -1 ≤ z ∧ z < 2 ^ 16 := by split at hz <;> omega
  have he : (if z ≥ 0 then z else z - 399).tdiv 400 = z / 400 := by
    split
    · exact Int.tdiv_eq_ediv_of_nonneg (by omega)
    · have : z - 399 = -(-(z - 399)) := by omega
      rw [this, Int.neg_tdiv, Int.tdiv_eq_ediv_of_nonneg (by omega)]; omega
  have hq : ((z - z / 400 * 400) % 2 ^ 32).toNat = (z % 400).toNat := by omega
  generalize hyoe : (z % 400).toNat = yoe at hq
  have hyoe' : yoe < 400 := by omega
  have hzy : z = 400 * (z / 400) + yoe := by omega
  have hsplit : 100 * (yoe / 100) + 4 * (yoe % 100 / 4) + yoe % 4 = yoe := by omega
  have hi : InYear (yoe / 100) (yoe % 100 / 4) (yoe % 4) (doyOf m d) := by
    refine ⟨by omega, by omega, by omega, ?_⟩
    by_cases hd : d ≤ len false m
    · exact .inl (hb' hd)
    · by_cases h364 : doyOf m d ≤ 364
      · exact .inl h364
      · right
        refine ⟨by omega, ?_⟩
        have hle : leap y = true := by
          cases hx : leap y with
          | true => rfl
          | false => rw [hx] at h4; exact absurd h4 hd
        have hm2 : m ≤ 2 := by
          have : m = 2 := by
            unfold len at hd
            by_cases hm : m = 2
            · exact hm
            · rw [hle] at h4
              unfold len at h4
              rw [if_neg hm] at hd h4
              exact absurd h4 hd
          omega
        rw [if_pos hm2] at hz
        simp only [leap, Bool.and_eq_true, decide_eq_true_eq, Bool.or_eq_true, Bool.not_eq_true', decide_eq_false_iff_not] at hle
        omega
  refine ⟨z / 400, yoe / 100, yoe % 100 / 4, yoe % 4, doyOf m d, hi, ?_, ?_⟩
  · rw [hsplit]
    simp only [mk, hmd]
    congr 1
    omega
  · simp only [toDays, hz, he, hq]
    have hmp : (if m > 2 then m - 3 else m + 9) ≤ 11 := by split <;> omega
    have hdoy : subU ((153 * (if m > 2 then m - 3 else m + 9) + 2) / 5 + d) 1 = doyOf m d := by
      rw [subU_eq (by omega) (by omega)]; rfl
    rw [hdoy, subU_eq (by omega) (by omega)]
    omega

theorem ideal_toDays (y m d : Nat) (hy : y < 2 ^ 16) (hv : Date.Valid ⟨y, m, d⟩) : ideal (toDays y m d) = ⟨y, m, d⟩ := by
  obtain ⟨e, c, q, a, doy, hi, hm, ht⟩ := toDays_split y m d hy hv
  rw [ht, ideal_mk e hi, hm]

/-- Different days have different dates. -/
theorem mk_inj {e e' : Int} {c q a doy c' q' a' doy' : Nat} (h : InYear c q a doy) (h' : InYear c' q' a' doy')
    (he : mk e (100 * c + 4 * q + a) doy = mk e' (100 * c' + 4 * q' + a') doy') :
    (36524 * c + 1461 * q + 365 * a + doy + 146097 * e : Int) = 36524 * c' + 1461 * q' + 365 * a' + doy' + 146097 * e' := by
  have hdo : ∀ x < 366, doyOf (md x).1 (md x).2 = x := by decide +kernel
  have hx := hdo doy (by have := h.hd; omega)
  have hx' := hdo doy' (by have := h'.hd; omega)
  simp only [mk, Date.mk.injEq] at he
  obtain ⟨e1, e2, e3⟩ := he
  rw [e2, e3, hx'] at hx
  rw [e2] at e1
  obtain ⟨a1, a2, a3, _⟩ := h
  obtain ⟨b1, b2, b3, _⟩ := h'
  have e4 : 400 * e + (100 * c + 4 * q + a : Nat) = 400 * e' + (100 * c' + 4 * q' + a' : Nat) := by omega
  have e5 : e = e' := by omega
  have e6 : c = c' := by omega
  have e7 : q = q' := by omega
  omega

theorem ideal_inj {n n' : Int} (h : ideal n = ideal n') : n = n' := by
  obtain ⟨e, c, q, a, doy, hi, rfl⟩ := day_split n
  obtain ⟨e', c', q', a', doy', hi', rfl⟩ := day_split n'
  rw [ideal_mk e hi, ideal_mk e' hi'] at h
  have := mk_inj hi hi' h
  omega

/-- Bounds on the years. -/
theorem ideal_year (n : Int) (h0 : -719528 ≤ n) (h1 : n < 23217002) : 0 ≤ (ideal n).year ∧ (ideal n).year < 2 ^ 16 := by
  obtain ⟨e, c, q, a, doy, hi, rfl⟩ := day_split n
  rw [ideal_mk e hi]
  obtain ⟨hc, hq, ha, hd⟩ := hi
  have hm : ∀ x < 366, (md x).1 ≤ 2 ↔ 306 ≤ x := by decide +kernel
  have hm' := hm doy (by omega)
  simp only [mk, hm']
  have he : -1 ≤ e := by omega
  rcases Int.lt_or_le e 0 with hneg | hpos
  · have : e = -1 := by omega
    subst this
    have h3 : c = 3 := by omega
    subst h3
    have h4 : q = 24 := by omega
    subst h4
    have h5 : a = 3 := by omega
    subst h5
    split <;> omega
  · split <;> omega

end Verif.Calendar
