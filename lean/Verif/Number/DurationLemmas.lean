import Verif.Number.Reading
/-! Lemmas about the text of durations. -/
namespace Verif.Number
open Verif.DataText Verif.Data Verif.Calendar Verif.DataText.Spec Verif.Number.Spec

theorem pick_eq (d : Int) : pick d =
    if 86400000000000 ≤ d.natAbs then (86400000000000, ['d']) else if 3600000000000 ≤ d.natAbs then (3600000000000, ['h'])
    else if 60000000000 ≤ d.natAbs then (60000000000, ['m']) else if 1000000000 ≤ d.natAbs then (1000000000, ['s'])
    else if 1000000 ≤ d.natAbs then (1000000, ['m', 's']) else if 1000 ≤ d.natAbs then (1000, ['u', 's']) else (1, ['n', 's']) := by
  generalize hn : d.natAbs = n
  have h : ∀ u, 0 < u → (1 ≤ n / u ↔ u ≤ n) := by
    intro u hu
    rw [Nat.le_div_iff_mul_le hu, Nat.one_mul]
  unfold pick printUnits
  simp only [List.find?_cons, hn, h _ (show 0 < 86400 * 10 ^ 9 by decide), h _ (show 0 < 3600 * 10 ^ 9 by decide), h _ (show 0 < 60 * 10 ^ 9 by decide),
    h _ (show 0 < 10 ^ 9 by decide), h _ (show 0 < 10 ^ 6 by decide), h _ (show 0 < 10 ^ 3 by decide)]
  by_cases h1 : 86400000000000 ≤ n
  · simp [h1]
  by_cases h2 : 3600000000000 ≤ n
  · simp [h1, h2]
  by_cases h3 : 60000000000 ≤ n
  · simp [h1, h2, h3]
  by_cases h4 : 1000000000 ≤ n
  · simp [h1, h2, h3, h4]
  by_cases h5 : 1000000 ≤ n
  · simp [h1, h2, h3, h4, h5]
  by_cases h6 : 1000 ≤ n
  · simp [h1, h2, h3, h4, h5, h6]
  · simp [h1, h2, h3, h4, h5, h6]

theorem pick_unit {d : Int} {name : String} {u : Nat} (h : UnitFor d name u) : pick d = (u, name.toList) := by
  obtain ⟨hm, hl, hg⟩ := h
  rw [pick_eq]
  have g1 := hg "us" 1000 (by decide)
  have g2 := hg "ms" 1000000 (by decide)
  have g3 := hg "s" 1000000000 (by decide)
  have g4 := hg "m" 60000000000 (by decide)
  have g5 := hg "h" 3600000000000 (by decide)
  have g6 := hg "d" 86400000000000 (by decide)
  clear hg
  generalize d.natAbs = n at *
  simp only [Spec.units, List.mem_cons, List.not_mem_nil, or_false, Prod.mk.injEq] at hm
  rcases hm with ⟨rfl, rfl⟩ | ⟨rfl, rfl⟩ | ⟨rfl, rfl⟩ | ⟨rfl, rfl⟩ | ⟨rfl, rfl⟩ | ⟨rfl, rfl⟩ | ⟨rfl, rfl⟩
  · rw [if_neg (by omega), if_neg (by omega), if_neg (by omega), if_neg (by omega), if_neg (by omega), if_neg (by omega)]; rfl
  · rw [if_neg (by omega), if_neg (by omega), if_neg (by omega), if_neg (by omega), if_neg (by omega), if_pos (by omega)]; rfl
  · rw [if_neg (by omega), if_neg (by omega), if_neg (by omega), if_neg (by omega), if_pos (by omega)]; rfl
  · rw [if_neg (by omega), if_neg (by omega), if_neg (by omega), if_pos (by omega)]; rfl
  · rw [if_neg (by omega), if_neg (by omega), if_pos (by omega)]; rfl
  · rw [if_neg (by omega), if_pos (by omega)]; rfl
  · rw [if_pos (by omega)]; rfl

/-- Every duration has a unit. -/
theorem unit_exists (d : Int) : ∃ name u, UnitFor d name u := by
  have mk : ∀ (name : String) (u : Nat), (name, u) ∈ Spec.units → (u ≤ d.natAbs ∨ u = 1) →
      (∀ u' ∈ Spec.units.map Prod.snd, u < u' → d.natAbs < u') → ∃ name u, UnitFor d name u :=
    fun name u h1 h2 h3 => ⟨name, u, h1, h2, fun name' u' hm => h3 u' (List.mem_map.mpr ⟨(name', u'), hm, rfl⟩)⟩
  generalize d.natAbs = n at *
  have all : ∀ u, (∀ u' ∈ Spec.units.map Prod.snd, u < u' → n < u') ↔
      ((u < 1 → n < 1) ∧ (u < 1000 → n < 1000) ∧ (u < 1000000 → n < 1000000) ∧ (u < 1000000000 → n < 1000000000)
        ∧ (u < 60000000000 → n < 60000000000) ∧ (u < 3600000000000 → n < 3600000000000) ∧ (u < 86400000000000 → n < 86400000000000)) := by
    intro u; simp [Spec.units]
  by_cases h1 : 86400000000000 ≤ n
  · exact mk "d" 86400000000000 (by decide) (by omega) ((all _).mpr (by omega))
  by_cases h2 : 3600000000000 ≤ n
  · exact mk "h" 3600000000000 (by decide) (by omega) ((all _).mpr (by omega))
  by_cases h3 : 60000000000 ≤ n
  · exact mk "m" 60000000000 (by decide) (by omega) ((all _).mpr (by omega))
  by_cases h4 : 1000000000 ≤ n
  · exact mk "s" 1000000000 (by decide) (by omega) ((all _).mpr (by omega))
  by_cases h5 : 1000000 ≤ n
  · exact mk "ms" 1000000 (by decide) (by omega) ((all _).mpr (by omega))
  by_cases h6 : 1000 ≤ n
  · exact mk "us" 1000 (by decide) (by omega) ((all _).mpr (by omega))
  · exact mk "ns" 1 (by decide) (by omega) ((all _).mpr (by omega))

/-- What matters about a unit: either the duration is exact as a `double` and less than 1000 units, or the unit is a day. -/
theorem unit_cases {d : Int} {name : String} {u : Nat} (h : UnitFor d name u) : (d.natAbs < 2 ^ 53 ∧ d.natAbs < 1000 * u ∧ 1 ≤ u) ∨ u = 86400000000000 := by
  obtain ⟨hm, hl, hg⟩ := h
  have g1 := hg "us" 1000 (by decide)
  have g2 := hg "ms" 1000000 (by decide)
  have g3 := hg "s" 1000000000 (by decide)
  have g4 := hg "m" 60000000000 (by decide)
  have g5 := hg "h" 3600000000000 (by decide)
  have g6 := hg "d" 86400000000000 (by decide)
  clear hg
  generalize d.natAbs = n at *
  simp only [Spec.units, List.mem_cons, List.not_mem_nil, or_false, Prod.mk.injEq] at hm
  rcases hm with ⟨rfl, rfl⟩ | ⟨rfl, rfl⟩ | ⟨rfl, rfl⟩ | ⟨rfl, rfl⟩ | ⟨rfl, rfl⟩ | ⟨rfl, rfl⟩ | ⟨rfl, rfl⟩ <;> omega

theorem rnd_neg (x : Rat) : rnd (-x) = -rnd x := by
  unfold rnd
  rcases lt_trichotomy x 0 with h | h | h
  · rw [if_neg (by linarith), if_pos h, neg_neg]
  · subst h; decide +kernel
  · rw [if_pos (by linarith), if_neg (by linarith), neg_neg]

/-- The count of units, without the sign. -/
def countAbs (n u : Nat) : Rat := rnd (rnd n / u)

theorem count_eq (d : Int) (u : Nat) : Number.count d u = (if d < 0 then -1 else 1) * countAbs d.natAbs u := by
  unfold Number.count countAbs
  by_cases h : d < 0
  · rw [if_pos h]
    obtain ⟨n, rfl⟩ : ∃ n : Nat, d = -(n : Int) := ⟨d.natAbs, by omega⟩
    rw [Int.natAbs_neg, Int.natAbs_natCast]
    push_cast
    rw [rnd_neg, neg_div, rnd_neg]; ring
  · rw [if_neg h, one_mul]
    obtain ⟨n, rfl⟩ : ∃ n : Nat, d = (n : Int) := ⟨d.natAbs, by omega⟩
    rw [Int.natAbs_natCast]
    rfl

theorem rnd_near_nat (n : Nat) (h : n < 2 ^ 63) : (n : Rat) - 512 ≤ rnd n ∧ rnd n ≤ n + 512 := by
  by_cases hs : n < 2 ^ 53
  · rw [rnd_small n hs]; constructor <;> linarith
  · have h53 : 2 ^ 53 ≤ n := by omega
    have h0 : ¬ ((n : Rat) < 0) := not_lt.mpr (by exact_mod_cast Nat.zero_le n)
    unfold rnd
    rw [if_neg h0]
    unfold rndPos
    have e1 : (n : Rat).num = n := by simp
    have e2 : (n : Rat).den = 1 := by simp
    rw [e1, e2, if_neg (by omega)]
    unfold rndFrac
    rw [Int.toNat_natCast, if_neg (by omega)]
    have hl := lost_le n 10 h53 h
    generalize lost n 1 = j at *
    have hp : 0 < 2 ^ j := Nat.pow_pos (by omega)
    have hj : 2 ^ j ≤ 2 ^ 10 := Nat.pow_le_pow_right (by omega) hl
    obtain ⟨b1, b2⟩ := nearest_bounds n (1 * 2 ^ j) (by omega)
    rw [Nat.one_mul] at *
    generalize nearest n (2 ^ j) * 2 ^ j = a at *
    have c1 : a ≤ n + 512 := by omega
    have c2 : n ≤ a + 512 := by omega
    constructor
    · have : (n : Rat) ≤ a + 512 := by exact_mod_cast c2
      linarith
    · exact_mod_cast c1

theorem countAbs_bounds {n u : Nat} (hn : n < 2 ^ 63) (hu : (n < 2 ^ 53 ∧ n < 1000 * u ∧ 1 ≤ u) ∨ u = 86400000000000) :
    (n : Rat) / u - 1 / 10 ^ 10 ≤ countAbs n u ∧ countAbs n u ≤ (n : Rat) / u + 1 / 10 ^ 10 ∧ ((n / u : Nat) : Rat) ≤ countAbs n u := by
  have hu0 : 0 < u := by omega
  have huq : (0 : Rat) < u := by exact_mod_cast hu0
  have hk : n / u * u ≤ n := Nat.div_mul_le_self n u
  unfold countAbs
  rcases hu with ⟨h1, h2, h3⟩ | rfl
  · rw [rnd_small n h1]
    have hlt : (n : Rat) / u ≤ 1000 := by
      rw [div_le_iff₀ huq]; exact_mod_cast h2.le
    have h0 : (0 : Rat) ≤ n / u := div_nonneg (by exact_mod_cast Nat.zero_le n) huq.le
    obtain ⟨b1, b2, _⟩ := rnd_abs (e := 1 / 10 ^ 10) h0 hlt (by norm_num) (by norm_num)
    refine ⟨b1, b2, rnd_ge ?_ (by have : (1000 : Rat) < 2 ^ 53 := by norm_num
                                  linarith)⟩
    rw [le_div_iff₀ huq]
    exact_mod_cast hk
  · obtain ⟨b1, b2⟩ := rnd_near_nat n hn
    have hge : (((n / 86400000000000) * 86400000000000 : Nat) : Rat) ≤ rnd n := by
      have e : ∀ k : Nat, k * 84375000000 * 2 ^ 10 = k * 86400000000000 := fun k => by rw [Nat.mul_assoc]; norm_num
      have := rnd_ge_nat (n / 86400000000000 * 84375000000) 10 n hn (by rw [e]; exact hk)
      rwa [e] at this
    generalize rnd (n : Rat) = y at *
    have hy0 : 0 ≤ y := le_trans (by exact_mod_cast Nat.zero_le _) hge
    have hnq : (n : Rat) < 2 ^ 63 := by exact_mod_cast hn
    have hy : y / ((86400000000000 : Nat) : Rat) ≤ 106752 := by
      rw [div_le_iff₀ huq]
      push_cast
      have : (2 : Rat) ^ 63 + 512 ≤ 106752 * 86400000000000 := by norm_num
      linarith
    obtain ⟨c1, c2, _⟩ := rnd_abs (e := 1 / (2 * 10 ^ 10)) (div_nonneg hy0 huq.le) hy (by norm_num) (by norm_num)
    have d1 : (n : Rat) / ((86400000000000 : Nat) : Rat) - 1 / (2 * 10 ^ 10) ≤ y / ((86400000000000 : Nat) : Rat) := by
      rw [le_div_iff₀ huq, sub_mul, div_mul_cancel₀ _ huq.ne']
      push_cast
      have : (1 : Rat) / (2 * 10 ^ 10) * 86400000000000 ≥ 512 := by norm_num
      linarith
    have d2 : y / ((86400000000000 : Nat) : Rat) ≤ (n : Rat) / ((86400000000000 : Nat) : Rat) + 1 / (2 * 10 ^ 10) := by
      rw [div_le_iff₀ huq, add_mul, div_mul_cancel₀ _ huq.ne']
      push_cast
      have : (1 : Rat) / (2 * 10 ^ 10) * 86400000000000 ≥ 512 := by norm_num
      linarith
    have e : (1 : Rat) / (2 * 10 ^ 10) + 1 / (2 * 10 ^ 10) = 1 / 10 ^ 10 := by norm_num
    refine ⟨by linarith, by linarith, rnd_ge ?_ (lt_of_le_of_lt hy (by norm_num))⟩
    rw [le_div_iff₀ huq]
    exact_mod_cast hge

theorem div_split (n u : Nat) (hu : 0 < u) : (n : Rat) / u = (n / u : Nat) + ((n % u : Nat) : Rat) / u := by
  have huq : (u : Rat) ≠ 0 := by exact_mod_cast hu.ne'
  have h := Nat.div_add_mod n u
  have : (n : Rat) = u * (n / u : Nat) + (n % u : Nat) := by exact_mod_cast h.symm
  rw [this]
  field_simp

theorem floor_count {c : Rat} {k : Nat} (h1 : (k : Rat) ≤ c) (h2 : c < k + 1) : c.floor = k := by
  have : ⌊c⌋ = (k : Int) := by
    rw [Int.floor_eq_iff]
    exact ⟨by exact_mod_cast h1, by exact_mod_cast h2⟩
  exact this

/-- Whole numbers of units are exact. -/
theorem rnd_units {k u : Nat} (hn : k * u < 2 ^ 63) (hu : k * u < 2 ^ 53 ∨ u = 86400000000000) : rnd ((k * u : Nat) : Rat) = (k * u : Nat) := by
  rcases hu with h | rfl
  · exact rnd_small _ h
  · have hk : k * 1318359375 < 2 ^ 53 := by
      have h1 : k * 86400000000000 < 9223372036854775808 := hn
      have h2 : k < 106752 := by
        by_contra hc
        have := Nat.mul_le_mul_right 86400000000000 (Nat.not_lt.mp hc)
        omega
      calc k * 1318359375 ≤ 106752 * 1318359375 := Nat.mul_le_mul_right _ h2.le
        _ < 2 ^ 53 := by norm_num
    have e : k * 1318359375 * 2 ^ 16 = k * 86400000000000 := by rw [Nat.mul_assoc]; norm_num
    have := rnd_nat (k * 1318359375) 16 hk
    rwa [e] at this

end Verif.Number
