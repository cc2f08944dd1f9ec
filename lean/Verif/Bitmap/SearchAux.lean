import Verif.Bitmap.NaryLemmas
import Verif.Bitmap.IterLemmas

/-!
# Remaining lemmas for C04 and C07
-/

namespace Verif.Bitmap

open Spec

theorem all_rep {d : EwahBitmap} {l : List Bool} (h2 : Represents d l) (bit : Bool) :
    all bit d = true ↔ l ≠ [] ∧ ∀ b ∈ l, b = bit := by
  obtain ⟨r1, r2, r3⟩ := bitRange_spec h2
  have hsz : d.size = l.length := r2
  rw [all]
  split
  · next h0 =>
    have : l = [] := List.eq_nil_of_length_eq_zero (by omega)
    simp [this]
  · next h0 =>
    have hne : l ≠ [] := by intro h; rw [h] at hsz; simp at hsz; omega
    rw [any, any_spec (!bit) _ r3, r1]
    simp only [Bool.not_eq_true', List.contains_eq_mem, decide_eq_false_iff_not, ne_eq, hne, not_false_eq_true,
      true_and]
    constructor
    · intro h b hb
      cases b <;> cases bit <;> simp_all
    · intro h hm
      have := h _ hm
      cases bit <;> simp at this

theorem diff_all {x y : EwahBitmap} {a b : List Bool} (hx : Represents x a) (hy : Represents y b) :
    ∃ d, binaryNand x y = some d
      ∧ (all false d = true ↔ pointwise (fun p q => p && !q) a b ≠ []
          ∧ ∀ c ∈ pointwise (fun p q => p && !q) a b, c = false) := by
  obtain ⟨d, h1, h2⟩ := binaryNand_rep hx hy
  exact ⟨d, h1, all_rep h2 false⟩

theorem count_take_isNth {l : List Bool} {k p : Nat} (h : IsNth true l (k + 1) p) :
    (l.take (p + 1)).count true = k + 1 := by
  rw [List.take_add_one, List.count_append, h.1, h.2]; simp

theorem isNth_next {l : List Bool} {k o p : Nat} (h : IsNth true l (k + 1) o) (hop : o < p)
    (hp : l[p]? = some true) (hno : ∀ q, o + 1 ≤ q → q < p → l[q]? ≠ some true) : IsNth true l (k + 1 + 1) p := by
  refine ⟨hp, ?_⟩
  have h1 := count_take_isNth h
  have : l.take p = l.take (o + 1) ++ (l.drop (o + 1)).take (p - (o + 1)) := by
    rw [← List.take_append_drop (o + 1) (l.take p), List.take_take, List.drop_take]
    congr 2; omega
  rw [this, List.count_append, h1]
  have h0 : ((l.drop (o + 1)).take (p - (o + 1))).count true = 0 := by
    rw [List.count_eq_zero]
    intro hm
    obtain ⟨i, hi⟩ := List.mem_iff_getElem?.1 hm
    rw [List.getElem?_take] at hi
    split at hi
    · rw [List.getElem?_drop] at hi
      exact hno _ (by omega) (by omega) hi
    · simp at hi
  omega

theorem iterate_at {l : List Bool} {r : BitwiseRange} (h : MovedTo l true 0 r) :
    ∀ j, j < l.count true →
    ∃ o, At l (Nat.repeat (BitwiseRange.selectNext true) j r) o ∧ IsNth true l (j + 1) o
  | 0, hj => by
    rcases h with ⟨p, h1, h2, h3, h4⟩ | ⟨h1, h2⟩
    · refine ⟨p, h4, h2, ?_⟩
      rw [List.count_eq_zero]
      intro hm
      obtain ⟨i, hi⟩ := List.mem_iff_getElem?.1 hm
      rw [List.getElem?_take] at hi
      split at hi
      · next hlt => exact h3 i (Nat.zero_le _) hlt hi
      · simp at hi
    · exfalso
      have hpos : 0 < l.count true := by omega
      obtain ⟨i, hi⟩ := List.mem_iff_getElem?.1 (List.count_pos_iff.1 hpos)
      exact h1 i (Nat.zero_le _) hi
  | j + 1, hj => by
    obtain ⟨o, ho1, ho2⟩ := iterate_at h j (by omega)
    rcases selectNext_at true ho1 with ⟨p, h1, h2, h3, h4⟩ | ⟨h1, h2⟩
    · exact ⟨p, h4, isNth_next ho2 (by omega) h2 h3⟩
    · exfalso
      have hc := count_take_isNth ho2
      have hsplit : l.count true = (l.take (o + 1)).count true + (l.drop (o + 1)).count true := by
        rw [← List.count_append, List.take_append_drop]
      have h0 : (l.drop (o + 1)).count true = 0 := by
        rw [List.count_eq_zero]
        intro hm
        obtain ⟨i, hi⟩ := List.mem_iff_getElem?.1 hm
        rw [List.getElem?_drop] at hi
        exact h1 _ (by omega) hi
      omega

/-! ## `make_ids` -/

theorem range_bits (n m : Nat) (id : Nat) :
    (List.replicate n false ++ List.replicate m true)[id]? = some true ↔ n ≤ id ∧ id < n + m := by
  rw [List.getElem?_append]
  simp only [List.length_replicate, List.getElem?_replicate]
  by_cases h1 : id < n
  · simp [h1]; omega
  · by_cases h2 : id - n < m
    · simp [h1, h2]; omega
    · simp [h1, h2]; omega

theorem pointwise_or_getElem? (a b : List Bool) (id : Nat) :
    (pointwise (· || ·) a b)[id]? = some true ↔ a[id]? = some true ∨ b[id]? = some true := by
  rw [pointwise, List.getElem?_map]
  by_cases h : id < max a.length b.length
  · rw [List.getElem?_range h]
    simp only [Option.map_some, Option.some.injEq, Bool.or_eq_true, List.getD]
    cases h1 : a[id]? <;> cases h2 : b[id]? <;> simp
  · rw [List.getElem?_eq_none (by simpa using h)]
    simp [List.getElem?_eq_none (l := a) (i := id) (by omega), List.getElem?_eq_none (l := b) (i := id) (by omega)]

theorem makeIdsGo_rep : ∀ (ranges : List (Nat × Nat)), (∀ r ∈ ranges, r.1 < r.2) →
    ∀ {s : EwahBitmap} {l : List Bool}, Represents s l →
    ∃ bm l', makeIdsGo s ranges = some bm ∧ Represents bm l'
      ∧ (∀ id, l'[id]? = some true ↔ l[id]? = some true ∨ ∃ r ∈ ranges, r.1 ≤ id ∧ id < r.2)
      ∧ (∀ n, l'.length ≤ n ↔ l.length ≤ n ∧ ∀ r ∈ ranges, r.2 ≤ n)
  | [], _, s, l, h => ⟨s, l, rfl, h, by simp, by simp⟩
  | (first, last) :: ranges, hr, s, l, h => by
    have hlt : first < last := hr (first, last) (by simp)
    have hsz : s.size = l.length := (bitRange_spec h).2.1
    rw [makeIdsGo, if_neg (by omega)]
    have hcont : ∀ {s1 : EwahBitmap} {l1 : List Bool}, Represents s1 l1 →
        (∀ id, l1[id]? = some true ↔ l[id]? = some true ∨ (first ≤ id ∧ id < last)) →
        (∀ n, l1.length ≤ n ↔ l.length ≤ n ∧ last ≤ n) →
        ∃ bm l', makeIdsGo s1 ranges = some bm ∧ Represents bm l'
          ∧ (∀ id, l'[id]? = some true ↔ l[id]? = some true ∨ ∃ r ∈ (first, last) :: ranges, r.1 ≤ id ∧ id < r.2)
          ∧ (∀ n, l'.length ≤ n ↔ l.length ≤ n ∧ ∀ r ∈ (first, last) :: ranges, r.2 ≤ n) := by
      intro s1 l1 h1 h2 h3
      obtain ⟨bm, l', i1, i2, i3, i4⟩ := makeIdsGo_rep ranges (fun r hr' => hr r (by simp [hr'])) h1
      refine ⟨bm, l', i1, i2, fun id => ?_, fun n => ?_⟩
      · rw [i3, h2]
        simp only [List.mem_cons, exists_eq_or_imp]
        rw [or_assoc]
      · rw [i4, h3]
        simp only [List.mem_cons, forall_eq_or_imp]
        rw [and_assoc]
    by_cases hge : first ≥ s.size
    · rw [if_pos hge]
      obtain ⟨s1, a1, a2⟩ := appendBits_rep h false (first - s.size)
      obtain ⟨s2, b1, b2⟩ := appendBits_rep a2 true (last - first)
      simp only [a1, b1, Option.bind_eq_bind, Option.bind_some]
      apply hcont b2
      · intro id
        rw [List.append_assoc, List.getElem?_append]
        split
        · next hid => constructor
                      · exact Or.inl
                      · rintro (h | h)
                        · exact h
                        · omega
        · next hid =>
          rw [range_bits, List.getElem?_eq_none (by omega)]
          simp; omega
      · intro n
        simp; omega
    · rw [if_neg hge]
      obtain ⟨s1, a1, a2⟩ := appendBits_rep (s := {}) (l := []) (Or.inl ⟨rfl, rfl⟩) false first
      obtain ⟨s2, b1, b2⟩ := appendBits_rep a2 true (last - first)
      obtain ⟨s3, c1, c2⟩ := binaryOr_rep h b2
      simp only [a1, b1, c1, Option.bind_eq_bind, Option.bind_some]
      apply hcont c2
      · intro id
        rw [pointwise_or_getElem?, List.nil_append, range_bits]
        constructor <;> (rintro (h | h); exact Or.inl h; right; omega)
      · intro n
        simp [pointwise]; omega

theorem makeIds_rep (ranges : List (Nat × Nat)) (hr : ∀ r ∈ ranges, r.1 < r.2) (minSize : Nat) (defaultBit : Bool) :
    ∃ bm l, makeIds ranges minSize defaultBit = some bm ∧ Represents bm l
      ∧ ∀ id, l[id]? = some true ↔ (∃ r ∈ ranges, r.1 ≤ id ∧ id < r.2)
          ∨ (defaultBit = true ∧ id < minSize ∧ ∀ r ∈ ranges, r.2 ≤ id) := by
  obtain ⟨bm, l, h1, h2, h3, h4⟩ := makeIdsGo_rep ranges hr (s := {}) (l := []) (Or.inl ⟨rfl, rfl⟩)
  have hsz : bm.size = l.length := (bitRange_spec h2).2.1
  have h3' : ∀ id, l[id]? = some true ↔ ∃ r ∈ ranges, r.1 ≤ id ∧ id < r.2 := by
    intro id; rw [h3]; simp
  have h4' : ∀ n, l.length ≤ n ↔ ∀ r ∈ ranges, r.2 ≤ n := by
    intro n; rw [h4]; simp
  simp only [makeIds, h1, Option.bind_eq_bind, Option.bind_some]
  by_cases hlt : bm.size < minSize
  · rw [if_pos hlt]
    obtain ⟨s1, a1, a2⟩ := appendBits_rep h2 defaultBit (minSize - bm.size)
    refine ⟨s1, _, a1, a2, fun id => ?_⟩
    rw [List.getElem?_append, ← h4']
    split
    · next hid =>
      rw [h3']
      constructor
      · exact Or.inl
      · rintro (h | h)
        · exact h
        · omega
    · next hid =>
      have hno : ¬ ∃ r ∈ ranges, r.1 ≤ id ∧ id < r.2 := by
        rw [← h3', List.getElem?_eq_none (by omega)]; simp
      rw [List.getElem?_replicate]
      by_cases hm : id < minSize
      · rw [if_pos (by omega)]
        constructor
        · intro h; exact Or.inr ⟨by simpa using h, hm, by omega⟩
        · rintro (h | h)
          · exact absurd h hno
          · simp [h.1]
      · rw [if_neg (by omega)]
        constructor
        · intro h; simp at h
        · rintro (h | h)
          · exact absurd h hno
          · omega
  · rw [if_neg hlt]
    refine ⟨bm, l, rfl, h2, fun id => ?_⟩
    rw [h3']
    constructor
    · exact Or.inl
    · rintro (h | ⟨-, h5, h6⟩)
      · exact h
      · rw [← h4'] at h6; omega

end Verif.Bitmap
