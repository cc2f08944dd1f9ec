import Verif.Bitmap.CountLemmas

/-!
# Lemmas for counting, searching and iterating bitmaps
-/

namespace Verif.Bitmap

open Spec

theorem concat_cons (b : Bits) (bs : List Bits) : concat (b :: bs) = b.toList ++ concat bs := by
  simp [concat]

theorem count_true_add_count_false : ∀ l : List Bool, l.count true + l.count false = l.length
  | [] => rfl
  | b :: l => by
    have := count_true_add_count_false l
    cases b <;> simp <;> omega

theorem getGo_spec : ∀ (bs : List Bits) (n i : Nat), n ≤ i →
    EwahBitmap.getGo i n bs = (concat bs)[i - n]?
  | [], n, i, _ => by simp [EwahBitmap.getGo, concat]
  | b :: bs, n, i, h => by
    rw [EwahBitmap.getGo, concat_cons, List.getElem?_append]
    simp only [toList_length]
    by_cases h1 : i < n + b.size
    · rw [if_pos ⟨h, h1⟩, if_pos (by omega), Bits.toList, List.getElem?_map, List.getElem?_range (by omega)]; rfl
    · rw [if_neg (by omega), if_neg (by omega), getGo_spec bs (n + b.size) i (by omega)]
      congr 1; omega

theorem rankGo_spec (bit : Bool) : ∀ (bs : List Bits), (∀ b ∈ bs, b.Valid) → ∀ (i r n : Nat),
    n ≤ i → i - n < (concat bs).length →
    rankGo bit i r n bs = r + ((concat bs).take (i - n + 1)).count bit
  | [], _, i, r, n, _, hi => by simp [concat] at hi
  | b :: bs, hv, i, r, n, h, hi => by
    rw [concat_cons] at hi ⊢
    rw [rankGo]
    have hb := hv b (by simp)
    by_cases h1 : i < n + b.size
    · rw [if_pos ⟨h, h1⟩, rankAt_spec hb bit (by omega), List.take_append_of_le_length (by simp; omega)]
    · rw [if_neg (by omega)]
      rw [List.length_append, toList_length] at hi
      rw [rankGo_spec bit bs (fun b' hb' => hv b' (by simp [hb'])) i _ (n + b.size) (by omega) (by omega)]
      have h2 : i - n + 1 = b.toList.length + (i - (n + b.size) + 1) := by simp; omega
      rw [h2, List.take_append, List.take_of_length_le (i := b.toList.length + _) (by omega), List.count_append]
      have h3 : (if bit = true then Bits.rank true b else b.size - Bits.rank true b) = b.toList.count bit := by
        rw [rank_spec hb]
        cases bit
        · have := count_true_add_count_false b.toList
          simp at this ⊢; omega
        · rfl
      rw [h3]
      have h4 : b.toList.length + (i - (n + b.size) + 1) - b.toList.length = i - (n + b.size) + 1 := by omega
      rw [h4]; omega

theorem isNth_append {bit : Bool} {l r : List Bool} {k p : Nat}
    (hk : l.count bit < k) (h : IsNth bit r (k - l.count bit) p) : IsNth bit (l ++ r) k (l.length + p) := by
  refine ⟨?_, ?_⟩
  · rw [List.getElem?_append_right (by omega), Nat.add_sub_cancel_left]; exact h.1
  · rw [List.take_append, List.take_of_length_le (by omega), List.count_append, Nat.add_sub_cancel_left, h.2]; omega

theorem selectGo_spec' (bit : Bool) : ∀ (bs : List Bits), (∀ b ∈ bs, b.Valid) → ∀ (k r n : Nat), r < k →
    match selectGo bit k r n bs with
    | some p => ∃ q, p = n + q ∧ IsNth bit (concat bs) (k - r) q
    | none => (concat bs).count bit < k - r
  | [], _, k, r, n, h => by simp [selectGo, concat]; omega
  | b :: bs, hv, k, r, n, h => by
    have hb := hv b (by simp)
    have h3 : (if bit = true then Bits.rank true b else b.size - Bits.rank true b) = b.toList.count bit := by
      rw [rank_spec hb]
      cases bit
      · have := count_true_add_count_false b.toList
        simp at this ⊢; omega
      · rfl
    rw [concat_cons, selectGo]
    simp only [h3]
    by_cases hc : r + b.toList.count bit ≥ k
    · rw [if_pos hc]
      obtain ⟨p, hp1, hp2⟩ := select_spec hb bit (k := k - r) (by omega) (by omega)
      rw [hp1]
      simp only [Option.map_some]
      refine ⟨p, rfl, ?_⟩
      have hlt : p < b.toList.length := by
        obtain ⟨hlt, -⟩ := List.getElem?_eq_some_iff.1 hp2.1; exact hlt
      refine ⟨by rw [List.getElem?_append_left hlt]; exact hp2.1, ?_⟩
      rw [List.take_append_of_le_length (by omega)]; exact hp2.2
    · rw [if_neg hc]
      have ih := selectGo_spec' bit bs (fun b' hb' => hv b' (by simp [hb'])) k (r + b.toList.count bit)
        (n + b.size) (by omega)
      split at ih
      · obtain ⟨q, hq1, hq2⟩ := ih
        refine ⟨b.toList.length + q, by simp; omega, ?_⟩
        exact isNth_append (by omega) (by rw [Nat.sub_sub]; exact hq2)
      · rw [List.count_append]; omega

/-- Searching from the right end of a concatenation. -/
theorem isLast_append_right {bit : Bool} {l r : List Bool} {p : Nat} (h : IsLast bit r p) :
    IsLast bit (l ++ r) (l.length + p) := by
  refine ⟨by rw [List.getElem?_append_right (by omega), Nat.add_sub_cancel_left]; exact h.1, fun q hq => ?_⟩
  rw [List.getElem?_append_right (by omega)]
  exact h.2 _ (by omega)

theorem isLast_append_left {bit : Bool} {l r : List Bool} {p : Nat} (h : IsLast bit l p)
    (hr : ∀ q : Nat, r[q]? ≠ some bit) : IsLast bit (l ++ r) p := by
  have hlt : p < l.length := by
    obtain ⟨hlt, -⟩ := List.getElem?_eq_some_iff.1 h.1; exact hlt
  refine ⟨by rw [List.getElem?_append_left hlt]; exact h.1, fun q hq => ?_⟩
  rw [List.getElem?_append]
  split
  · exact h.2 q hq
  · exact hr _

theorem not_append {bit : Bool} {l r : List Bool} (hl : ∀ q : Nat, l[q]? ≠ some bit)
    (hr : ∀ q : Nat, r[q]? ≠ some bit) : ∀ q : Nat, (l ++ r)[q]? ≠ some bit := by
  intro q
  rw [List.getElem?_append]
  split
  · exact hl q
  · exact hr _

theorem frameLastGo_spec (bit : Bool) : ∀ (bs : List Bits), (∀ b ∈ bs, b.Valid) → ∀ (s : Option Nat) (n : Nat),
    (∃ p, frameLastGo bit s n bs = some (n + p) ∧ IsLast bit (concat bs) p)
    ∨ (frameLastGo bit s n bs = s ∧ ∀ q : Nat, (concat bs)[q]? ≠ some bit)
  | [], _, s, n => Or.inr ⟨rfl, by simp [concat]⟩
  | b :: bs, hv, s, n => by
    have hb := hv b (by simp)
    rw [frameLastGo, concat_cons]
    have hs := findLast_spec hb bit
    have ih := fun s => frameLastGo_spec bit bs (fun b' hb' => hv b' (by simp [hb'])) s (n + b.size)
    cases hp : b.findLast bit with
    | some p =>
      rw [hp] at hs
      simp only at hs ⊢
      rcases ih (some (n + p)) with ⟨q, h1, h2⟩ | ⟨h1, h2⟩
      · exact Or.inl ⟨b.toList.length + q, by rw [h1]; simp [Nat.add_assoc], isLast_append_right h2⟩
      · exact Or.inl ⟨p, h1, isLast_append_left hs h2⟩
    | none =>
      rw [hp] at hs
      simp only at hs ⊢
      rcases ih s with ⟨q, h1, h2⟩ | ⟨h1, h2⟩
      · exact Or.inl ⟨b.toList.length + q, by rw [h1]; simp [Nat.add_assoc], isLast_append_right h2⟩
      · exact Or.inr ⟨h1, not_append hs h2⟩

theorem selectLastGo_eq : ∀ (bs : List Bits) (s : Option Nat) (n : Nat),
    selectLastGo s n bs = frameLastGo true s n bs
  | [], _, _ => rfl
  | b :: bs, s, n => by rw [selectLastGo, frameLastGo, selectLastGo_eq bs]

theorem isFirst_append_left {bit : Bool} {l r : List Bool} {p : Nat} (h : IsFirst bit l p) :
    IsFirst bit (l ++ r) p := by
  have hlt : p < l.length := by
    obtain ⟨hlt, -⟩ := List.getElem?_eq_some_iff.1 h.1; exact hlt
  refine ⟨by rw [List.getElem?_append_left hlt]; exact h.1, fun q hq => ?_⟩
  rw [List.getElem?_append_left (by omega)]
  exact h.2 q hq

theorem isFirst_append_right {bit : Bool} {l r : List Bool} {p : Nat} (hl : ∀ q : Nat, l[q]? ≠ some bit)
    (h : IsFirst bit r p) : IsFirst bit (l ++ r) (l.length + p) := by
  refine ⟨by rw [List.getElem?_append_right (by omega), Nat.add_sub_cancel_left]; exact h.1, fun q hq => ?_⟩
  rw [List.getElem?_append]
  split
  · exact hl q
  · exact h.2 _ (by omega)

theorem frameGo_spec (bit : Bool) : ∀ (bs : List Bits), (∀ b ∈ bs, b.Valid) → ∀ (n : Nat),
    (∃ p q, frameGo bit n bs = (some (n + p), some (n + q)) ∧ IsFirst bit (concat bs) p ∧ IsLast bit (concat bs) q)
    ∨ (frameGo bit n bs = (none, none) ∧ ∀ q : Nat, (concat bs)[q]? ≠ some bit)
  | [], _, n => Or.inr ⟨rfl, by simp [concat]⟩
  | b :: bs, hv, n => by
    have hb := hv b (by simp)
    rw [frameGo]
    have hs := findFirst_spec hb bit
    split at hs
    · next p hp =>
      left
      try rw [hp]
      simp only
      have hf : IsFirst bit (concat (b :: bs)) p := by rw [concat_cons]; exact isFirst_append_left hs
      rcases frameLastGo_spec bit (b :: bs) hv (some (n + p)) n with ⟨q, h1, h2⟩ | ⟨h1, h2⟩
      · exact ⟨p, q, by rw [h1], hf, h2⟩
      · exact absurd hf.1 (h2 p)
    · next hp =>
      try rw [hp]
      simp only
      rcases frameGo_spec bit bs (fun b' hb' => hv b' (by simp [hb'])) (n + b.size) with ⟨p, q, h1, h2, h3⟩ | ⟨h1, h2⟩
      · left
        refine ⟨b.toList.length + p, b.toList.length + q, ?_, ?_, ?_⟩
        · rw [h1]; simp [Nat.add_assoc]
        · rw [concat_cons]; exact isFirst_append_right hs h2
        · rw [concat_cons]; exact isLast_append_right h3
      · right
        exact ⟨h1, by rw [concat_cons]; exact not_append hs h2⟩

theorem contains_true_iff (b : Bits) (hv : b.Valid) : (b.data != 0#64) = b.toList.contains true := by
  by_cases h : 64 < b.size
  · rw [toList_of_run h]
    have : b.size ≠ 0 := by omega
    cases hd : (b.data != 0#64) <;> simp [this]
  · have hm := marks_getLsbD hv (by omega) true
    rw [Bool.eq_iff_iff]
    simp only [bne_iff_ne, ne_eq, List.contains_iff_mem]
    rw [List.mem_iff_getElem?]
    constructor
    · intro hne
      apply Classical.byContradiction
      intro hno
      apply hne
      apply BitVec.eq_of_getLsbD_eq
      intro i _
      have := hm i
      simp only [marks, if_true] at this
      rw [this]
      simp only [BitVec.getLsbD_zero]
      rw [beq_eq_false_iff_ne]
      intro he
      exact hno ⟨i, he⟩
    · rintro ⟨i, hi⟩ h0
      have := hm i
      simp only [marks, if_true] at this
      rw [hi, h0] at this
      simp at this

theorem contains_false_iff (b : Bits) (hv : b.Valid) :
    ((if b.size < 64 then b.data ||| Word.msbFill (64 - b.size) else b.data) != Word.all) = b.toList.contains false := by
  by_cases h : 64 < b.size
  · rw [if_neg (by omega), toList_of_run h]
    have : b.size ≠ 0 := by omega
    rcases hv.2.1 h with hd | hd <;> rw [hd]
    · rw [show (Word.none != Word.all) = true by decide, show (Word.none != 0#64) = false by decide]
      simp [this]
    · rw [show (Word.all != Word.all) = false by decide, show (Word.all != 0#64) = true by decide]
      simp
  · have hg : ∀ i, i < 64 → (if b.size < 64 then b.data ||| Word.msbFill (64 - b.size) else b.data).getLsbD i
        = (b.data.getLsbD i || decide (b.size ≤ i)) := by
      intro i hi
      split
      · next hs =>
        have : Word.msbFill (64 - b.size) = Word.all <<< b.size := by
          rw [Word.msbFill, show 64 - (64 - b.size) = b.size by omega]
        rw [this, BitVec.getLsbD_or, getLsbD_shl_all]; simp [hi]
      · have : ¬ b.size ≤ i := by omega
        simp [this]
    rw [Bool.eq_iff_iff]
    simp only [bne_iff_ne, ne_eq, List.contains_iff_mem]
    rw [List.mem_iff_getElem?]
    constructor
    · intro hne
      apply Classical.byContradiction
      intro hno
      apply hne
      apply BitVec.eq_of_getLsbD_eq
      intro i hi
      rw [hg i hi, getLsbD_all]
      by_cases hs : b.size ≤ i
      · simp [hs, hi]
      · have := toList_getElem? (b := b) (by omega) i
        rw [if_pos (by omega)] at this
        cases hd : b.data.getLsbD i
        · exact absurd ⟨i, by rw [this, hd]⟩ hno
        · simp [hi]
    · rintro ⟨i, hi⟩ h0
      have hg := toList_getElem? (b := b) (by omega) i
      rw [hi] at hg
      split at hg
      · next hlt =>
        have h1 := ‹∀ i, i < 64 → _› i (by omega)
        rw [h0, getLsbD_all, ← Option.some.inj hg] at h1
        have : ¬ b.size ≤ i := by omega
        simp [this, show i < 64 by omega] at h1
      · simp at hg

theorem any_spec (bit : Bool) : ∀ (bs : List Bits), (∀ b ∈ bs, b.Valid) →
    (bs.any fun b =>
      if bit then b.data != 0#64
      else
        let x := if b.size < 64 then b.data ||| Word.msbFill (64 - b.size) else b.data
        x != Word.all) = (concat bs).contains bit
  | [], _ => by simp [concat]
  | b :: bs, hv => by
    have hb := hv b (by simp)
    rw [List.any_cons, any_spec bit bs (fun b' hb' => hv b' (by simp [hb'])), concat_cons]
    have : (if bit then b.data != 0#64
      else
        let x := if b.size < 64 then b.data ||| Word.msbFill (64 - b.size) else b.data
        x != Word.all) = b.toList.contains bit := by
      cases bit
      · exact contains_false_iff b hb
      · exact contains_true_iff b hb
    rw [this, Bool.eq_iff_iff]
    simp

end Verif.Bitmap
