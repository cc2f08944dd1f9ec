import Verif.Bitmap.AlgoLemmas

/-!
# Lemmas for counting and searching in bit sequences
-/

namespace Verif.Bitmap

open Spec

/-! ## Words -/

theorem find_range {p : Nat → Bool} {n i : Nat} (h : (List.range n).find? p = some i) :
    i < n ∧ p i = true ∧ ∀ j, j < i → p j = false := by
  rw [List.find?_range_eq_some] at h
  refine ⟨by simpa using h.2.1, h.1, fun j hj => by simpa using h.2.2 j hj⟩

theorem find_range_none {p : Nat → Bool} {n : Nat} (h : (List.range n).find? p = none) :
    ∀ j, j < n → p j = false := by
  intro j hj
  rw [List.find?_eq_none] at h
  simpa using h j (by simpa using hj)

theorem ctz_spec (w : Word) :
    (w.getLsbD (Word.countTrailingZeros w) = true ∧ Word.countTrailingZeros w < 64
      ∧ ∀ j, j < Word.countTrailingZeros w → w.getLsbD j = false)
    ∨ (Word.countTrailingZeros w = 64 ∧ ∀ j, w.getLsbD j = false) := by
  rw [Word.countTrailingZeros]
  cases h : (List.range 64).find? fun i => w.getLsbD i with
  | none =>
    refine Or.inr ⟨rfl, fun j => ?_⟩
    by_cases hj : j < 64
    · exact find_range_none h j hj
    · exact getLsbD_ge (by omega)
  | some i =>
    obtain ⟨h1, h2, h3⟩ := find_range h
    exact Or.inl ⟨h2, h1, h3⟩

theorem clz_spec (w : Word) :
    (Word.countLeadingZeros w < 64 ∧ w.getLsbD (63 - Word.countLeadingZeros w) = true
      ∧ ∀ j, 63 - Word.countLeadingZeros w < j → w.getLsbD j = false)
    ∨ (Word.countLeadingZeros w = 64 ∧ ∀ j, w.getLsbD j = false) := by
  rw [Word.countLeadingZeros]
  cases h : (List.range 64).find? fun i => w.getLsbD (63 - i) with
  | none =>
    refine Or.inr ⟨rfl, fun j => ?_⟩
    by_cases hj : j < 64
    · have := find_range_none h (63 - j) (by omega)
      rwa [show 63 - (63 - j) = j by omega] at this
    · exact getLsbD_ge (by omega)
  | some i =>
    obtain ⟨h1, h2, h3⟩ := find_range h
    refine Or.inl ⟨h1, h2, fun j hj => ?_⟩
    simp only [Option.getD_some] at hj
    by_cases hj' : j < 64
    · have := h3 (63 - j) (by omega)
      rwa [show 63 - (63 - j) = j by omega] at this
    · exact getLsbD_ge (by omega)

theorem word_findFirst_spec (w : Word) :
    match Word.findFirst w with
    | some p => w.getLsbD p = true ∧ ∀ j, j < p → w.getLsbD j = false
    | none => ∀ j, w.getLsbD j = false := by
  rcases ctz_spec w with ⟨h1, h2, h3⟩ | ⟨h1, h2⟩
  · have : Word.findFirst w = some (Word.countTrailingZeros w) := by
      simp only [Word.findFirst]; rw [if_neg (by omega)]
    rw [this]; exact ⟨h1, h3⟩
  · have : Word.findFirst w = none := by simp [Word.findFirst, h1]
    rw [this]; exact h2

theorem word_findLast_spec (w : Word) :
    match Word.findLast w with
    | some p => w.getLsbD p = true ∧ ∀ j, p < j → w.getLsbD j = false
    | none => ∀ j, w.getLsbD j = false := by
  rcases clz_spec w with ⟨h1, h2, h3⟩ | ⟨h1, h2⟩
  · have : Word.findLast w = some (63 - Word.countLeadingZeros w) := by
      simp only [Word.findLast]; rw [if_neg (by omega)]; congr 1; omega
    rw [this]; exact ⟨h2, h3⟩
  · have : Word.findLast w = none := by simp [Word.findLast, h1]
    rw [this]; exact h2

theorem getLsbD_shl_all (i j : Nat) : (Word.all <<< i).getLsbD j = (decide (i ≤ j) && decide (j < 64)) := by
  rw [BitVec.getLsbD_shiftLeft, getLsbD_all]
  by_cases h1 : i ≤ j <;> by_cases h2 : j < 64 <;> simp [h1, h2] <;> omega

theorem word_findNext_spec (w : Word) {i : Nat} (hi : i < 64) :
    match Word.findNext w i with
    | some p => i < p ∧ w.getLsbD p = true ∧ ∀ j, i < j → j < p → w.getLsbD j = false
    | none => ∀ j, i < j → w.getLsbD j = false := by
  by_cases h63 : i = 63
  · have : Word.findNext w i = none := by simp [Word.findNext, h63]
    rw [this]; exact fun j hj => getLsbD_ge (by omega)
  · have htop : ∀ j, (w &&& (Word.all <<< (i + 1))).getLsbD j = (w.getLsbD j && decide (i < j)) := by
      intro j
      rw [BitVec.getLsbD_and, getLsbD_shl_all]
      by_cases hj : j < 64
      · simp [hj, Nat.succ_le_iff]
      · simp [getLsbD_ge (w := w) (show 64 ≤ j by omega)]
    have htop' : ∀ j, i < j → w.getLsbD j = (w &&& (Word.all <<< (i + 1))).getLsbD j := by
      intro j hj; rw [htop]; simp [hj]
    by_cases h0 : w &&& (Word.all <<< (i + 1)) = 0#64
    · have : Word.findNext w i = none := by
        simp only [Word.findNext, if_neg h63]; rw [if_pos h0]
      rw [this]; intro j hj
      rw [htop' j hj, h0]; simp
    · have : Word.findNext w i = some (Word.countTrailingZeros (w &&& (Word.all <<< (i + 1)))) := by
        simp only [Word.findNext, if_neg h63]; rw [if_neg h0]
      rw [this]
      rcases ctz_spec (w &&& (Word.all <<< (i + 1))) with ⟨h1, h2, h3⟩ | ⟨h1, h2⟩
      · have hlt : i < Word.countTrailingZeros (w &&& (Word.all <<< (i + 1))) := by
          rw [htop] at h1
          simp only [Bool.and_eq_true, decide_eq_true_eq] at h1
          exact h1.2
        refine ⟨hlt, ?_, fun j hj hj' => ?_⟩
        · rw [htop' _ hlt]; exact h1
        · rw [htop' j hj]; exact h3 j hj'
      · exfalso; apply h0
        apply BitVec.eq_of_getLsbD_eq
        intro j _
        rw [h2 j]; simp

theorem popcount_eq (w : Word) : Word.popcount w = (wbits 64 w).count true := by
  rw [Word.popcount, wbits, List.count, List.countP_map]
  congr 1
  funext i; simp

/-! ## Selecting in lists -/

theorem selectGo_spec (w : Word) (k : Nat) : ∀ (fuel j cum : Nat), j + fuel = 64 → cum < k →
    match Word.selectGo w k fuel j cum with
    | some p => j ≤ p ∧ ((wbits 64 w).drop j)[p - j]? = some true
        ∧ cum + (((wbits 64 w).drop j).take (p - j)).count true = k - 1
    | none => cum + ((wbits 64 w).drop j).count true < k
  | 0, j, cum, hj, hk => by
    have : (wbits 64 w).drop j = [] := List.drop_eq_nil_of_le (by simp; omega)
    simp [Word.selectGo, this, hk]
  | fuel + 1, j, cum, hj, hk => by
    have hd : (wbits 64 w).drop j = w.getLsbD j :: (wbits 64 w).drop (j + 1) := by
      rw [List.drop_eq_getElem_cons (by simp; omega)]
      congr 1
      have h1 := wbits_getElem? 64 w j
      rw [List.getElem?_eq_getElem (by simp; omega), if_pos (by omega)] at h1
      exact Option.some.inj h1
    rw [Word.selectGo, test_eq w (by omega)]
    by_cases hb : w.getLsbD j = true
    · rw [if_pos hb]
      by_cases hc : cum + 1 = k
      · rw [if_pos hc]
        try simp only
        refine ⟨Nat.le_refl _, ?_, ?_⟩
        · rw [hd, hb, Nat.sub_self]; rfl
        · simp; omega
      · rw [if_neg hc]
        have ih := selectGo_spec w k fuel (j + 1) (cum + 1) (by omega) (by omega)
        split at ih
        · next p hp =>
          try rw [hp]
          try simp only
          obtain ⟨h1, h2, h3⟩ := ih
          rw [hd, hb, show p - j = (p - (j + 1)) + 1 by omega]
          refine ⟨by omega, by simpa using h2, ?_⟩
          rw [List.take_succ_cons, List.count_cons]
          simp; omega
        · next hp =>
          try rw [hp]
          try simp only
          rw [hd, hb, List.count_cons]; simp; omega
    · rw [if_neg hb]
      have ih := selectGo_spec w k fuel (j + 1) cum (by omega) (by omega)
      simp only [Bool.not_eq_true] at hb
      split at ih
      · next p hp =>
        try rw [hp]
        try simp only
        obtain ⟨h1, h2, h3⟩ := ih
        rw [hd, hb, show p - j = (p - (j + 1)) + 1 by omega]
        refine ⟨by omega, by simpa using h2, ?_⟩
        rw [List.take_succ_cons, List.count_cons]
        simp; omega
      · next hp =>
        try rw [hp]
        try simp only
        rw [hd, hb, List.count_cons]; simp; omega

theorem word_select_spec (w : Word) {k : Nat} (hk : 1 ≤ k) :
    match Word.select w k with
    | some p => IsNth true (wbits 64 w) k p
    | none => (wbits 64 w).count true < k := by
  have h := selectGo_spec w k 64 0 0 rfl (by omega)
  rw [Word.select]
  split at h
  · next p hp =>
    try rw [hp]
    simp only [List.drop_zero, Nat.sub_zero, Nat.zero_add] at h ⊢
    exact ⟨h.2.1, h.2.2⟩
  · next hp =>
    try rw [hp]
    simpa using h

/-! ## Sequences -/

/-- The word whose bits mark the positions holding `bit`. -/
def marks (bit : Bool) (b : Bits) : Word := if bit then b.data else ~~~b.data &&& Word.lsbFill b.size

theorem toList_getElem? {b : Bits} (h : b.size ≤ 64) (i : Nat) :
    b.toList[i]? = if i < b.size then some (b.data.getLsbD i) else none := by
  rw [toList_small h, wbits_getElem?]

theorem marks_getLsbD {b : Bits} (hv : b.Valid) (h : b.size ≤ 64) (bit : Bool) (i : Nat) :
    (marks bit b).getLsbD i = (b.toList[i]? == some bit) := by
  rw [toList_getElem? h]
  have hz : b.size ≤ i → b.data.getLsbD i = false := fun hi => hv.2.2 i hi h
  cases bit
  · simp only [marks, Bool.false_eq_true, if_false]
    rw [BitVec.getLsbD_and, BitVec.getLsbD_not, getLsbD_lsbFill h]
    by_cases hi : i < b.size
    · have h64 : i < 64 := by omega
      simp only [hi, if_true, h64, decide_true, Bool.true_and, Bool.and_true]
      cases b.data.getLsbD i <;> rfl
    · simp [hi]
  · simp only [marks, if_true]
    by_cases hi : i < b.size
    · simp only [hi, if_true]
      cases b.data.getLsbD i <;> rfl
    · simp [hi, hz (by omega)]

theorem run_cases {b : Bits} (hv : b.Valid) (h : 64 < b.size) (bit : Bool) :
    (b.toList = List.replicate b.size bit ∧ b.data = fillWord bit)
    ∨ (b.toList = List.replicate b.size (!bit) ∧ b.data = fillWord (!bit)) := by
  rw [toList_of_run h]
  rcases hv.2.1 h with h0 | h0 <;> rw [h0] <;> cases bit
  · exact Or.inl ⟨by rfl, by decide⟩
  · exact Or.inr ⟨by rfl, by decide⟩
  · exact Or.inr ⟨by rw [show (Word.all != 0#64) = true by decide]; rfl, by decide⟩
  · exact Or.inl ⟨by rw [show (Word.all != 0#64) = true by decide], by decide⟩

theorem eq_some_of_beq {o : Option Bool} {bit : Bool} (h : (o == some bit) = true) : o = some bit := by
  simpa using h

theorem ne_some_of_beq {o : Option Bool} {bit : Bool} (h : (o == some bit) = false) : o ≠ some bit := by
  simpa using h

theorem replicate_ne {n : Nat} {bit : Bool} (i : Nat) : (List.replicate n (!bit))[i]? ≠ some bit := by
  rw [List.getElem?_replicate]
  split <;> cases bit <;> simp

theorem none_ne_all : Word.none ≠ Word.all := by decide

theorem findFirst_marks {b : Bits} (h : b.size ≤ 64) (bit : Bool) :
    b.findFirst bit = Word.findFirst (marks bit b) := by
  have hn : ¬ b.size > 64 := by omega
  cases bit
  · simp only [Bits.findFirst, marks, Bool.false_eq_true, if_false, hn]
    congr 1
    apply BitVec.eq_of_getLsbD_eq
    intro i hi
    rw [BitVec.getLsbD_not, BitVec.getLsbD_or, BitVec.getLsbD_and, BitVec.getLsbD_not,
      getLsbD_lsbFill h, getLsbD_msbMask (by omega)]
    by_cases h1 : i < b.size
    · have h2 : ¬ (64 - (64 - b.size) ≤ i) := by omega
      simp [hi, h1, h2]
    · have h2 : 64 - (64 - b.size) ≤ i := by omega
      simp [hi, h1, h2]
  · simp only [Bits.findFirst, marks, if_true, hn, if_false]

theorem findFirst_spec {b : Bits} (hv : b.Valid) (bit : Bool) :
    match b.findFirst bit with
    | some p => IsFirst bit b.toList p
    | none => ∀ q : Nat, b.toList[q]? ≠ some bit := by
  by_cases h : 64 < b.size
  · rcases run_cases hv h bit with ⟨h1, h2⟩ | ⟨h1, h2⟩
    · have : b.findFirst bit = some 0 := by
        cases bit <;> simp [Bits.findFirst, h, h2, fillWord]
      rw [this, h1]
      exact ⟨by rw [List.getElem?_replicate, if_pos (by omega)], fun q hq => by omega⟩
    · have : b.findFirst bit = none := by
        cases bit
        · simp [Bits.findFirst, h, h2, fillWord, none_ne_all.symm]
        · simp [Bits.findFirst, h, h2, fillWord, none_ne_all]
      rw [this, h1]
      intro q; exact replicate_ne q
  · have hm := marks_getLsbD hv (by omega) bit
    rw [findFirst_marks (by omega)]
    have hs := word_findFirst_spec (marks bit b)
    split at hs
    · next p hp =>
      try rw [hp]
      refine ⟨eq_some_of_beq ((hm p).symm.trans hs.1), fun q hq => ne_some_of_beq ((hm q).symm.trans (hs.2 q hq))⟩
    · next hp =>
      try rw [hp]
      exact fun q => ne_some_of_beq ((hm q).symm.trans (hs q))

theorem findLast_spec {b : Bits} (hv : b.Valid) (bit : Bool) :
    match b.findLast bit with
    | some p => IsLast bit b.toList p
    | none => ∀ q : Nat, b.toList[q]? ≠ some bit := by
  by_cases h : 64 < b.size
  · rcases run_cases hv h bit with ⟨h1, h2⟩ | ⟨h1, h2⟩
    · have : b.findLast bit = some (b.size - 1) := by
        cases bit <;> simp [Bits.findLast, h, h2, fillWord]
      rw [this, h1]
      refine ⟨by rw [List.getElem?_replicate, if_pos (by omega)], fun q hq => ?_⟩
      rw [List.getElem?_eq_none (by simp; omega)]; simp
    · have : b.findLast bit = none := by
        cases bit
        · simp [Bits.findLast, h, h2, fillWord, none_ne_all.symm]
        · simp [Bits.findLast, h, h2, fillWord, none_ne_all]
      rw [this, h1]
      intro q; exact replicate_ne q
  · have hm := marks_getLsbD hv (by omega) bit
    have hf : b.findLast bit = Word.findLast (marks bit b) := by
      have hn : ¬ b.size > 64 := by omega
      cases bit <;> simp only [Bits.findLast, marks, Bool.false_eq_true, if_false, if_true, hn]
    rw [hf]
    have hs := word_findLast_spec (marks bit b)
    split at hs
    · next p hp =>
      try rw [hp]
      refine ⟨eq_some_of_beq ((hm p).symm.trans hs.1), fun q hq => ne_some_of_beq ((hm q).symm.trans (hs.2 q hq))⟩
    · next hp =>
      try rw [hp]
      exact fun q => ne_some_of_beq ((hm q).symm.trans (hs q))

/-- `p` is the first position after `i` holding `bit`. -/
def IsNext (bit : Bool) (l : List Bool) (i p : Nat) : Prop :=
  i < p ∧ l[p]? = some bit ∧ ∀ q, i < q → q < p → l[q]? ≠ some bit

theorem findNext_spec {b : Bits} (hv : b.Valid) (bit : Bool) {i : Nat} (hi : i < b.size) :
    match b.findNext bit i with
    | some p => IsNext bit b.toList i p
    | none => ∀ q, i < q → b.toList[q]? ≠ some bit := by
  by_cases hlast : i ≥ b.size - 1
  · have : b.findNext bit i = none := by simp only [Bits.findNext, if_pos hlast]
    rw [this]
    intro q hq
    rw [List.getElem?_eq_none (by simp; omega)]; simp
  · by_cases h : 64 < b.size
    · rcases run_cases hv h bit with ⟨h1, h2⟩ | ⟨h1, h2⟩
      · have : b.findNext bit i = some (i + 1) := by
          cases bit <;> simp only [Bits.findNext, if_neg hlast] <;> simp [h, h2, fillWord]
        rw [this, h1]
        exact ⟨by omega, by rw [List.getElem?_replicate, if_pos (by omega)], fun q hq hq' => by omega⟩
      · have : b.findNext bit i = none := by
          cases bit <;> simp only [Bits.findNext, if_neg hlast]
          · simp [h, h2, fillWord, none_ne_all.symm]
          · simp [h, h2, fillWord, none_ne_all]
        rw [this, h1]
        exact fun q _ => replicate_ne q
    · have hm := marks_getLsbD hv (by omega) bit
      have hf : b.findNext bit i = Word.findNext (marks bit b) i := by
        have hn : ¬ b.size > 64 := by omega
        cases bit <;> simp only [Bits.findNext, marks, Bool.false_eq_true, if_false, if_true, hn, if_neg hlast]
      rw [hf]
      have hs := word_findNext_spec (marks bit b) (i := i) (by omega)
      split at hs
      · next p hp =>
        try rw [hp]
        exact ⟨hs.1, eq_some_of_beq ((hm p).symm.trans hs.2.1),
          fun q hq hq' => ne_some_of_beq ((hm q).symm.trans (hs.2.2 q hq hq'))⟩
      · next hp =>
        try rw [hp]
        exact fun q hq => ne_some_of_beq ((hm q).symm.trans (hs q hq))

theorem count_marks : ∀ {l : List Bool} {n : Nat} {w : Word} {bit : Bool}, l.length ≤ n →
    (∀ i, w.getLsbD i = (l[i]? == some bit)) → (wbits n w).count true = l.count bit := by
  intro l n w bit hn hw
  have h1 : (wbits n w) = (l.map (· == bit)) ++ List.replicate (n - l.length) false := by
    symm
    apply list_ext_wbits (by simp; omega)
    intro i hi
    rw [hw, List.getElem?_append]
    simp only [List.length_map]
    split
    · next h => simp [h]
    · next h =>
      rw [List.getElem?_replicate, if_pos (by omega), List.getElem?_eq_none (by omega)]; rfl
  rw [h1, List.count_append, List.count_replicate]
  simp [List.count, List.countP_map, Function.comp_def]

theorem rank_spec {b : Bits} (hv : b.Valid) (bit : Bool) : b.rank bit = b.toList.count bit := by
  by_cases h : 64 < b.size
  · rcases run_cases hv h bit with ⟨h1, h2⟩ | ⟨h1, h2⟩
    · rw [h1, List.count_replicate]
      cases bit <;> simp [Bits.rank, h, h2, fillWord]
    · rw [h1, List.count_replicate]
      cases bit
      · simp [Bits.rank, h, h2, fillWord, none_ne_all.symm]
      · simp [Bits.rank, h, h2, fillWord, none_ne_all]
  · have hm := marks_getLsbD hv (by omega) bit
    have hf : b.rank bit = Word.popcount (marks bit b) := by
      have hn : ¬ b.size > 64 := by omega
      cases bit <;> simp only [Bits.rank, marks, Bool.false_eq_true, if_false, if_true, hn]
    rw [hf, popcount_eq, count_marks (by simp; omega) hm]

theorem getElem?_take_beq (l : List Bool) (n i : Nat) (bit : Bool) :
    ((l.take n)[i]? == some bit) = ((l[i]? == some bit) && decide (i < n)) := by
  rw [List.getElem?_take]
  split <;> simp [*]

theorem rankAt_spec {b : Bits} (hv : b.Valid) (bit : Bool) {i : Nat} (hi : i < b.size) :
    b.rankAt bit i = (b.toList.take (i + 1)).count bit := by
  by_cases h : 64 < b.size
  · rcases run_cases hv h bit with ⟨h1, h2⟩ | ⟨h1, h2⟩
    · rw [h1, List.take_replicate, List.count_replicate]
      have h3 : (if bit = true then fillWord bit else ~~~(fillWord bit)) ≠ Word.none := by cases bit <;> decide
      simp only [Bits.rankAt, h2]
      rw [if_pos h, if_neg h3]
      simp; omega
    · rw [h1, List.take_replicate, List.count_replicate]
      have h3 : (if bit = true then fillWord (!bit) else ~~~(fillWord (!bit))) = Word.none := by cases bit <;> decide
      simp only [Bits.rankAt, h2]
      rw [if_pos h, if_pos h3]
      cases bit <;> simp
  · have hm := marks_getLsbD hv (by omega) bit
    have hn : ¬ b.size > 64 := by omega
    have hdata : ∀ j, j < b.size → (if bit then b.data else ~~~b.data).getLsbD j = (b.toList[j]? == some bit) := by
      intro j hj
      rw [← hm j]
      cases bit
      · simp only [marks, Bool.false_eq_true, if_false]
        rw [BitVec.getLsbD_and, getLsbD_lsbFill (by omega)]; simp [hj]
      · rfl
    simp only [Bits.rankAt, hn, if_false]
    split
    · next h63 =>
      have hsz : b.size = 64 := by omega
      rw [popcount_eq, h63, List.take_of_length_le (by simp; omega)]
      apply count_marks (by simp; omega)
      intro j
      by_cases hj : j < b.size
      · exact hdata j hj
      · rw [getLsbD_ge (by omega), List.getElem?_eq_none (by simp; omega)]; rfl
    · next h63 =>
      rw [Word.rank, popcount_eq]
      apply count_marks (by simp; omega)
      intro j
      rw [BitVec.getLsbD_and, getLsbD_lsbFill (by omega), getElem?_take_beq]
      by_cases hj : j < i + 1
      · rw [hdata j (by omega)]
      · simp [hj]

theorem count_take_le (l : List Bool) (bit : Bool) {m n : Nat} (h : m ≤ n) :
    (l.take m).count bit ≤ (l.take n).count bit := by
  have : l.take m = (l.take n).take m := by rw [List.take_take, Nat.min_eq_left h]
  rw [this]
  exact ((List.take_sublist m (l.take n)).count_le bit)

theorem select_spec {b : Bits} (hv : b.Valid) (bit : Bool) {k : Nat} (hk : 1 ≤ k)
    (hc : k ≤ b.toList.count bit) : ∃ p, b.select bit k = some p ∧ IsNth bit b.toList k p := by
  by_cases h : 64 < b.size
  · rcases run_cases hv h bit with ⟨h1, h2⟩ | ⟨h1, h2⟩
    · refine ⟨k - 1, ?_, ?_⟩
      · have h3 : (if bit = true then fillWord bit else ~~~(fillWord bit)) = Word.all := by cases bit <;> decide
        simp only [Bits.select, h2]
        rw [if_pos h, if_pos h3]
      · rw [h1] at hc ⊢
        rw [List.count_replicate_self] at hc
        refine ⟨by rw [List.getElem?_replicate, if_pos (by omega)], ?_⟩
        rw [List.take_replicate, List.count_replicate_self]; omega
    · rw [h1, List.count_replicate] at hc
      have : ((!bit) == bit) = false := by cases bit <;> rfl
      rw [this] at hc
      simp at hc; omega
  · have hm := marks_getLsbD hv (by omega) bit
    have hn : ¬ b.size > 64 := by omega
    have hdata : ∀ j, j < b.size → (if bit then b.data else ~~~b.data).getLsbD j = (b.toList[j]? == some bit) := by
      intro j hj
      rw [← hm j]
      cases bit
      · simp only [marks, Bool.false_eq_true, if_false]
        rw [BitVec.getLsbD_and, getLsbD_lsbFill (by omega)]; simp [hj]
      · rfl
    simp only [Bits.select, hn, if_false]
    generalize (if bit then b.data else ~~~b.data) = w at hdata
    have htake : ∀ m, m ≤ b.size → ((wbits 64 w).take m) = (b.toList.take m).map (· == bit) := by
      intro m hm'
      apply List.ext_getElem?
      intro j
      rw [List.getElem?_take, List.getElem?_map, List.getElem?_take]
      split
      · next hj =>
        rw [wbits_getElem?, if_pos (by omega), hdata j (by omega)]
        rw [List.getElem?_eq_getElem (by simp; omega)]; simp
      · rfl
    have hcount : ∀ m, m ≤ b.size → ((wbits 64 w).take m).count true = (b.toList.take m).count bit := by
      intro m hm'
      rw [htake m hm', List.count, List.countP_map, List.count]
      congr 1; funext x; simp
    have hfull : ((wbits 64 w).take b.size).count true = b.toList.count bit := by
      rw [hcount _ (Nat.le_refl _), List.take_of_length_le (by simp)]
    have hs := word_select_spec w hk
    split at hs
    · next p hp =>
      refine ⟨p, hp, ?_⟩
      have hlt : p < b.size := by
        apply Decidable.byContradiction
        intro hge
        have := count_take_le (wbits 64 w) true (show b.size ≤ p by omega)
        have := hs.2
        omega
      refine ⟨?_, by rw [← hcount p (by omega)]; exact hs.2⟩
      have h1 := hs.1
      rw [wbits_getElem?, if_pos (by omega), hdata p hlt] at h1
      exact eq_some_of_beq (Option.some.inj h1)
    · next hp =>
      exfalso
      have : ((wbits 64 w).take b.size).count true ≤ (wbits 64 w).count true :=
        (List.take_sublist _ _).count_le _
      omega

end Verif.Bitmap
