import Verif.Bitmap.SearchLemmas

/-!
# Lemmas for iterating bitmaps
-/

namespace Verif.Bitmap

open Spec

/-- The range is over the bits `l` and stands at position `o`. -/
def At (l : List Bool) (r : BitwiseRange) (o : Nat) : Prop :=
  ∃ (pre : List Bool) (b : Bits) (bs : List Bits) (j : Nat), r = ⟨b :: bs, some j, pre.length⟩
    ∧ (∀ x ∈ b :: bs, x.Valid) ∧ l = pre ++ concat (b :: bs) ∧ j < b.size ∧ o = pre.length + j

/-- The range is exhausted. -/
def Ended (r : BitwiseRange) : Prop := r.rng = [] ∧ r.i = none

theorem Ended.done {r : BitwiseRange} (h : Ended r) : r.done = true := by
  simp [BitwiseRange.done, h.1, h.2]

theorem At.done {l : List Bool} {r : BitwiseRange} {o : Nat} (h : At l r o) : r.done = false := by
  obtain ⟨pre, b, bs, j, rfl, -⟩ := h
  simp [BitwiseRange.done]

theorem At.offset {l : List Bool} {r : BitwiseRange} {o : Nat} (h : At l r o) : r.offset = o := by
  obtain ⟨pre, b, bs, j, rfl, -, -, -, rfl⟩ := h
  simp [BitwiseRange.offset]

theorem At.lt {l : List Bool} {r : BitwiseRange} {o : Nat} (h : At l r o) : o < l.length := by
  obtain ⟨pre, b, bs, j, rfl, -, rfl, hj, rfl⟩ := h
  rw [concat_cons]; simp; omega

theorem At.value {l : List Bool} {r : BitwiseRange} {o : Nat} (h : At l r o) : l[o]? = some r.value := by
  obtain ⟨pre, b, bs, j, rfl, -, rfl, hj, rfl⟩ := h
  rw [concat_cons, List.getElem?_append_right (by omega), Nat.add_sub_cancel_left,
    List.getElem?_append_left (by simpa using hj), Bits.toList, List.getElem?_map, List.getElem?_range hj]
  rfl

theorem ofRange_at {bs : List Bits} (hv : ∀ b ∈ bs, b.Valid) :
    (concat bs = [] ∧ Ended (BitwiseRange.ofRange bs)) ∨ At (concat bs) (BitwiseRange.ofRange bs) 0 := by
  cases bs with
  | nil => exact Or.inl ⟨rfl, rfl, rfl⟩
  | cons b bs =>
    have := (hv b (by simp)).1
    exact Or.inr ⟨[], b, bs, 0, rfl, hv, rfl, by omega, rfl⟩

theorem at_next_block {pre : List Bool} {b : Bits} {bs : List Bits} {l : List Bool}
    (hl : l = pre ++ concat (b :: bs)) : l = (pre ++ b.toList) ++ concat bs := by
  rw [hl, concat_cons, List.append_assoc]

theorem next_at {l : List Bool} {r : BitwiseRange} {o : Nat} (h : At l r o) :
    (o + 1 < l.length ∧ At l r.next (o + 1)) ∨ (o + 1 = l.length ∧ Ended r.next) := by
  obtain ⟨pre, b, bs, j, rfl, hv, hl, hj, rfl⟩ := h
  have hl' := at_next_block hl
  simp only [BitwiseRange.next]
  by_cases hlast : j + 1 = b.size
  · rw [if_pos hlast]
    cases bs with
    | nil =>
      right
      refine ⟨?_, rfl, rfl⟩
      rw [hl']; simp [concat]; omega
    | cons b' bs' =>
      left
      have h0 := (hv b' (by simp)).1
      refine ⟨by rw [hl', concat_cons]; simp; omega, ?_⟩
      refine ⟨pre ++ b.toList, b', bs', 0, ?_, fun x hx => hv x (by simp at hx ⊢; exact Or.inr hx), hl', by omega, by simp; omega⟩
      simp
  · rw [if_neg hlast]
    left
    refine ⟨by rw [hl, concat_cons]; simp; omega, pre, b, bs, j + 1, rfl, hv, hl, by omega, by omega⟩

theorem seekGo_at {l : List Bool} : ∀ (bs : List Bits) (pre : List Bool) (k : Nat), (∀ x ∈ bs, x.Valid) →
    l = pre ++ concat bs → 0 < k →
    (pre.length + k ≤ l.length ∧ At l (BitwiseRange.seekGo k pre.length bs) (pre.length + k - 1))
    ∨ (l.length < pre.length + k ∧ Ended (BitwiseRange.seekGo k pre.length bs))
  | [], pre, k, _, hl, hk => by
    right
    exact ⟨by rw [hl]; simp [concat]; omega, rfl, rfl⟩
  | b :: bs, pre, k, hv, hl, hk => by
    rw [BitwiseRange.seekGo, if_pos hk]
    by_cases hle : k ≤ b.size
    · rw [if_pos hle]
      left
      refine ⟨by rw [hl, concat_cons]; simp; omega, pre, b, bs, k - 1, rfl, hv, hl, by omega, by omega⟩
    · rw [if_neg hle]
      have ih := seekGo_at (l := l) bs (pre ++ b.toList) (k - b.size) (fun x hx => hv x (by simp [hx]))
        (at_next_block hl) (by omega)
      simp only [List.length_append, toList_length] at ih
      rcases ih with ⟨h1, h2⟩ | ⟨h1, h2⟩
      · left
        refine ⟨by omega, ?_⟩
        rw [show pre.length + b.size + (k - b.size) - 1 = pre.length + k - 1 by omega] at h2
        exact h2
      · exact Or.inr ⟨by omega, h2⟩

theorem seek_at {l : List Bool} {r : BitwiseRange} {o : Nat} (h : At l r o) {k : Nat} (hk : 0 < k) :
    (o + k < l.length ∧ At l (r.seek k) (o + k)) ∨ (l.length ≤ o + k ∧ Ended (r.seek k)) := by
  obtain ⟨pre, b, bs, j, rfl, hv, hl, hj, rfl⟩ := h
  simp only [BitwiseRange.seek]
  by_cases hle : k ≤ b.size - j - 1
  · rw [if_pos hle]
    have hat : At l ⟨b :: bs, some (j + (k - 1)), pre.length⟩ (pre.length + (j + (k - 1))) :=
      ⟨pre, b, bs, j + (k - 1), rfl, hv, hl, by omega, rfl⟩
    have hlen : pre.length + b.size ≤ l.length := by rw [hl, concat_cons]; simp
    rcases next_at hat with ⟨h1, h2⟩ | ⟨h1, h2⟩
    · left
      refine ⟨by omega, ?_⟩
      rw [show pre.length + (j + (k - 1)) + 1 = pre.length + j + k by omega] at h2
      exact h2
    · omega
  · rw [if_neg hle]
    have := seekGo_at (l := l) bs (pre ++ b.toList) (k - (b.size - j - 1)) (fun x hx => hv x (by simp [hx]))
      (at_next_block hl) (by omega)
    simp only [List.length_append, toList_length] at this
    rcases this with ⟨h1, h2⟩ | ⟨h1, h2⟩
    · left
      refine ⟨by omega, ?_⟩
      rw [show pre.length + b.size + (k - (b.size - j - 1)) - 1 = pre.length + j + k by omega] at h2
      exact h2
    · exact Or.inr ⟨by omega, h2⟩

/-- The range moved to the first position at or after `x` that holds `bit`, if there is one. -/
def MovedTo (l : List Bool) (bit : Bool) (x : Nat) (r : BitwiseRange) : Prop :=
  (∃ p, x ≤ p ∧ l[p]? = some bit ∧ (∀ q, x ≤ q → q < p → l[q]? ≠ some bit) ∧ At l r p)
  ∨ ((∀ q, x ≤ q → l[q]? ≠ some bit) ∧ Ended r)

theorem selectNextGo_at {l : List Bool} (bit : Bool) : ∀ (bs : List Bits) (pre : List Bool),
    (∀ x ∈ bs, x.Valid) → l = pre ++ concat bs →
    MovedTo l bit pre.length (BitwiseRange.selectNextGo bit pre.length bs)
  | [], pre, _, hl => by
    right
    refine ⟨fun q hq => ?_, rfl, rfl⟩
    rw [List.getElem?_eq_none (by rw [hl]; simp [concat]; omega)]; simp
  | b :: bs, pre, hv, hl => by
    rw [BitwiseRange.selectNextGo]
    have hb := hv b (by simp)
    have hs := findFirst_spec hb bit
    have hidx : ∀ q, q < b.size → l[pre.length + q]? = b.toList[q]? := by
      intro q hq
      rw [hl, concat_cons, List.getElem?_append_right (by omega), Nat.add_sub_cancel_left,
        List.getElem?_append_left (by simpa using hq)]
    cases hp : b.findFirst bit with
    | some p =>
      rw [hp] at hs
      simp only at hs ⊢
      have hlt : p < b.size := by
        obtain ⟨hlt, -⟩ := List.getElem?_eq_some_iff.1 hs.1; simpa using hlt
      left
      refine ⟨pre.length + p, by omega, by rw [hidx p hlt]; exact hs.1, ?_, pre, b, bs, p, rfl, hv, hl, hlt, rfl⟩
      intro q hq hq'
      have := hidx (q - pre.length) (by omega)
      rw [show pre.length + (q - pre.length) = q by omega] at this
      rw [this]
      exact hs.2 _ (by omega)
    | none =>
      rw [hp] at hs
      simp only at hs ⊢
      have ih := selectNextGo_at (l := l) bit bs (pre ++ b.toList) (fun x hx => hv x (by simp [hx])) (at_next_block hl)
      simp only [List.length_append, toList_length] at ih
      have hskip : ∀ q, pre.length ≤ q → q < pre.length + b.size → l[q]? ≠ some bit := by
        intro q h1 h2
        have := hidx (q - pre.length) (by omega)
        rw [show pre.length + (q - pre.length) = q by omega] at this
        rw [this]
        exact hs _
      rcases ih with ⟨p, h1, h2, h3, h4⟩ | ⟨h1, h2⟩
      · left
        refine ⟨p, by omega, h2, fun q hq hq' => ?_, h4⟩
        by_cases hlt : q < pre.length + b.size
        · exact hskip q hq hlt
        · exact h3 q (by omega) hq'
      · right
        refine ⟨fun q hq => ?_, h2⟩
        by_cases hlt : q < pre.length + b.size
        · exact hskip q hq hlt
        · exact h1 q (by omega)

theorem selectNext_at {l : List Bool} (bit : Bool) {r : BitwiseRange} {o : Nat} (h : At l r o) :
    MovedTo l bit (o + 1) (r.selectNext bit) := by
  obtain ⟨pre, b, bs, j, rfl, hv, hl, hj, rfl⟩ := h
  simp only [BitwiseRange.selectNext]
  have hb := hv b (by simp)
  have hs := findNext_spec hb bit hj
  have hidx : ∀ q, q < b.size → l[pre.length + q]? = b.toList[q]? := by
    intro q hq
    rw [hl, concat_cons, List.getElem?_append_right (by omega), Nat.add_sub_cancel_left,
      List.getElem?_append_left (by simpa using hq)]
  cases hp : b.findNext bit j with
  | some p =>
    rw [hp] at hs
    simp only at hs ⊢
    have hlt : p < b.size := by
      obtain ⟨hlt, -⟩ := List.getElem?_eq_some_iff.1 hs.2.1; simpa using hlt
    have := hs.1
    left
    refine ⟨pre.length + p, by omega, by rw [hidx p hlt]; exact hs.2.1, ?_, pre, b, bs, p, rfl, hv, hl, hlt, rfl⟩
    intro q hq hq'
    have := hidx (q - pre.length) (by omega)
    rw [show pre.length + (q - pre.length) = q by omega] at this
    rw [this]
    exact hs.2.2 _ (by omega) (by omega)
  | none =>
    rw [hp] at hs
    simp only at hs ⊢
    have ih := selectNextGo_at (l := l) bit bs (pre ++ b.toList) (fun x hx => hv x (by simp [hx])) (at_next_block hl)
    simp only [List.length_append, toList_length] at ih
    have hskip : ∀ q, pre.length + j + 1 ≤ q → q < pre.length + b.size → l[q]? ≠ some bit := by
      intro q h1 h2
      have := hidx (q - pre.length) (by omega)
      rw [show pre.length + (q - pre.length) = q by omega] at this
      rw [this]
      exact hs _ (by omega)
    rcases ih with ⟨p, h1, h2, h3, h4⟩ | ⟨h1, h2⟩
    · left
      refine ⟨p, by omega, h2, fun q hq hq' => ?_, h4⟩
      by_cases hlt : q < pre.length + b.size
      · exact hskip q hq hlt
      · exact h3 q (by omega) hq'
    · right
      refine ⟨fun q hq => ?_, h2⟩
      by_cases hlt : q < pre.length + b.size
      · exact hskip q hq hlt
      · exact h1 q (by omega)

theorem movedTo_value {l : List Bool} (bit : Bool) {r : BitwiseRange} {o : Nat} (h : At l r o) :
    MovedTo l bit o (if r.value != bit then r.selectNext bit else r) := by
  by_cases hv : r.value = bit
  · rw [if_neg (by simp [hv])]
    exact Or.inl ⟨o, Nat.le_refl _, by rw [h.value, hv], fun q h1 h2 => by omega, h⟩
  · rw [if_pos (by simpa using hv)]
    have hne : l[o]? ≠ some bit := by rw [h.value]; simpa using hv
    rcases selectNext_at bit h with ⟨p, h1, h2, h3, h4⟩ | ⟨h1, h2⟩
    · refine Or.inl ⟨p, by omega, h2, fun q hq hq' => ?_, h4⟩
      by_cases hq0 : q = o
      · subst hq0; exact hne
      · exact h3 q (by omega) hq'
    · refine Or.inr ⟨fun q hq => ?_, h2⟩
      by_cases hq0 : q = o
      · subst hq0; exact hne
      · exact h1 q (by omega)

theorem selectFrom_at {l : List Bool} (bit : Bool) {r : BitwiseRange} {o x : Nat} (h : At l r o) (hx : o ≤ x) :
    MovedTo l bit x (r.selectFrom bit x) := by
  simp only [BitwiseRange.selectFrom]
  rw [h.offset]
  by_cases hgt : x > o
  · simp only [if_pos hgt]
    rcases seek_at h (k := x - o) (by omega) with ⟨h1, h2⟩ | ⟨h1, h2⟩
    · rw [h2.done, if_neg (by simp)]
      rw [show o + (x - o) = x by omega] at h2
      exact movedTo_value bit h2
    · rw [h2.done, if_pos rfl]
      refine Or.inr ⟨fun q hq => ?_, h2⟩
      rw [List.getElem?_eq_none (by omega)]; simp
  · simp only [if_neg hgt]
    rw [h.done, if_neg (by simp)]
    have : x = o := by omega
    rw [this]
    exact movedTo_value bit h

theorem selectRange_at (bit : Bool) {bs : List Bits} (hv : ∀ b ∈ bs, b.Valid) :
    MovedTo (concat bs) bit 0 (BitwiseRange.selectRange bit bs) := by
  rcases ofRange_at hv with ⟨h1, h2⟩ | h
  · cases bs with
    | nil => exact Or.inr ⟨by simp [concat], rfl, rfl⟩
    | cons b bs => simp [Ended, BitwiseRange.ofRange] at h2
  · cases bs with
    | nil => obtain ⟨pre, b, bs, j, h1, -⟩ := h; simp [BitwiseRange.ofRange] at h1
    | cons b bs => exact movedTo_value bit h

/-! ## Enumeration -/

/-- The positions from `s` on. -/
def posFrom (bit : Bool) (l : List Bool) (s : Nat) : List Nat :=
  (List.range' s (l.length - s)).filter fun i => l[i]? == some bit

theorem posFrom_zero (bit : Bool) (l : List Bool) : posFrom bit l 0 = positions bit l := by
  rw [posFrom, positions, List.range_eq_range']; rfl

theorem posFrom_step {bit : Bool} {l : List Bool} {s : Nat} (h : s < l.length) :
    posFrom bit l s = (if l[s]? == some bit then [s] else []) ++ posFrom bit l (s + 1) := by
  rw [posFrom, show l.length - s = (l.length - (s + 1)) + 1 by omega, List.range'_succ, List.filter_cons]
  split <;> rfl

theorem posFrom_none {bit : Bool} {l : List Bool} {s : Nat} (h : ∀ q, s ≤ q → l[q]? ≠ some bit) :
    posFrom bit l s = [] := by
  rw [posFrom, List.filter_eq_nil_iff]
  intro q hq
  rw [List.mem_range'_1] at hq
  simpa using h q hq.1

theorem posFrom_skip {bit : Bool} {l : List Bool} : ∀ (d s p : Nat), p = s + d → p < l.length →
    (∀ q, s ≤ q → q < p → l[q]? ≠ some bit) → posFrom bit l s = posFrom bit l p
  | 0, s, p, hp, _, _ => by rw [hp]; rfl
  | d + 1, s, p, hp, hl, h => by
    rw [posFrom_step (by omega)]
    have : (l[s]? == some bit) = false := by simpa using h s (by omega) (by omega)
    rw [this, if_neg (by simp), List.nil_append]
    exact posFrom_skip d (s + 1) p (by omega) hl (fun q hq => h q (by omega))

theorem movedTo_posFrom {l : List Bool} {bit : Bool} {x : Nat} {r : BitwiseRange} (h : MovedTo l bit x r) :
    (∃ p, At l r p ∧ x ≤ p ∧ posFrom bit l x = p :: posFrom bit l (p + 1)) ∨ (Ended r ∧ posFrom bit l x = []) := by
  rcases h with ⟨p, h1, h2, h3, h4⟩ | ⟨h1, h2⟩
  · left
    refine ⟨p, h4, h1, ?_⟩
    rw [posFrom_skip (p - x) x p (by omega) h4.lt h3, posFrom_step h4.lt, h2]
    simp
  · exact Or.inr ⟨h2, posFrom_none h1⟩

theorem enumerate_spec {l : List Bool} {bit : Bool} : ∀ (fuel x : Nat) (r : BitwiseRange),
    MovedTo l bit x r → l.length - x < fuel → BitwiseRange.enumerate bit fuel r = posFrom bit l x
  | 0, _, _, _, hf => by omega
  | fuel + 1, x, r, h, hf => by
    rw [BitwiseRange.enumerate]
    rcases movedTo_posFrom h with ⟨p, h1, h2, h3⟩ | ⟨h1, h2⟩
    · rw [h1.done, if_neg (by simp), h1.offset, h3]
      have hlt := h1.lt
      rw [enumerate_spec fuel (p + 1) _ (selectNext_at bit h1) (by omega)]
    · rw [h1.done, if_pos rfl, h2]

theorem enumerateEach_spec {l : List Bool} : ∀ (fuel o : Nat) (r : BitwiseRange),
    At l r o → l.length - o ≤ fuel →
    BitwiseRange.enumerateEach fuel r = (List.range' o (l.length - o)).map fun i => (i, l.getD i false)
  | 0, o, r, h, hf => by have := h.lt; omega
  | fuel + 1, o, r, h, hf => by
    have hlt := h.lt
    rw [BitwiseRange.enumerateEach, h.done, if_neg (by simp), h.offset,
      show l.length - o = (l.length - (o + 1)) + 1 by omega, List.range'_succ, List.map_cons]
    have hval : l.getD o false = r.value := by simp [List.getD, h.value]
    rw [hval]
    congr 1
    rcases next_at h with ⟨h1, h2⟩ | ⟨h1, h2⟩
    · exact enumerateEach_spec fuel (o + 1) _ h2 (by omega)
    · rw [show l.length - (o + 1) = 0 by omega]
      cases fuel with
      | zero => rfl
      | succ fuel => rw [BitwiseRange.enumerateEach, h2.done, if_pos rfl]; rfl

/-! ## Selecting several -/

theorem select_true_spec {b : Bits} (hv : b.Valid) {k : Nat} (hk : 1 ≤ k) (hs : k ≤ b.size) :
    match b.select true k with
    | some p => IsNth true b.toList k p
    | none => b.toList.count true < k := by
  by_cases hc : k ≤ b.toList.count true
  · obtain ⟨p, h1, h2⟩ := select_spec hv true hk hc
    rw [h1]; exact h2
  · have : b.select true k = none := by
      by_cases h : 64 < b.size
      · rcases run_cases hv h true with ⟨h1, h2⟩ | ⟨h1, h2⟩
        · rw [h1, List.count_replicate_self] at hc; omega
        · simp [Bits.select, h, h2, fillWord, none_ne_all]
      · have hn : ¬ b.size > 64 := by omega
        simp only [Bits.select, if_true, hn, if_false]
        have hm := marks_getLsbD hv (by omega) true
        have hcm := count_marks (n := 64) (by simp; omega) hm
        have hs := word_select_spec b.data hk
        simp only [marks, if_true] at hcm
        cases hw : Word.select b.data k with
        | none => rfl
        | some p =>
          rw [hw] at hs
          exfalso
          have h1 := hs.2
          obtain ⟨hlt, hget⟩ := List.getElem?_eq_some_iff.1 hs.1
          have h3 : ((wbits 64 b.data).take (p + 1)).count true = (k - 1) + 1 := by
            rw [List.take_add_one, List.count_append, h1, hs.1]; simp
          have h4 : ((wbits 64 b.data).take (p + 1)).count true ≤ (wbits 64 b.data).count true :=
            (List.take_sublist _ _).count_le _
          omega
    rw [this]
    simp only
    omega

theorem selectManyGo_at {l : List Bool} : ∀ (bs : List Bits) (pre : List Bool) (k : Nat),
    (∀ x ∈ bs, x.Valid) → l = pre ++ concat bs → 1 ≤ k →
    (∃ p, At l (BitwiseRange.selectManyGo true k pre.length bs) p ∧ IsNth true l (pre.count true + k) p)
    ∨ (l.count true < pre.count true + k ∧ Ended (BitwiseRange.selectManyGo true k pre.length bs))
  | [], pre, k, _, hl, hk => by
    right
    exact ⟨by rw [hl]; simp [concat]; omega, rfl, rfl⟩
  | b :: bs, pre, k, hv, hl, hk => by
    have hb := hv b (by simp)
    rw [BitwiseRange.selectManyGo]
    have hfound : ∀ p, IsNth true b.toList k p →
        ∃ q, At l ⟨b :: bs, some p, pre.length⟩ q ∧ IsNth true l (pre.count true + k) q := by
      intro p hp
      have hlt : p < b.toList.length := by
        obtain ⟨hlt, -⟩ := List.getElem?_eq_some_iff.1 hp.1; exact hlt
      refine ⟨pre.length + p, ⟨pre, b, bs, p, rfl, hv, hl, by simpa using hlt, rfl⟩, ?_⟩
      rw [hl, concat_cons]
      apply isNth_append (by omega)
      rw [Nat.add_sub_cancel_left]
      exact ⟨by rw [List.getElem?_append_left hlt]; exact hp.1,
        by rw [List.take_append_of_le_length (by omega)]; exact hp.2⟩
    have hskip : b.toList.count true < k →
        ((∃ p, At l (BitwiseRange.selectManyGo true (k - b.rank true) (pre.length + b.size) bs) p
            ∧ IsNth true l (pre.count true + k) p)
          ∨ (l.count true < pre.count true + k
            ∧ Ended (BitwiseRange.selectManyGo true (k - b.rank true) (pre.length + b.size) bs))) := by
      intro hc
      have ih := selectManyGo_at (l := l) bs (pre ++ b.toList) (k - b.rank true)
        (fun x hx => hv x (by simp [hx])) (at_next_block hl) (by rw [rank_spec hb]; omega)
      simp only [List.length_append, toList_length, List.count_append] at ih
      rw [rank_spec hb] at ih ⊢
      rw [show pre.count true + b.toList.count true + (k - b.toList.count true) = pre.count true + k by omega] at ih
      exact ih
    by_cases hsz : k ≤ b.size
    · rw [if_pos hsz]
      have hs := select_true_spec hb hk hsz
      cases hsel : b.select true k with
      | some p => rw [hsel] at hs; exact Or.inl (hfound p hs)
      | none => rw [hsel] at hs; exact hskip hs
    · rw [if_neg hsz]
      have : b.toList.count true ≤ b.size := by
        have := List.count_le_length (a := true) (l := b.toList); simpa using this
      exact hskip (by omega)

theorem selectMany_at {l : List Bool} {r : BitwiseRange} {o k : Nat} (h : At l r o) (hk : 1 ≤ k) :
    (∃ p, At l (r.selectMany true k) p ∧ IsNth true l ((l.take (o + 1)).count true + k) p)
    ∨ (l.count true < (l.take (o + 1)).count true + k ∧ Ended (r.selectMany true k)) := by
  obtain ⟨pre, b, bs, j, rfl, hv, hl, hj, rfl⟩ := h
  have hb := hv b (by simp)
  simp only [BitwiseRange.selectMany]
  rw [rankAt_spec hb true hj, rank_spec hb]
  have htk : (l.take (pre.length + j + 1)).count true = pre.count true + (b.toList.take (j + 1)).count true := by
    rw [hl, concat_cons, Nat.add_assoc, List.take_append, List.take_of_length_le (i := pre.length + _) (by omega),
      List.count_append, Nat.add_sub_cancel_left, List.take_append_of_le_length (by simp; omega)]
  have hle : (b.toList.take (j + 1)).count true ≤ b.toList.count true := (List.take_sublist _ _).count_le _
  by_cases hc : k ≤ b.toList.count true - (b.toList.take (j + 1)).count true
  · rw [if_pos hc]
    left
    obtain ⟨p, hp1, hp2⟩ := select_spec hb true (k := (b.toList.take (j + 1)).count true + k) (by omega) (by omega)
    have hlt : p < b.toList.length := by
      obtain ⟨hlt, -⟩ := List.getElem?_eq_some_iff.1 hp2.1; exact hlt
    rw [hp1]
    refine ⟨pre.length + p, ⟨pre, b, bs, p, rfl, hv, hl, by simpa using hlt, rfl⟩, ?_⟩
    rw [htk, hl, concat_cons]
    apply isNth_append (by omega)
    rw [Nat.add_assoc, Nat.add_sub_cancel_left]
    exact ⟨by rw [List.getElem?_append_left hlt]; exact hp2.1,
      by rw [List.take_append_of_le_length (by omega)]; exact hp2.2⟩
  · rw [if_neg hc]
    have := selectManyGo_at (l := l) bs (pre ++ b.toList) (k - (b.toList.count true - (b.toList.take (j + 1)).count true))
      (fun x hx => hv x (by simp [hx])) (at_next_block hl) (by omega)
    simp only [List.length_append, toList_length, List.count_append] at this
    rw [htk]
    rw [show pre.count true + b.toList.count true + (k - (b.toList.count true - (b.toList.take (j + 1)).count true))
      = pre.count true + (b.toList.take (j + 1)).count true + k by omega] at this
    exact this

/-! ## `select_with` -/

theorem hit_iff {l : List Bool} {o : Nat × Nat} : hit l o = true ↔ ∃ id, o.1 ≤ id ∧ id < o.2 ∧ l[id]? = some true := by
  simp only [hit, List.any_eq_true, List.mem_range'_1, beq_iff_eq]
  constructor
  · rintro ⟨id, ⟨h1, h2⟩, h3⟩; exact ⟨id, h1, by omega, h3⟩
  · rintro ⟨id, h1, h2, h3⟩; exact ⟨id, ⟨h1, by omega⟩, h3⟩

theorem ascending_tail {o : Nat × Nat} {os : List (Nat × Nat)} (h : Ascending (o :: os)) : Ascending os := by
  cases os with
  | nil => trivial
  | cons o' os => exact h.2.2

theorem ascending_head_le {o : Nat × Nat} {os : List (Nat × Nat)} (h : Ascending (o :: os)) : o.1 ≤ o.2 := by
  cases os with
  | nil => exact h
  | cons o' os => exact h.1

theorem ascending_bound : ∀ {os : List (Nat × Nat)} {o : Nat × Nat}, Ascending (o :: os) → ∀ o' ∈ os, o.2 ≤ o'.1
  | [], _, _, _, h => by simp at h
  | o1 :: os, o, h, o', ho' => by
    rcases List.mem_cons.1 ho' with rfl | hm
    · exact h.2.1
    · have h1 := ascending_bound (ascending_tail h) o' hm
      have h2 := ascending_head_le (ascending_tail h)
      have h3 := h.2.1
      omega

theorem dropWhile_facts {α : Type} (f : α → Nat × Nat) {l : List Bool} {p : Nat} : ∀ {os : List α}, Ascending (os.map f) →
    (∀ o ∈ os, ∀ id, (f o).1 ≤ id → id < (f o).2 → l[id]? = some true → p ≤ id) →
    Ascending ((os.dropWhile fun o => decide ((f o).2 ≤ p)).map f)
    ∧ (os.dropWhile fun o => decide ((f o).2 ≤ p)).filter (fun o => hit l (f o)) = os.filter (fun o => hit l (f o))
    ∧ (os.dropWhile fun o => decide ((f o).2 ≤ p)).length ≤ os.length
    ∧ (∀ o ∈ os.dropWhile fun o => decide ((f o).2 ≤ p), o ∈ os)
  | [], h, _ => ⟨h, rfl, Nat.le_refl _, by simp⟩
  | o :: os, h, hp => by
    rw [List.dropWhile_cons]
    by_cases hle : (f o).2 ≤ p
    · rw [if_pos (by simpa using hle)]
      obtain ⟨h1, h2, h3, h4⟩ := dropWhile_facts f (l := l) (p := p) (ascending_tail h) (fun o' ho' => hp o' (by simp [ho']))
      have hno : hit l (f o) = false := by
        cases hh : hit l (f o)
        · rfl
        · obtain ⟨id, i1, i2, i3⟩ := hit_iff.1 hh
          have := hp o (by simp) id i1 i2 i3
          omega
      refine ⟨h1, ?_, by simp; omega, fun o' ho' => by simp [h4 o' ho']⟩
      rw [h2, List.filter_cons, hno]; rfl
    · rw [if_neg (by simpa using hle)]
      exact ⟨h, rfl, Nat.le_refl _, fun _ h => h⟩

theorem filter_hit_none {α : Type} {f : α → Nat × Nat} {l : List Bool} {os : List α}
    (h : ∀ o ∈ os, ∀ id, (f o).1 ≤ id → id < (f o).2 → l[id]? ≠ some true) : os.filter (fun o => hit l (f o)) = [] := by
  rw [List.filter_eq_nil_iff]
  intro o ho hh
  obtain ⟨id, i1, i2, i3⟩ := hit_iff.1 hh
  exact h o ho id i1 i2 i3

theorem selectWithGo_spec {α : Type} (f : α → Nat × Nat) {l : List Bool} (fails : α → Bool) : ∀ (fuel : Nat) (os : List α)
    (r : BitwiseRange), os.length < fuel → Ascending (os.map f) →
    ((∃ p, At l r p ∧ l[p]? = some true ∧ ∀ o ∈ os, ∀ id, (f o).1 ≤ id → id < (f o).2 → l[id]? = some true → p ≤ id)
      ∨ (Ended r ∧ ∀ o ∈ os, ∀ id, (f o).1 ≤ id → id < (f o).2 → l[id]? ≠ some true)) →
    selectWithGo f fails fuel os r = some (untilFailure fails (os.filter (fun o => hit l (f o))))
  | 0, os, r, hf, _, _ => by omega
  | fuel + 1, [], r, hf, _, _ => rfl
  | fuel + 1, obj :: objs, r, hf, hasc, hst => by
    rw [selectWithGo]
    rcases hst with ⟨p, hat, hset, hmin⟩ | ⟨hend, hnone⟩
    rotate_left
    · rw [hend.done, if_pos rfl, filter_hit_none hnone]; rfl
    rw [hat.done, if_neg (by simp), hat.offset]
    have hle := ascending_head_le hasc
    -- after the optional jump to the beginning of the object
    have hjump : MovedTo l true (max p (f obj).1) (if p < (f obj).1 then r.selectFrom true (f obj).1 else r) := by
      by_cases hlt : p < (f obj).1
      · rw [if_pos hlt, Nat.max_eq_right (by omega)]
        exact selectFrom_at true hat (by omega)
      · rw [if_neg hlt, Nat.max_eq_left (by omega)]
        exact Or.inl ⟨p, Nat.le_refl _, hset, fun q h1 h2 => by omega, hat⟩
    have hfrom : ∀ o ∈ obj :: objs, ∀ id, (f o).1 ≤ id → id < (f o).2 → l[id]? = some true → max p (f obj).1 ≤ id := by
      intro o ho id h1 h2 h3
      have hp := hmin o ho id h1 h2 h3
      have : (f obj).1 ≤ id := by
        rcases List.mem_cons.1 ho with rfl | ho
        · exact h1
        · have := ascending_bound hasc (f o) (List.mem_map_of_mem ho); omega
      omega
    generalize hr' : (if p < (f obj).1 then r.selectFrom true (f obj).1 else r) = r' at hjump
    simp only
    rcases hjump with ⟨p', hp1, hp2, hp3, hp4⟩ | ⟨hp1, hp2⟩
    rotate_left
    · rw [hp2.done, if_pos rfl, filter_hit_none]
      · rfl
      · intro o ho id h1 h2 h3
        exact hp1 id (hfrom o ho id h1 h2 h3) h3
    rw [hp4.done, if_neg (by simp), hp4.offset]
    have hmin' : ∀ o ∈ obj :: objs, ∀ id, (f o).1 ≤ id → id < (f o).2 → l[id]? = some true → p' ≤ id := by
      intro o ho id h1 h2 h3
      apply Nat.le_of_not_lt
      intro hlt
      exact hp3 id (hfrom o ho id h1 h2 h3) hlt h3
    by_cases hin : p' ≥ (f obj).1 ∧ p' < (f obj).2
    · rw [if_pos hin]
      have hhit : hit l (f obj) = true := hit_iff.2 ⟨p', hin.1, hin.2, hp2⟩
      rw [List.filter_cons, hhit, if_pos rfl]
      by_cases hfail : fails obj = true
      · rw [if_pos hfail, untilFailure, if_pos hfail]
      · rw [if_neg hfail, untilFailure, if_neg hfail]
        have hmv := selectFrom_at (x := (f obj).2) true hp4 (by omega)
        generalize r'.selectFrom true (f obj).2 = r'' at hmv
        rcases hmv with ⟨p'', hq1, hq2, hq3, hq4⟩ | ⟨hq1, hq2⟩
        · rw [hq4.done, if_neg (by simp), hq4.offset]
          rw [List.dropWhile_cons, if_pos (by simpa using hq1)]
          have hmin'' : ∀ o ∈ objs, ∀ id, (f o).1 ≤ id → id < (f o).2 → l[id]? = some true → p'' ≤ id := by
            intro o ho id h1 h2 h3
            have := ascending_bound hasc (f o) (List.mem_map_of_mem ho)
            apply Nat.le_of_not_lt
            intro hlt
            exact hq3 id (by omega) hlt h3
          obtain ⟨d1, d2, d3, d4⟩ := dropWhile_facts f (l := l) (p := p'') (ascending_tail hasc) hmin''
          rw [selectWithGo_spec f fails fuel _ r'' (by simp at hf; omega) d1
            (Or.inl ⟨p'', hq4, hq2, fun o ho => hmin'' o (d4 o ho)⟩), d2]
          rfl
        · rw [hq2.done, if_pos rfl, filter_hit_none]
          · rfl
          · intro o ho id h1 h2
            have := ascending_bound hasc (f o) (List.mem_map_of_mem ho)
            exact hq1 id (by omega)
    · rw [if_neg hin]
      have hdrop : (f obj).2 ≤ p' := by omega
      obtain ⟨d1, d2, d3, d4⟩ := dropWhile_facts f (l := l) (p := p') hasc hmin'
      have hlen : ((obj :: objs).dropWhile fun o => decide ((f o).2 ≤ p')).length ≤ objs.length := by
        rw [List.dropWhile_cons, if_pos (by simpa using hdrop)]
        exact (List.dropWhile_suffix _).length_le
      rw [selectWithGo_spec f fails fuel _ r' (by simp at hf; omega) d1
        (Or.inl ⟨p', hp4, hp2, fun o ho => hmin' o (d4 o ho)⟩), d2]

end Verif.Bitmap
