import Verif.Reader.Spec
import Verif.Reader.LineLemmas
/-! Helper lemmas about builders and the read loop. -/
namespace Verif.Reader

variable {L R : Type} [DecidableEq L]

theorem rowsOf_addRow (bs : List (L × List R)) (l k : L) (x : R) :
    rowsOf (addRow bs l x) k = rowsOf bs k ++ (if k = l then [x] else []) := by
  induction bs with
  | nil => simp only [addRow, rowsOf, eq_comm]; split <;> simp
  | cons b r ih =>
    obtain ⟨j, rs⟩ := b
    by_cases h : j = l
    · subst h
      by_cases hk : j = k
      · simp [addRow, rowsOf, hk]
      · simp [addRow, rowsOf, hk, Ne.symm hk]
    · by_cases hk : j = k
      · subst hk; simp [addRow, rowsOf, h]
      · simp [addRow, rowsOf, h, hk, ih]

theorem rowsOf_clearRows (bs : List (L × List R)) (l k : L) :
    rowsOf (clearRows bs l) k = if k = l then [] else rowsOf bs k := by
  induction bs with
  | nil => simp [clearRows, rowsOf]
  | cons b r ih =>
    obtain ⟨j, rs⟩ := b
    by_cases h : j = l
    · subst h
      by_cases hk : j = k
      · simp [clearRows, rowsOf, hk]
      · simp [clearRows, rowsOf, hk, Ne.symm hk]
    · by_cases hk : j = k
      · subst hk; simp [clearRows, rowsOf, h]
      · simp [clearRows, rowsOf, h, hk, ih]

theorem keys_clearRows (bs : List (L × List R)) (l : L) :
    (clearRows bs l).map Prod.fst = bs.map Prod.fst := by
  induction bs with
  | nil => rfl
  | cons b r ih =>
    obtain ⟨j, rs⟩ := b
    by_cases h : j = l <;> simp [clearRows, h, ih]

theorem keys_addRow (bs : List (L × List R)) (l : L) (x : R) :
    (addRow bs l x).map Prod.fst = if l ∈ bs.map Prod.fst then bs.map Prod.fst else bs.map Prod.fst ++ [l] := by
  induction bs with
  | nil => simp [addRow]
  | cons b r ih =>
    obtain ⟨j, rs⟩ := b
    by_cases h : j = l
    · simp [addRow, h]
    · simp only [addRow, h, ↓reduceIte, List.map_cons, ih, List.mem_cons]
      have h' : ¬ l = j := fun e => h e.symm
      simp only [h', false_or]
      split <;> simp

theorem nodup_addRow {bs : List (L × List R)} (h : (bs.map Prod.fst).Nodup) (l : L) (x : R) :
    ((addRow bs l x).map Prod.fst).Nodup := by
  rw [keys_addRow]
  split
  · exact h
  · rw [List.nodup_append]
    refine ⟨h, by simp, ?_⟩
    intro a ha b hb
    simp at hb
    subst hb
    rintro rfl
    contradiction

/-- The number of rows in a list of builders. -/
def rowSum (bs : List (L × List R)) : Nat := (bs.map fun b => b.2.length).sum

omit [DecidableEq L] in
theorem buffered_eq (s : State L R) : buffered s = rowSum s.builders := rfl

theorem rowSum_addRow (bs : List (L × List R)) (l : L) (x : R) : rowSum (addRow bs l x) = rowSum bs + 1 := by
  induction bs with
  | nil => simp [addRow, rowSum]
  | cons b r ih =>
    obtain ⟨j, rs⟩ := b
    simp only [rowSum] at ih
    by_cases h : j = l
    · simp [addRow, h, rowSum]; omega
    · simp [addRow, h, rowSum, ih]; omega

theorem rowSum_clearRows (bs : List (L × List R)) (l : L) :
    rowSum (clearRows bs l) + (rowsOf bs l).length = rowSum bs := by
  induction bs with
  | nil => simp [clearRows, rowSum, rowsOf]
  | cons b r ih =>
    obtain ⟨j, rs⟩ := b
    simp only [rowSum] at ih
    by_cases h : j = l
    · simp [clearRows, rowsOf, h, rowSum]; omega
    · simp [clearRows, rowsOf, h, rowSum]; omega

theorem rowsOf_not_mem {bs : List (L × List R)} {k : L} (h : k ∉ bs.map Prod.fst) : rowsOf bs k = [] := by
  induction bs with
  | nil => rfl
  | cons b r ih =>
    obtain ⟨j, rs⟩ := b
    simp at h
    have : ¬ j = k := fun e => h.1 e.symm
    simp only [rowsOf, this, ↓reduceIte]
    exact ih (by simpa using h.2)

theorem rowSum_zero {bs : List (L × List R)} (hn : (bs.map Prod.fst).Nodup) (h : ∀ k, rowsOf bs k = []) :
    rowSum bs = 0 := by
  induction bs with
  | nil => rfl
  | cons b r ih =>
    obtain ⟨j, rs⟩ := b
    have hj : rs = [] := by simpa [rowsOf] using h j
    simp only [List.map_cons, List.nodup_cons] at hn
    have := ih hn.2 fun k => by
      by_cases e : j = k
      · subst e; exact rowsOf_not_mem hn.1
      · simpa [rowsOf, e] using h k
    simp only [rowSum] at this ⊢
    simp [hj, this]

omit [DecidableEq L] in
theorem total_append (a b : List (Slice L R)) : total (a ++ b) = total a + total b := by simp [total]

theorem rowsIn_append (k : L) (a b : List (Slice L R)) : rowsIn k (a ++ b) = rowsIn k a ++ rowsIn k b := by
  simp [rowsIn]

/-- What holds of builders and slices between rounds. -/
structure BInv (maxSlice : Nat) (s : State L R) : Prop where
  nodup : (s.builders.map Prod.fst).Nodup
  room : ∀ k, (rowsOf s.builders k).length < maxSlice
  size : ∀ x ∈ s.out, 1 ≤ x.2.length ∧ x.2.length ≤ maxSlice
  batch : buffered s ≤ s.batch

/-- `finishOne` moves rows from the builder to the output. -/
theorem finishOne_spec (s : State L R) (l : L) :
    (finishOne s l).lines = s.lines ∧
    (∀ k, rowsIn k (finishOne s l).out ++ rowsOf (finishOne s l).builders k = rowsIn k s.out ++ rowsOf s.builders k) ∧
    (total (finishOne s l).out + buffered (finishOne s l) = total s.out + buffered s) ∧
    (finishOne s l).builders.map Prod.fst = s.builders.map Prod.fst ∧
    (∀ k, rowsOf (finishOne s l).builders k = if k = l then [] else rowsOf s.builders k) ∧
    (buffered s ≤ s.batch → buffered (finishOne s l) ≤ (finishOne s l).batch) ∧
    (buffered s = s.batch → buffered (finishOne s l) = (finishOne s l).batch) ∧
    (finishOne s l).batch ≤ s.batch ∧
    s.out <+: (finishOne s l).out ∧
    (∀ x ∈ (finishOne s l).out, x ∈ s.out ∨ (x.2 ≠ [] ∧ x.2 = rowsOf s.builders l)) := by
  by_cases h : rowsOf s.builders l = []
  · have e : finishOne s l = s := by simp [finishOne, h]
    rw [e]
    refine ⟨rfl, fun _ => rfl, rfl, rfl, ?_, id, id, Nat.le_refl _, List.prefix_refl _, fun x hx => .inl hx⟩
    intro k
    split
    · subst_vars; exact h
    · rfl
  · have e : finishOne s l = { s with
      batch := if s.batch ≥ (rowsOf s.builders l).length then s.batch - (rowsOf s.builders l).length else 0
      builders := clearRows s.builders l
      out := s.out ++ [(l, rowsOf s.builders l)] } := by simp [finishOne, h]
    rw [e]
    have hs := rowSum_clearRows s.builders l
    have hc := rowsOf_clearRows s.builders l
    simp only [buffered_eq]
    refine ⟨trivial, ?_, ?_, keys_clearRows _ _, hc, ?_, ?_, ?_, ⟨_, rfl⟩, ?_⟩
    · intro k
      rw [hc, rowsIn_append]
      by_cases hk : k = l
      · subst hk; simp [rowsIn]
      · have : ¬ l = k := fun e => hk e.symm
        simp [rowsIn, hk, this]
    · rw [total_append]; simp [total]; omega
    · intro hb; split <;> omega
    · intro hb; split <;> omega
    · split <;> omega
    · intro x hx
      simp at hx
      rcases hx with hx | hx
      · exact .inl hx
      · subst hx; exact .inr ⟨h, rfl⟩

theorem finishOne_binv {m : Nat} {s : State L R} (h : BInv m s) (l : L) : BInv m (finishOne s l) := by
  obtain ⟨_, _, _, h4, h5, h6, _, _, _, h10⟩ := finishOne_spec s l
  refine ⟨by rw [h4]; exact h.nodup, ?_, ?_, h6 h.batch⟩
  · intro k
    rw [h5]
    split
    · have := h.room k; simp; omega
    · exact h.room k
  · intro x hx
    rcases h10 x hx with hx | ⟨hx, e⟩
    · exact h.size x hx
    · have := h.room l
      rw [← e] at this
      exact ⟨List.length_pos_iff.mpr hx, by omega⟩

/-- Weaker: rows at most the limit. -/
theorem finishOne_size {m : Nat} {s : State L R} (l : L) (hr : (rowsOf s.builders l).length ≤ m)
    (hs : ∀ x ∈ s.out, 1 ≤ x.2.length ∧ x.2.length ≤ m) :
    ∀ x ∈ (finishOne s l).out, 1 ≤ x.2.length ∧ x.2.length ≤ m := by
  obtain ⟨_, _, _, _, _, _, _, _, _, h10⟩ := finishOne_spec s l
  intro x hx
  rcases h10 x hx with hx | ⟨hx, e⟩
  · exact hs x hx
  · rw [e]; rw [e] at hx
    exact ⟨List.length_pos_iff.mpr hx, hr⟩

theorem fold_spec (ks : List L) : ∀ (s : State L R) (m : Nat), (∀ k, (rowsOf s.builders k).length ≤ m) →
    (∀ x ∈ s.out, 1 ≤ x.2.length ∧ x.2.length ≤ m) →
    let s' := ks.foldl finishOne s
    s'.lines = s.lines ∧
    (∀ k, rowsIn k s'.out ++ rowsOf s'.builders k = rowsIn k s.out ++ rowsOf s.builders k) ∧
    (total s'.out + buffered s' = total s.out + buffered s) ∧
    s'.builders.map Prod.fst = s.builders.map Prod.fst ∧
    (∀ k, rowsOf s'.builders k = if k ∈ ks then [] else rowsOf s.builders k) ∧
    (buffered s ≤ s.batch → buffered s' ≤ s'.batch) ∧
    (buffered s = s.batch → buffered s' = s'.batch) ∧
    s.out <+: s'.out ∧
    (∀ x ∈ s'.out, 1 ≤ x.2.length ∧ x.2.length ≤ m) := by
  induction ks with
  | nil =>
    intro s m _ hs
    exact ⟨rfl, fun _ => rfl, rfl, rfl, by simp, id, id, List.prefix_refl _, hs⟩
  | cons l ks ih =>
    intro s m hr hs
    obtain ⟨a1, a2, a3, a4, a5, a6, a7, _, a9, _⟩ := finishOne_spec s l
    have hr' : ∀ k, (rowsOf (finishOne s l).builders k).length ≤ m := by
      intro k; rw [a5]; split
      · simp
      · exact hr k
    obtain ⟨b1, b2, b3, b4, b5, b6, b7, b8, b9⟩ := ih (finishOne s l) m hr' (finishOne_size l (hr l) hs)
    simp only [List.foldl_cons]
    refine ⟨b1.trans a1, fun k => (b2 k).trans (a2 k), b3.trans a3, b4.trans a4, ?_, fun h => b6 (a6 h),
      fun h => b7 (a7 h), a9.trans b8, b9⟩
    intro k
    rw [b5, a5]
    by_cases h1 : k ∈ ks <;> by_cases h2 : k = l <;> simp [h1, h2]

/-- `finishAll` moves all rows to the output. -/
theorem finishAll_spec (s : State L R) (m : Nat) (hn : (s.builders.map Prod.fst).Nodup)
    (hr : ∀ k, (rowsOf s.builders k).length ≤ m) (hs : ∀ x ∈ s.out, 1 ≤ x.2.length ∧ x.2.length ≤ m) :
    (finishAll s).lines = s.lines ∧
    (∀ k, rowsIn k (finishAll s).out = rowsIn k s.out ++ rowsOf s.builders k) ∧
    total (finishAll s).out = total s.out + buffered s ∧
    ((finishAll s).builders.map Prod.fst).Nodup ∧
    (∀ k, rowsOf (finishAll s).builders k = []) ∧
    buffered (finishAll s) = 0 ∧
    (buffered s = s.batch → (finishAll s).batch = 0) ∧
    s.out <+: (finishAll s).out ∧
    (∀ x ∈ (finishAll s).out, 1 ≤ x.2.length ∧ x.2.length ≤ m) := by
  obtain ⟨b1, b2, b3, b4, b5, _, b7, b8, b9⟩ := fold_spec (s.builders.map Prod.fst) s m hr hs
  have he : ∀ k, rowsOf (finishAll s).builders k = [] := by
    intro k
    rw [finishAll, b5]
    split
    · rfl
    · exact rowsOf_not_mem (by assumption)
  have hn' : ((finishAll s).builders.map Prod.fst).Nodup := by rw [finishAll, b4]; exact hn
  have h0 : buffered (finishAll s) = 0 := rowSum_zero hn' he
  refine ⟨b1, ?_, ?_, hn', he, h0, ?_, b8, b9⟩
  · intro k
    have := b2 k
    rw [← finishAll, he k] at this
    simpa using this
  · rw [← finishAll, h0] at b3
    simpa using b3
  · intro h
    rw [← h0]
    exact (b7 h).symm

theorem finishAll_binv {m : Nat} (hm : 0 < m) {s : State L R} (h : BInv m s) : BInv m (finishAll s) := by
  obtain ⟨_, _, _, h4, h5, h6, _, _, h9⟩ := finishAll_spec s m h.nodup (fun k => Nat.le_of_lt (h.room k)) h.size
  exact ⟨h4, fun k => by rw [h5]; simpa using hm, h9, by omega⟩

/-- What a reader does with an event. -/
structure Takes (m : Nat) (onEvent : State L R → L → R → State L R) : Prop where
  lines : ∀ s l x, BInv m s → (onEvent s l x).lines = s.lines
  binv : ∀ s l x, BInv m s → BInv m (onEvent s l x)
  rows : ∀ s l x, BInv m s → ∀ k, rowsIn k (onEvent s l x).out ++ rowsOf (onEvent s l x).builders k =
    rowsIn k s.out ++ rowsOf s.builders k ++ (if k = l then [x] else [])
  count : ∀ s l x, BInv m s → total (onEvent s l x).out + buffered (onEvent s l x) = total s.out + buffered s + 1
  grows : ∀ s l x, BInv m s → s.out <+: (onEvent s l x).out

theorem room_addRow {m : Nat} {s : State L R} (h : BInv m s) (l k : L) (x : R) :
    (rowsOf (addRow s.builders l x) k).length ≤ m := by
  rw [rowsOf_addRow]
  have := h.room k
  split <;> simp <;> omega

theorem json_takes {m : Nat} (hm : 0 < m) : Takes m (jsonEvent m (L := L) (R := R)) := by
  have main : ∀ (s : State L R) l x, BInv m s →
      (jsonEvent m s l x).lines = s.lines ∧ BInv m (jsonEvent m s l x) ∧
      (∀ k, rowsIn k (jsonEvent m s l x).out ++ rowsOf (jsonEvent m s l x).builders k =
        rowsIn k s.out ++ rowsOf s.builders k ++ (if k = l then [x] else [])) ∧
      total (jsonEvent m s l x).out + buffered (jsonEvent m s l x) = total s.out + buffered s + 1 ∧
      s.out <+: (jsonEvent m s l x).out := by
    intro s l x h
    have hadd := rowsOf_addRow s.builders l (x := x)
    have hsum := rowSum_addRow s.builders l x
    have hroom := room_addRow h l (x := x)
    have hbatch := h.batch
    simp only [buffered_eq] at hbatch
    let s1 : State L R := { s with builders := addRow s.builders l x, batch := s.batch + 1 }
    have hb1 : buffered s1 ≤ s1.batch := by simp only [buffered_eq, s1]; omega
    by_cases hf : (rowsOf (addRow s.builders l x) l).length = m
    · have e : jsonEvent m s l x = finishOne s1 l := by simp [jsonEvent, hf, s1]
      rw [e]
      obtain ⟨a1, a2, a3, a4, a5, a6, _, _, a9, _⟩ := finishOne_spec s1 l
      refine ⟨a1, ⟨by rw [a4]; exact nodup_addRow h.nodup l x, ?_, finishOne_size l (hroom l) h.size, a6 hb1⟩, ?_, ?_, a9⟩
      · intro k
        rw [a5]
        by_cases hk : k = l
        · simpa [hk] using hm
        · have := h.room k
          simp only [hk, ↓reduceIte, s1, hadd]
          simpa [hk] using this
      · intro k
        rw [a2]
        simp only [s1, hadd]
        simp [List.append_assoc]
      · rw [a3]; simp only [buffered_eq, s1]; omega
    · have e : jsonEvent m s l x = s1 := by simp [jsonEvent, hf, s1]
      rw [e]
      refine ⟨rfl, ⟨nodup_addRow h.nodup l x, ?_, h.size, hb1⟩, ?_, ?_, List.prefix_refl _⟩
      · intro k
        by_cases hk : k = l
        · subst hk; have := hroom k; simp only [s1]; omega
        · have := h.room k
          simp only [s1, hadd]
          simpa [hk] using this
      · intro k; simp only [s1, hadd]; simp [List.append_assoc]
      · simp only [buffered_eq, s1]; omega
  exact ⟨fun s l x h => (main s l x h).1, fun s l x h => (main s l x h).2.1, fun s l x h => (main s l x h).2.2.1,
    fun s l x h => (main s l x h).2.2.2.1, fun s l x h => (main s l x h).2.2.2.2⟩

theorem syslog_takes {m : Nat} (hm : 0 < m) : Takes m (syslogEvent m (L := L) (R := R)) := by
  have main : ∀ (s : State L R) l x, BInv m s →
      (syslogEvent m s l x).lines = s.lines ∧ BInv m (syslogEvent m s l x) ∧
      (∀ k, rowsIn k (syslogEvent m s l x).out ++ rowsOf (syslogEvent m s l x).builders k =
        rowsIn k s.out ++ rowsOf s.builders k ++ (if k = l then [x] else [])) ∧
      total (syslogEvent m s l x).out + buffered (syslogEvent m s l x) = total s.out + buffered s + 1 ∧
      s.out <+: (syslogEvent m s l x).out := by
    intro s l x h
    have hadd := rowsOf_addRow s.builders l (x := x)
    have hsum := rowSum_addRow s.builders l x
    have hroom := room_addRow h l (x := x)
    have hbatch := h.batch
    simp only [buffered_eq] at hbatch
    let s1 : State L R := { s with builders := addRow s.builders l x }
    by_cases hf : (rowsOf (addRow s.builders l x) l).length ≥ m
    · have e : syslogEvent m s l x = { finishAll s1 with batch := (finishAll s1).batch + 1 } := by
        simp [syslogEvent, hf, s1]
      rw [e]
      obtain ⟨a1, a2, a3, a4, a5, a6, _, a8, a9⟩ :=
        finishAll_spec s1 m (nodup_addRow h.nodup l x) hroom h.size
      refine ⟨a1, ⟨a4, fun k => by rw [a5]; simpa using hm, a9, ?_⟩, ?_, ?_, a8⟩
      · simp only [buffered_eq] at a6 ⊢; omega
      · intro k
        simp only [a2, a5]
        simp [s1, hadd, List.append_assoc]
      · simp only [buffered_eq, s1] at a3 a6 ⊢; omega
    · have e : syslogEvent m s l x = { s1 with batch := s.batch + 1 } := by simp [syslogEvent, hf, s1]
      rw [e]
      refine ⟨rfl, ⟨nodup_addRow h.nodup l x, ?_, h.size, ?_⟩, ?_, ?_, List.prefix_refl _⟩
      · intro k
        by_cases hk : k = l
        · subst hk; have := hroom k; simp only [s1]; omega
        · have := h.room k
          simp only [s1, hadd]
          simpa [hk] using this
      · simp only [buffered_eq, s1]; omega
      · intro k; simp only [s1, hadd]; simp [List.append_assoc]
      · simp only [buffered_eq, s1]; omega
  exact ⟨fun s l x h => (main s l x h).1, fun s l x h => (main s l x h).2.1, fun s l x h => (main s l x h).2.2.1,
    fun s l x h => (main s l x h).2.2.2.1, fun s l x h => (main s l x h).2.2.2.2⟩

end Verif.Reader
