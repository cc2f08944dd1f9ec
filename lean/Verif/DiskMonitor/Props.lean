import Verif.DiskMonitor.Model

/-! # C42: Disk quota enforcement deletes only the oldest partitions and stops at the low-water mark -/

namespace Verif.DiskMonitor

namespace Spec

/-- No `ping` of a history sees a size above the high-water mark. -/
def NeverHigh (c : Config) : State → List Ev → Prop
  | _, [] => True
  | s, e :: es => (∀ b, e = .ping b → size s ≤ c.high) ∧ NeverHigh c (step c s e) es

/-- Every `erase` message that has an effect is handled while the size is above the low-water mark. -/
def DeletesAboveLow (c : Config) : State → List Ev → Prop
  | _, [] => True
  | s, e :: es => (∀ order, e = .erase order → (step c s e).requests ≠ s.requests → size s > c.low) ∧ DeletesAboveLow c (step c s e) es

end Spec

open Spec

/-- Nothing is under way. -/
def Idle (s : State) : Prop := s.erases = 0 ∧ s.requests = [] ∧ s.replies = []

theorem release_same (s : State) (r : Nat) : (release s r).disk = s.disk ∧ (release s r).other = s.other ∧ (release s r).erases = s.erases ∧
    (release s r).requests = s.requests ∧ (release s r).replies = s.replies := by
  rw [release]; split <;> simp

theorem idle_step (c : Config) (s : State) (e : Ev) (h : Idle s) (he : ∀ b, e = .ping b → size s ≤ c.high) :
    Idle (step c s e) := by
  obtain ⟨h1, h2, h3⟩ := h
  cases e with
  | ping b =>
    simp only [step, onPing]
    by_cases hp : s.purging = true
    · rw [if_pos hp]; exact ⟨h1, h2, h3⟩
    · rw [if_neg hp]
      by_cases hb : b = false
      · rw [if_pos hb]; exact ⟨h1, h2, h3⟩
      · have := he b rfl
        rw [if_neg hb, if_neg (by omega)]; exact ⟨h1, h2, h3⟩
  | erase o => simp only [step, if_pos h1]; exact ⟨h1, h2, h3⟩
  | reply i b => simp only [step, h3]; exact ⟨h1, h2, h3⟩
  | index i b => simp only [step, h2]; exact ⟨h1, h2, h3⟩
  | grow p => exact ⟨h1, h2, h3⟩
  | growOther n => exact ⟨h1, h2, h3⟩

/-- C42: as long as no check sees a size above the high-water mark, nothing is erased. -/
theorem C42_starts_above_high (c : Config) (disk : List Part) (other : Nat) (es : List Ev) (h : NeverHigh c (start disk other) es) :
    (run c (start disk other) es).erases = 0 ∧ (run c (start disk other) es).requests = [] := by
  have : ∀ (es : List Ev) (s : State), Idle s → NeverHigh c s es → Idle (run c s es) := by
    intro es
    induction es with
    | nil => intro s hs _; exact hs
    | cons e es ih => intro s hs hn; exact ih _ (idle_step c s e hs hn.1) hn.2
  have hi := this es _ ⟨rfl, rfl, rfl⟩ h
  exact ⟨hi.1, hi.2.1⟩

theorem sorted_take {ps : List Part} (h : sortedBy ps = true) (k : Nat) : ∀ p ∈ ps.take k, ∀ q ∈ ps.drop k, p.mtime ≤ q.mtime := by
  have head : ∀ (ps : List Part) (p : Part), sortedBy (p :: ps) = true → (∀ q ∈ ps, p.mtime ≤ q.mtime) ∧ sortedBy ps = true := by
    intro ps
    induction ps with
    | nil => intro p _; exact ⟨by simp, rfl⟩
    | cons q ps ih =>
      intro p hp
      simp only [sortedBy, Bool.and_eq_true, decide_eq_true_eq] at hp
      obtain ⟨i1, _⟩ := ih q hp.2
      refine ⟨fun x hx => ?_, hp.2⟩
      rcases List.mem_cons.1 hx with rfl | hx
      · exact hp.1
      · exact Nat.le_trans hp.1 (i1 x hx)
  induction ps generalizing k with
  | nil => simp
  | cons p ps ih =>
    cases k with
    | zero => simp
    | succ k =>
      obtain ⟨h1, h2⟩ := head ps p h
      intro x hx y hy
      simp only [List.take_succ_cons, List.mem_cons] at hx
      rw [List.drop_succ_cons] at hy
      rcases hx with rfl | hx
      · exact h1 y (List.mem_of_mem_drop hy)
      · exact ih h2 k x hx y hy

/-- C42: handling an `erase` message requests to erase partitions that are on disk, at most as many as the step size, and each
    of them is at least as old as each partition on disk that is spared. -/
theorem C42_oldest_first (c : Config) (s : State) (order : Option (List Part)) :
    ∃ chosen spared : List Part, (chosen ++ spared).Perm s.disk ∧ chosen.length ≤ c.stepSize ∧
      (step c s (.erase order)).requests = s.requests ++ chosen.map (fun p => (p.id, s.runs)) ∧
      ∀ p ∈ chosen, ∀ q ∈ spared, p.mtime ≤ q.mtime := by
  have nothing : ∀ t : State, t.requests = s.requests → ∃ chosen spared : List Part, (chosen ++ spared).Perm s.disk ∧ chosen.length ≤ c.stepSize ∧
      t.requests = s.requests ++ chosen.map (fun p => (p.id, s.runs)) ∧ ∀ p ∈ chosen, ∀ q ∈ spared, p.mtime ≤ q.mtime := by
    intro t ht
    exact ⟨[], s.disk, .refl _, Nat.zero_le _, by simp [ht], by simp⟩
  simp only [step]
  by_cases h0 : s.erases = 0
  · rw [if_pos h0]; exact nothing s rfl
  · rw [if_neg h0]
    cases order with
    | none => exact nothing _ rfl
    | some ps =>
      simp only
      by_cases hc : (ps.isPerm s.disk && sortedBy ps) = true
      · rw [if_pos hc]
        rw [Bool.and_eq_true, List.isPerm_iff] at hc
        cases ps with
        | nil => exact nothing _ rfl
        | cons p ps =>
          refine ⟨(p :: ps).take (min (p :: ps).length c.stepSize), (p :: ps).drop (min (p :: ps).length c.stepSize), ?_, ?_, rfl, sorted_take hc.2 _⟩
          · rw [List.take_append_drop]; exact hc.1
          · rw [List.length_take]; omega
      · rw [if_neg hc]; exact nothing s rfl

/-- C42: an `erase` message is sent only by a `ping` that sees a size above the high-water mark, or after an erasure that leaves
    a size above the low-water mark. -/
theorem C42_checked (c : Config) (s : State) (e : Ev) (h : (step c s e).erases > s.erases) :
    (e = .ping true ∧ size s > c.high ∧ s.purging = false) ∨ ((∃ i, e = .reply i true) ∧ size s > c.low) := by
  cases e with
  | ping b =>
    simp only [step, onPing] at h
    by_cases hp : s.purging = true
    · rw [if_pos hp] at h; omega
    · rw [if_neg hp] at h
      cases b with
      | false => rw [if_pos rfl] at h; omega
      | true =>
        rw [if_neg (by simp)] at h
        by_cases hs : size s > c.high
        · exact .inl ⟨rfl, hs, by simpa using hp⟩
        · rw [if_neg hs] at h; omega
  | erase o =>
    simp only [step] at h
    by_cases h0 : s.erases = 0
    · rw [if_pos h0] at h; omega
    · rw [if_neg h0] at h
      cases o with
      | none => simp only [onErase] at h; omega
      | some ps =>
        simp only at h
        split at h
        · cases ps <;> simp only [onErase] at h <;> omega
        · omega
  | reply i b =>
    simp only [step] at h
    cases hr : s.replies[i]? with
    | none => rw [hr] at h; simp only at h; omega
    | some x =>
      obtain ⟨r, ok⟩ := x
      rw [hr] at h
      simp only [onReply, (release_same _ _).2.2.1] at h
      by_cases hc : ok = true ∧ b = true ∧ size { s with replies := s.replies.eraseIdx i } > c.low
      · right
        obtain ⟨_, rfl, hs⟩ := hc
        exact ⟨⟨i, rfl⟩, hs⟩
      · rw [if_neg hc] at h; simp only at h; omega
  | index i b =>
    simp only [step] at h
    cases hr : s.requests[i]? with
    | none => rw [hr] at h; simp only at h; omega
    | some x => rw [hr] at h; simp only at h; omega
  | grow p => simp only [step] at h; omega
  | growOther n => simp only [step] at h; omega

/-! ### Stopping at the low-water mark -/

/-- No `ping` starts a purge while one is under way. -/
def OneAtATime (c : Config) : State → List Ev → Prop
  | _, [] => True
  | s, e :: es => (∀ b, e = .ping b → Idle s ∨ s.purging = true ∨ size s ≤ c.high) ∧ OneAtATime c (step c s e) es

/-- One thing at most is under way, and an `erase` message only above the low-water mark. -/
structure Single (c : Config) (s : State) : Prop where
  one : s.erases + s.requests.length + s.replies.length ≤ 1
  above : s.erases = 1 → size s > c.low

theorem single_step (c : Config) (hv : c.valid = true) (h1 : c.stepSize = 1) (s : State) (h : Single c s) (e : Ev)
    (he : ∀ b, e = .ping b → Idle s ∨ s.purging = true ∨ size s ≤ c.high) : Single c (step c s e) := by
  have hlow : c.low ≤ c.high := by
    simp only [Config.valid, Bool.and_eq_true, Bool.not_eq_true', decide_eq_false_iff_not] at hv; omega
  have hone := h.one
  cases e with
  | ping b =>
    simp only [step, onPing]
    by_cases hp : s.purging = true
    · rw [if_pos hp]; exact h
    · rw [if_neg hp]
      by_cases hb : b = false
      · rw [if_pos hb]; exact h
      · rw [if_neg hb]
        by_cases hs : size s > c.high
        · rw [if_pos hs]
          rcases he b rfl with ⟨i1, i2, i3⟩ | hx | hx
          · refine ⟨by simp [i1, i2, i3], fun _ => ?_⟩
            show size s > c.low
            omega
          · exact absurd hx hp
          · omega
        · rw [if_neg hs]; exact h
  | erase o =>
    simp only [step]
    by_cases h0 : s.erases = 0
    · rw [if_pos h0]; exact h
    · rw [if_neg h0]
      cases o with
      | none => simp only [onErase]; exact ⟨by simp only; omega, fun hx => by simp only at hx; omega⟩
      | some ps =>
        simp only
        split
        · cases ps with
          | nil => simp only [onErase]; exact ⟨by simp only; omega, fun hx => by simp only at hx; omega⟩
          | cons p ps =>
            simp only [onErase, h1]
            refine ⟨?_, fun hx => by simp only at hx; omega⟩
            simp only [List.length_append, List.length_map, List.length_take]
            omega
        · exact h
  | reply i b =>
    simp only [step]
    cases hr : s.replies[i]? with
    | none => exact h
    | some x =>
      obtain ⟨r, ok⟩ := x
      have hlt : i < s.replies.length := (List.getElem?_eq_some_iff.1 hr).1
      have hlen : (s.replies.eraseIdx i).length = s.replies.length - 1 := List.length_eraseIdx_of_lt hlt
      simp only [onReply]
      by_cases hc : ok = true ∧ b = true ∧ size { s with replies := s.replies.eraseIdx i } > c.low
      · rw [if_pos hc]
        obtain ⟨q1, q2, q3, q4, q5⟩ := release_same { s with replies := s.replies.eraseIdx i, erases := s.erases + 1 } r
        refine ⟨?_, fun _ => ?_⟩
        · rw [q3, q4, q5]; simp only [hlen]; omega
        · simp only [size, q1, q2]; exact hc.2.2
      · rw [if_neg hc]
        obtain ⟨q1, q2, q3, q4, q5⟩ := release_same { s with replies := s.replies.eraseIdx i } r
        refine ⟨?_, fun hx => ?_⟩
        · rw [q3, q4, q5]; simp only [hlen]; omega
        · rw [q3] at hx
          simp only [size, q1, q2]
          exact h.above hx
  | index i b =>
    simp only [step]
    cases hr : s.requests[i]? with
    | none => exact h
    | some x =>
      obtain ⟨id, r⟩ := x
      have hlt : i < s.requests.length := (List.getElem?_eq_some_iff.1 hr).1
      have hlen : (s.requests.eraseIdx i).length = s.requests.length - 1 := List.length_eraseIdx_of_lt hlt
      refine ⟨?_, fun hx => ?_⟩
      · simp only [hlen, List.length_append, List.length_cons, List.length_nil]; omega
      · simp only at hx; omega
  | grow p =>
    refine ⟨h.one, fun hx => ?_⟩
    have := h.above hx
    simp only [step, size, List.map_append, List.sum_append] at this ⊢
    omega
  | growOther n =>
    refine ⟨h.one, fun hx => ?_⟩
    have := h.above hx
    simp only [step, size] at this ⊢
    omega

/-- C42: with a step size of one, and if no check starts a second purge meanwhile, erasures are requested only while the size is
    above the low-water mark, however the messages and the growth of the database interleave. Missing for the full statement:
    larger steps (`C42_step_refuted`) and checks during a purge (`C42_parallel_refuted`), for which it is false. -/
theorem C42_stops_partial (c : Config) (hv : c.valid = true) (h1 : c.stepSize = 1) (disk : List Part) (other : Nat) (es : List Ev)
    (h : OneAtATime c (start disk other) es) : DeletesAboveLow c (start disk other) es := by
  have : ∀ (es : List Ev) (s : State), Single c s → OneAtATime c s es → DeletesAboveLow c s es := by
    intro es
    induction es with
    | nil => intro s _ _; trivial
    | cons e es ih =>
      intro s hs ho
      refine ⟨?_, ih _ (single_step c hv h1 s hs e ho.1) ho.2⟩
      rintro order rfl hne
      apply hs.above
      have hone := hs.one
      by_cases h0 : s.erases = 0
      · exfalso; apply hne; simp only [step, if_pos h0]
      · omega
  exact this es _ ⟨by simp [start], fun hx => by simp [start] at hx⟩ h

def five : List Part := [⟨1, 30, 1⟩, ⟨2, 30, 2⟩, ⟨3, 30, 3⟩, ⟨4, 30, 4⟩, ⟨5, 30, 5⟩]

instance (s : State) : Decidable (Idle s) := inferInstanceAs (Decidable (_ ∧ _ ∧ _))

/-- A purge that erases four partitions of five and stops at 30, below the mark of 50. -/
def purge : List Ev :=
  [.ping true, .erase (some five), .index 0 true, .reply 0 true, .erase (some (five.drop 1)), .index 0 true, .reply 0 true,
    .erase (some (five.drop 2)), .index 0 true, .reply 0 true, .erase (some (five.drop 3)), .index 0 true, .reply 0 true, .ping true]

example : OneAtATime ⟨100, 50, 1⟩ (start five 0) purge ∧ (run ⟨100, 50, 1⟩ (start five 0) purge).disk = five.drop 4 ∧
    (run ⟨100, 50, 1⟩ (start five 0) purge).erases = 0 := by
  refine ⟨?_, by decide, by decide⟩
  simp only [purge, OneAtATime]
  refine ⟨?_, ?_, ?_, ?_, ?_, ?_, ?_, ?_, ?_, ?_, ?_, ?_, ?_, ?_, trivial⟩ <;> intro b hb <;> first | (cases hb; decide) | cases hb

/-- With a step size of two, both erasures of a step ask for another step; the second of these erases a partition although the
    size is 30 already, below the low-water mark of 50. -/
theorem C42_step_refuted : ∃ es : List Ev,
    es = [.ping true, .erase (some five), .index 0 true, .index 0 true, .reply 0 true, .reply 0 true, .erase (some (five.drop 2)),
      .index 0 true, .index 0 true, .reply 0 true, .reply 0 true] ∧
    size (run ⟨100, 50, 2⟩ (start five 0) es) = 30 ∧
    (run ⟨100, 50, 2⟩ (start five 0) (es ++ [.erase (some (five.drop 4)), .index 0 true])).disk = [] := ⟨_, rfl, by decide, by decide⟩

/-- `purging` is reset after the first step, so that a check can start a second purge while one is under way. Both then erase,
    and the last partition is erased although the size is 30 already. -/
theorem C42_parallel_refuted : ∃ es : List Ev,
    es = [.ping true, .erase (some five), .index 0 true, .reply 0 true, .ping true, .erase (some (five.drop 1)), .index 0 true,
      .erase (some (five.drop 2)), .index 0 true, .reply 0 true, .reply 0 true, .erase (some (five.drop 3)), .index 0 true] ∧
    size (run ⟨100, 50, 1⟩ (start five 0) es) = 30 ∧
    (run ⟨100, 50, 1⟩ (start five 0) (es ++ [.erase (some (five.drop 4)), .index 0 true])).disk = [] := ⟨_, rfl, by decide, by decide⟩

end Verif.DiskMonitor
