import Verif.Ingest.Model

/-! # C36: Ingest routing loses no slice and respects partition capacity -/

namespace Verif.Ingest

namespace Spec

/-- The number of events. -/
def rows (xs : List Slice) : Nat := (xs.map (·.rows)).sum

/-- The number of events of a layout. -/
def rowsOf (l : Nat) (xs : List Slice) : Nat := rows (xs.filter (·.layout == l))

/-- The partitions in the order of their creation. -/
def partitions (s : State) : List (List Slice) := s.closed.reverse ++ (s.active.map (·.2)).toList

/-- A partition holds no more than the capacity, or it has a single slice that alone exceeds it (and maybe empty ones). -/
def WithinCapacity (capacity : Nat) (p : List Slice) : Prop :=
  rows p ≤ capacity ∨ ∃ x zs, p = x :: zs ∧ x.rows > capacity ∧ rows zs = 0

/-- Of two subsequent partitions, the first slice of the second one did not fit into the first one. -/
def Full (capacity : Nat) : List (List Slice) → Prop
  | p :: (y :: ys) :: ps => rows p + y.rows > capacity ∧ Full capacity ((y :: ys) :: ps)
  | [_] => True
  | [] => True
  | _ :: [] :: _ => False

end Spec

open Spec

theorem rows_append (a b : List Slice) : rows (a ++ b) = rows a + rows b := by simp [rows]

theorem full_snoc (c : Nat) (ps : List (List Slice)) (p : List Slice) (x : Slice) (h : Full c (ps ++ [p])) (hx : rows p + x.rows > c) :
    Full c (ps ++ [p, [x]]) := by
  induction ps with
  | nil => exact ⟨hx, trivial⟩
  | cons q ps ih =>
    cases ps with
    | nil =>
      cases p with
      | nil => exact h.elim
      | cons y ys => exact ⟨h.1, ih h.2⟩
    | cons r ps =>
      cases r with
      | nil => exact h.elim
      | cons y ys => exact ⟨h.1, ih h.2⟩

theorem full_extend (c : Nat) (ps : List (List Slice)) (p : List Slice) (x : Slice) (hp : p ≠ []) (h : Full c (ps ++ [p])) : Full c (ps ++ [p ++ [x]]) := by
  induction ps with
  | nil => trivial
  | cons q ps ih =>
    cases ps with
    | nil =>
      cases p with
      | nil => exact absurd rfl hp
      | cons y ys => exact ⟨h.1, trivial⟩
    | cons r ps =>
      cases r with
      | nil => exact h.elim
      | cons y ys => exact ⟨h.1, ih h.2⟩

/-- The invariant. -/
structure Inv (xs : List Slice) (s : State) : Prop where
  all : (partitions s).flatten = xs
  nonempty : ∀ p ∈ partitions s, p ≠ []
  within : ∀ p ∈ partitions s, WithinCapacity s.capacity p
  full : Full s.capacity (partitions s)
  remaining : ∀ c p, s.active = some (c, p) → c + rows p = s.capacity ∨ (c = 0 ∧ ∃ x zs, p = x :: zs ∧ x.rows > s.capacity ∧ rows zs = 0)
  none_closed : s.active = none → s.closed = []
  stats : ∀ l, s.stats l = rowsOf l xs
  flushes : s.flushes = s.closed.length

theorem inv_slice {xs : List Slice} {s : State} (h : Inv xs s) (x : Slice) : Inv (xs ++ [x]) (onSlice s x) := by
  have hstats : ∀ l, (if l = x.layout then s.stats l + x.rows else s.stats l) = rowsOf l (xs ++ [x]) := by
    intro l
    rw [rowsOf, List.filter_append, rows_append, ← rowsOf, ← h.stats l]
    by_cases hl : l = x.layout
    · subst hl; simp [rows]
    · have : (x.layout == l) = false := by simpa using Ne.symm hl
      simp [rows, hl, this]
  rw [onSlice]
  cases ha : s.active with
  | none =>
    have hc := h.none_closed ha
    have hxs : xs = [] := by rw [← h.all, partitions, hc, ha]; rfl
    simp only [makeRoom, ha, createActive, push]
    have hp : partitions { s with active := some (if True ∧ x.rows > s.capacity then 0 else s.capacity - x.rows, [] ++ [x]), stats := fun l => if l = x.layout then s.stats l + x.rows else s.stats l } = [[x]] := by
      simp [partitions, hc]
    refine ⟨?_, ?_, ?_, ?_, ?_, ?_, hstats, h.flushes⟩
    · rw [hp, hxs]; rfl
    · rw [hp]; simp
    · rw [hp]
      intro p hp
      rw [List.mem_singleton] at hp
      subst hp
      by_cases hx : x.rows > s.capacity
      · exact .inr ⟨x, [], rfl, hx, rfl⟩
      · exact .inl (by simp [rows]; omega)
    · rw [hp]; trivial
    · intro c p hcp
      cases hcp
      simp only [true_and, List.nil_append]
      by_cases hx : x.rows > s.capacity
      · exact .inr ⟨by simp [hx], x, [], rfl, hx, rfl⟩
      · exact .inl (by simp [hx, rows]; omega)
    · intro hcp; cases hcp
  | some a =>
    obtain ⟨c, p⟩ := a
    have hpart : partitions s = s.closed.reverse ++ [p] := by simp [partitions, ha]
    have hfull := h.full
    rw [hpart] at hfull
    have hne : p ≠ [] := h.nonempty p (by rw [hpart]; simp)
    have hrem := h.remaining c p ha
    by_cases hx : x.rows > c
    · simp only [makeRoom, ha, if_pos hx, decommission, createActive, push]
      have hp : partitions { s with active := some (if True ∧ x.rows > s.capacity then 0 else s.capacity - x.rows, [] ++ [x]), closed := p :: s.closed, stats := fun l => if l = x.layout then s.stats l + x.rows else s.stats l, flushes := s.flushes + 1 } =
          s.closed.reverse ++ [p, [x]] := by
        simp [partitions]
      refine ⟨?_, ?_, ?_, ?_, ?_, ?_, hstats, ?_⟩
      · rw [hp, ← h.all, hpart]; simp
      · rw [hp]
        intro p' hp'
        rw [List.mem_append] at hp'
        rcases hp' with hp' | hp'
        · exact h.nonempty p' (by rw [hpart]; simp [List.mem_reverse.1 hp'])
        · simp only [List.mem_cons, List.not_mem_nil, or_false] at hp'
          rcases hp' with rfl | rfl
          · exact hne
          · simp
      · rw [hp]
        intro p' hp'
        rw [List.mem_append] at hp'
        rcases hp' with hp' | hp'
        · exact h.within p' (by rw [hpart]; simp [List.mem_reverse.1 hp'])
        · simp only [List.mem_cons, List.not_mem_nil, or_false] at hp'
          rcases hp' with rfl | rfl
          · exact h.within p' (by rw [hpart]; simp)
          · by_cases hx' : x.rows > s.capacity
            · exact .inr ⟨x, [], rfl, hx', rfl⟩
            · exact .inl (by simp [rows]; omega)
      · rw [hp]
        apply full_snoc _ _ _ _ hfull
        rcases hrem with hrem | ⟨_, y, ys, rfl, hy, _⟩
        · show rows p + x.rows > s.capacity; omega
        · simp only [rows, List.map_cons, List.sum_cons]; omega
      · intro c' p' hcp
        cases hcp
        simp only [true_and, List.nil_append]
        by_cases hx' : x.rows > s.capacity
        · exact .inr ⟨by simp [hx'], x, [], rfl, hx', rfl⟩
        · exact .inl (by simp [hx', rows]; omega)
      · intro hcp; cases hcp
      · simp [h.flushes]
    · simp only [makeRoom, ha, if_neg hx, push]
      have hcond : ¬ (c = s.capacity ∧ x.rows > c) := fun hc => hx hc.2
      simp only [if_neg hcond]
      have hp : partitions { s with active := some (c - x.rows, p ++ [x]), stats := fun l => if l = x.layout then s.stats l + x.rows else s.stats l } = s.closed.reverse ++ [p ++ [x]] := by
        simp [partitions]
      have hw : WithinCapacity s.capacity (p ++ [x]) ∧ ((c - x.rows) + rows (p ++ [x]) = s.capacity ∨
          (c - x.rows = 0 ∧ ∃ y ys, p ++ [x] = y :: ys ∧ y.rows > s.capacity ∧ rows ys = 0)) := by
        rcases hrem with hrem | ⟨h0, y, ys, rfl, hy, hz⟩
        · have : rows (p ++ [x]) = rows p + x.rows := by simp [rows]
          exact ⟨.inl (by omega), .inl (by omega)⟩
        · have hx0 : x.rows = 0 := by omega
          have hz' : rows (ys ++ [x]) = 0 := by rw [rows_append, hz]; simp [rows, hx0]
          exact ⟨.inr ⟨y, ys ++ [x], rfl, hy, hz'⟩, .inr ⟨by omega, y, ys ++ [x], rfl, hy, hz'⟩⟩
      refine ⟨?_, ?_, ?_, ?_, ?_, ?_, hstats, h.flushes⟩
      · rw [hp, ← h.all, hpart]; simp
      · rw [hp]
        intro p' hp'
        rw [List.mem_append, List.mem_singleton] at hp'
        rcases hp' with hp' | rfl
        · exact h.nonempty p' (by rw [hpart]; simp [List.mem_reverse.1 hp'])
        · simp
      · rw [hp]
        intro p' hp'
        rw [List.mem_append, List.mem_singleton] at hp'
        rcases hp' with hp' | rfl
        · exact h.within p' (by rw [hpart]; simp [List.mem_reverse.1 hp'])
        · exact hw.1
      · rw [hp]
        exact full_extend _ _ _ _ hne hfull
      · intro c' p' hcp
        cases hcp
        exact hw.2
      · intro hcp; cases hcp

theorem inv_start (capacity : Nat) : Inv [] (start capacity) :=
  ⟨rfl, by simp [partitions, start], by simp [partitions, start], trivial, by simp [start], fun _ => rfl, fun _ => rfl, rfl⟩

theorem inv_run (capacity : Nat) (xs : List Slice) : Inv xs (xs.foldl onSlice (start capacity)) := by
  have : ∀ (xs ys : List Slice) (s : State), Inv ys s → Inv (ys ++ xs) (xs.foldl onSlice s) := by
    intro xs
    induction xs with
    | nil => intro ys s h; simpa using h
    | cons x xs ih =>
      intro ys s h
      have := ih (ys ++ [x]) _ (inv_slice h x)
      rw [List.append_assoc, List.singleton_append] at this
      exact this
  have h := this xs [] (start capacity) (inv_start capacity)
  simpa using h

theorem capacity_slice (s : State) (x : Slice) : (onSlice s x).capacity = s.capacity := by
  rw [onSlice, push, makeRoom]
  cases ha : s.active with
  | none => simp [createActive]
  | some a =>
    obtain ⟨c, p⟩ := a
    by_cases hx : x.rows > c
    · simp [hx, createActive, decommission, ha]
    · simp [hx, ha]

theorem capacity_run (capacity : Nat) (xs : List Slice) : (xs.foldl onSlice (start capacity)).capacity = capacity := by
  have : ∀ (xs : List Slice) (s : State), (xs.foldl onSlice s).capacity = s.capacity := by
    intro xs
    induction xs with
    | nil => intro s; rfl
    | cons x xs ih => intro s; rw [List.foldl_cons, ih, capacity_slice]
  exact this xs _

/-- C36: every slice is sent to exactly one partition, in order. -/
theorem C36_no_loss (capacity : Nat) (xs : List Slice) : (partitions (xs.foldl onSlice (start capacity))).flatten = xs :=
  (inv_run capacity xs).all

/-- C36: a partition never exceeds its capacity unless it consists of a single oversized slice and slices without rows.
    Missing for the full statement: that there are no such empty slices (see `C36_empty_slice_refuted`). -/
theorem C36_capacity_partial (capacity : Nat) (xs : List Slice) (p : List Slice) (h : p ∈ partitions (xs.foldl onSlice (start capacity))) :
    WithinCapacity capacity p := by
  have := (inv_run capacity xs).within p h
  rwa [capacity_run] at this

/-- C36: for streams without empty slices, a partition never exceeds its capacity unless it is a single oversized slice. -/
theorem C36_capacity_nonempty_partial (capacity : Nat) (xs : List Slice) (hxs : ∀ x ∈ xs, x.rows ≠ 0) (p : List Slice)
    (h : p ∈ partitions (xs.foldl onSlice (start capacity))) : rows p ≤ capacity ∨ ∃ x, p = [x] ∧ x.rows > capacity := by
  rcases C36_capacity_partial capacity xs p h with h' | ⟨x, zs, rfl, hx, hz⟩
  · exact .inl h'
  · cases zs with
    | nil => exact .inr ⟨x, rfl, hx⟩
    | cons z zs =>
      have hmem : z ∈ xs := by
        rw [← C36_no_loss capacity xs]
        exact List.mem_flatten.2 ⟨_, h, by simp⟩
      have := hxs z hmem
      simp only [rows, List.map_cons, List.sum_cons] at hz
      omega

/-- C36: a partition is decommissioned only when the next slice does not fit, and none is empty. -/
theorem C36_full (capacity : Nat) (xs : List Slice) : Full capacity (partitions (xs.foldl onSlice (start capacity))) ∧
    ∀ p ∈ partitions (xs.foldl onSlice (start capacity)), p ≠ [] := by
  have := inv_run capacity xs
  have hf := this.full
  rw [capacity_run] at hf
  exact ⟨hf, this.nonempty⟩

/-- C36: on exit no partition is active: all are decommissioned, so that they get persisted, and each time, and at the end, the
    state of the index is flushed. -/
theorem C36_exit (capacity : Nat) (xs : List Slice) :
    (onExit (xs.foldl onSlice (start capacity))).active = none ∧
    (onExit (xs.foldl onSlice (start capacity))).closed.reverse.flatten = xs := by
  have h := (inv_run capacity xs).all
  rw [onExit, decommission]
  cases ha : (xs.foldl onSlice (start capacity)).active with
  | none =>
    refine ⟨ha, ?_⟩
    rw [partitions, ha] at h
    simpa using h
  | some a =>
    refine ⟨rfl, ?_⟩
    rw [partitions, ha] at h
    simpa using h

/-- The slices of the partitions that are not erased. -/
def live (s : State) : List Slice := (partitions s).flatten

theorem rowsOf_append (l : Nat) (a b : List Slice) : rowsOf l (a ++ b) = rowsOf l a + rowsOf l b := by
  rw [rowsOf, List.filter_append, rows_append]; rfl

theorem rowsOf_flatten_eraseIdx (l : Nat) (ps : List (List Slice)) (i : Nat) (p : List Slice) (h : ps[i]? = some p) :
    rowsOf l ps.flatten = rowsOf l p + rowsOf l (ps.eraseIdx i).flatten := by
  induction ps generalizing i with
  | nil => cases h
  | cons q ps ih =>
    cases i with
    | zero => cases h; simp [rowsOf_append]
    | succ i =>
      rw [List.getElem?_cons_succ] at h
      rw [List.flatten_cons, rowsOf_append, ih i h, List.eraseIdx_cons_succ, List.flatten_cons, rowsOf_append]
      omega

theorem rowsOf_reverse (l : Nat) (ps : List (List Slice)) : rowsOf l ps.reverse.flatten = rowsOf l ps.flatten := by
  induction ps with
  | nil => rfl
  | cons p ps ih => simp [rowsOf_append, ih]; omega

theorem stats_slice (s : State) (x : Slice) (h : ∀ l, s.stats l = rowsOf l (live s)) : ∀ l, (onSlice s x).stats l = rowsOf l (live (onSlice s x)) := by
  intro l
  have hl := h l
  have hx : rowsOf l [x] = if l = x.layout then x.rows else 0 := by
    rw [rowsOf]
    by_cases hl : l = x.layout
    · subst hl; simp [rows]
    · have : (x.layout == l) = false := by simpa using Ne.symm hl
      simp [rows, hl, this]
  have key : rowsOf l (live (onSlice s x)) = rowsOf l (live s) + rowsOf l [x] := by
    rw [← rowsOf_append]
    congr 1
    rw [onSlice, push, makeRoom]
    cases ha : s.active with
    | none => simp [createActive, live, partitions, ha]
    | some a =>
      obtain ⟨c, p⟩ := a
      by_cases hc : x.rows > c
      · simp [hc, createActive, decommission, ha, live, partitions]
      · simp [hc, ha, live, partitions]
  have hst : (onSlice s x).stats l = if l = x.layout then s.stats l + x.rows else s.stats l := by
    rw [onSlice, push, makeRoom]
    cases ha : s.active with
    | none => simp [createActive]
    | some a =>
      obtain ⟨c, p⟩ := a
      by_cases hc : x.rows > c
      · simp [hc, createActive, decommission, ha]
      · simp [hc, ha]
  rw [key, hst, hx, ← hl]
  split <;> simp

theorem stats_erase (s : State) (i : Nat) (h : ∀ l, s.stats l = rowsOf l (live s)) : ∀ l, (onErase s i).stats l = rowsOf l (live (onErase s i)) := by
  intro l
  rw [onErase]
  cases hi : s.closed[i]? with
  | none => exact h l
  | some p =>
    have h1 := rowsOf_flatten_eraseIdx l s.closed i p hi
    have h2 := h l
    rw [live, partitions, List.flatten_append, rowsOf_append, rowsOf_reverse, h1] at h2
    simp only [live, partitions, List.flatten_append, rowsOf_append, rowsOf_reverse]
    rw [h2]
    show _ - rowsOf l p = _
    omega

/-- C36: the number of events per layout in the statistics is the number of events in the partitions that are not erased, for
    every history of ingests and erasures; in particular the unsigned subtraction does not wrap. -/
theorem C36_statistics (capacity : Nat) (es : List Ev) (l : Nat) :
    (run (start capacity) es).stats l = rowsOf l (live (run (start capacity) es)) := by
  have : ∀ (es : List Ev) (s : State), (∀ l, s.stats l = rowsOf l (live s)) → ∀ l, (run s es).stats l = rowsOf l (live (run s es)) := by
    intro es
    induction es with
    | nil => intro s h; exact h
    | cons e es ih =>
      intro s h
      apply ih
      cases e with
      | slice x => exact stats_slice s x h
      | erase i => exact stats_erase s i h
  exact this es (start capacity) (fun _ => rfl) l

/-- Five slices; the third one is oversized, followed by an empty one. -/
def sample : List Slice := [⟨1, 4, 0⟩, ⟨2, 6, 1⟩, ⟨1, 12, 2⟩, ⟨1, 0, 3⟩, ⟨1, 3, 4⟩]

example : partitions (sample.foldl onSlice (start 10)) = [[⟨1, 4, 0⟩, ⟨2, 6, 1⟩], [⟨1, 12, 2⟩, ⟨1, 0, 3⟩], [⟨1, 3, 4⟩]] := by decide

example : (run (start 10) (sample.map .slice ++ [.erase 1])).stats 1 = 15 := by decide

example : (∀ x ∈ sample.eraseIdx 3, x.rows ≠ 0) ∧ [⟨1, 12, 2⟩] ∈ partitions ((sample.eraseIdx 3).foldl onSlice (start 10)) := by decide

/-- An empty slice joins an oversized one, so the partition that exceeds the capacity does not consist of a single slice. -/
theorem C36_empty_slice_refuted : partitions ([⟨1, 12, 2⟩, ⟨1, 0, 3⟩].foldl onSlice (start 10)) = [[⟨1, 12, 2⟩, ⟨1, 0, 3⟩]] := by decide

/-- A full partition is not decommissioned when it becomes full but when the next slice with rows arrives, or on exit. -/
theorem C36_full_stays_active_refuted : ([⟨1, 10, 0⟩].foldl onSlice (start 10)).active = some (0, [⟨1, 10, 0⟩]) ∧
    ([⟨1, 10, 0⟩].foldl onSlice (start 10)).closed = [] := by decide

end Verif.Ingest
