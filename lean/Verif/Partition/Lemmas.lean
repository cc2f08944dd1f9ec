import Verif.Partition.Spec
import Verif.MetaIndex.Built

/-! # Lemmas about partitions -/

namespace Verif.Partition
open Verif.Data Verif.Expr Verif.Evaluator Verif.Partition.Spec
open Verif.Evaluator.Spec (Has Sat SatAll SatAny InResults)
open Verif.MetaIndex (Field find assign find_assign find_mem)
open Verif.Bitmap.Spec (pointwise)

set_option linter.unusedSectionVars false
variable {τ : Type} [DecidableEq τ]

/-! ### Maps and sets -/

theorem mem_assign {κ β : Type} [DecidableEq κ] (k : κ) (v : β) : ∀ (m : List (κ × β)) (x : κ × β), x ∈ assign k v m →
    (x.1 = k ∧ x.2 = v) ∨ x ∈ m
  | [], x, h => by simp only [assign, List.mem_singleton] at h; subst h; exact .inl ⟨rfl, rfl⟩
  | (k', v') :: m, x, h => by
    rw [assign] at h
    split at h
    · rename_i he
      rcases List.mem_cons.1 h with rfl | h
      · exact .inl ⟨he, rfl⟩
      · exact .inr (List.mem_cons_of_mem _ h)
    · rcases List.mem_cons.1 h with rfl | h
      · exact .inr List.mem_cons_self
      · rcases mem_assign k v m x h with h | h
        · exact .inl h
        · exact .inr (List.mem_cons_of_mem _ h)

theorem has_nil (i : Nat) : ¬ Has [] i := by simp [Has]

theorem has_foldl (i : Nat) : ∀ (xs : List Ids) (acc : Ids), Has (xs.foldl (pointwise (· || ·)) acc) i ↔ Has acc i ∨ ∃ x ∈ xs, Has x i
  | [], acc => by simp
  | x :: xs, acc => by
    rw [List.foldl_cons, has_foldl i xs, has_or]
    simp [or_assoc]

theorem has_union (xs : List Ids) (i : Nat) : Has (unionIds xs) i ↔ ∃ x ∈ xs, Has x i := by
  rw [unionIds, has_foldl]
  simp [has_nil]

theorem has_xor (a b : Ids) (i : Nat) : Has (pointwise Bool.xor a b) i ↔ (Has a i ∧ ¬ Has b i ∨ ¬ Has a i ∧ Has b i) := by
  rw [has_pointwise rfl, has_getD, has_getD]
  cases a.getD i false <;> cases b.getD i false <;> simp

theorem has_mark {ids ids' : Ids} {first rows : Nat} (h : mark ids first rows = some ids') (i : Nat) :
    Has ids' i ↔ Has ids i ∨ (first ≤ i ∧ i < first + rows) := by
  rw [mark] at h
  split at h
  · cases h
  · rename_i hle
    cases h
    simp only [Has, List.append_assoc]
    by_cases h1 : i < ids.length
    · rw [List.getElem?_append_left h1]
      constructor
      · exact .inl
      · rintro (h | h)
        · exact h
        · omega
    · have h2 : ids[i]? = none := List.getElem?_eq_none (by omega)
      rw [List.getElem?_append_right (by omega), h2]
      by_cases h3 : i < first
      · rw [List.getElem?_append_left (by simp; omega), List.getElem?_replicate]
        simp
        omega
      · rw [List.getElem?_append_right (by simp; omega), List.getElem?_replicate]
        simp
        omega

/-! ### What the partition holds -/

theorem mem_events (s : Slice τ) (i : Nat) (row : Row) : (i, row) ∈ s.events ↔ s.offset ≤ i ∧ s.rows[i - s.offset]? = some row := by
  rw [Slice.events, List.mem_map]
  constructor
  · rintro ⟨⟨r, j⟩, hm, he⟩
    rw [List.mem_zipIdx_iff_getElem?] at hm
    simp only [Prod.mk.injEq] at he
    obtain ⟨rfl, rfl⟩ := he
    refine ⟨by omega, ?_⟩
    simpa using hm
  · rintro ⟨hle, hr⟩
    refine ⟨(row, i - s.offset), ?_, by simp; omega⟩
    rw [List.mem_zipIdx_iff_getElem?]
    exact hr

theorem events_range (s : Slice τ) (i : Nat) : (∃ row, (i, row) ∈ s.events) ↔ s.offset ≤ i ∧ i < s.offset + s.rows.length := by
  constructor
  · rintro ⟨row, h⟩
    rw [mem_events] at h
    obtain ⟨h1, h2⟩ := h
    have := (List.getElem?_eq_some_iff.1 h2).1
    omega
  · rintro ⟨h1, h2⟩
    have : i - s.offset < s.rows.length := by omega
    exact ⟨s.rows[i - s.offset], (mem_events ..).2 ⟨h1, List.getElem?_eq_getElem this⟩⟩

/-- The key of a column of a slice. -/
def keyOf (s : Slice τ) (c : Column τ × Nat) : Field τ := ⟨s.layout.name, c.1.name, c.1.type⟩

theorem addColumn_find (skip : τ → Bool) (s : Slice τ) (fields : List (Field τ × List (Nat × Data))) (c : Column τ × Nat)
    (key : Field τ) : find key (addColumn skip s fields c) =
      if key = keyOf s c then some ((find key fields).getD [] ++ columnValues skip s c) else find key fields := by
  rw [addColumn]
  simp only [find_assign]
  by_cases h : key = keyOf s c
  · subst h; simp [keyOf]
  · rw [if_neg h, if_neg]
    intro h'
    first
      | exact h h'
      | exact h h'.symm

/-- What columns add to the indexers. -/
structure Added (skip : τ → Bool) (s : Slice τ) (cols : List (Column τ × Nat)) (old new : List (Field τ × List (Nat × Data))) :
    Prop where
  kept : ∀ key hist, find key old = some hist → ∃ hist', find key new = some hist' ∧ ∀ x ∈ hist, x ∈ hist'
  added : ∀ c ∈ cols, ∃ hist, find (keyOf s c) new = some hist ∧ ∀ x ∈ columnValues skip s c, x ∈ hist
  keys : ∀ f ∈ new, (∃ hist, (f.1, hist) ∈ old) ∨ ∃ c ∈ cols, f.1 = keyOf s c
  values : ∀ f ∈ new, ∀ x ∈ f.2, (∃ hist, (f.1, hist) ∈ old ∧ x ∈ hist) ∨ ∃ c ∈ cols, f.1 = keyOf s c ∧ x ∈ columnValues skip s c

theorem added_foldl (skip : τ → Bool) (s : Slice τ) : ∀ (cols : List (Column τ × Nat)) (old : List (Field τ × List (Nat × Data))),
    Added skip s cols old (cols.foldl (addColumn skip s) old)
  | [], old => ⟨fun _ hist h => ⟨hist, h, fun _ => id⟩, fun _ h => absurd h (by simp), fun f hf => .inl ⟨f.2, hf⟩,
      fun f hf x hx => .inl ⟨f.2, hf, hx⟩⟩
  | c :: cols, old => by
    have ih := added_foldl skip s cols (addColumn skip s old c)
    rw [List.foldl_cons]
    have hstep : ∀ f ∈ addColumn skip s old c, f ∈ old ∨
        (f.1 = keyOf s c ∧ f.2 = (find (keyOf s c) old).getD [] ++ columnValues skip s c) := by
      intro f hf
      rcases mem_assign _ _ _ _ hf with h | h
      · exact .inr h
      · exact .inl h
    refine ⟨?_, ?_, ?_, ?_⟩
    · intro key hist hk
      by_cases he : key = keyOf s c
      · obtain ⟨h', h1, h2⟩ := ih.kept key (hist ++ columnValues skip s c) (by rw [addColumn_find, if_pos he, hk]; rfl)
        exact ⟨h', h1, fun x hx => h2 x (List.mem_append_left _ hx)⟩
      · exact ih.kept key hist (by rw [addColumn_find, if_neg he, hk])
    · intro d hd
      rcases List.mem_cons.1 hd with rfl | hd
      · obtain ⟨h', h1, h2⟩ := ih.kept (keyOf s d) _ (by rw [addColumn_find, if_pos rfl])
        exact ⟨h', h1, fun x hx => h2 x (List.mem_append_right _ hx)⟩
      · exact ih.added d hd
    · intro f hf
      rcases ih.keys f hf with ⟨hist, h⟩ | ⟨d, hd, h⟩
      · rcases hstep _ h with h | ⟨h, _⟩
        · exact .inl ⟨hist, h⟩
        · exact .inr ⟨c, List.mem_cons_self, h⟩
      · exact .inr ⟨d, List.mem_cons_of_mem _ hd, h⟩
    · intro f hf x hx
      rcases ih.values f hf x hx with ⟨hist, h, hx'⟩ | ⟨d, hd, h⟩
      · rcases hstep _ h with h | ⟨h, h2⟩
        · exact .inl ⟨hist, h, hx'⟩
        · simp only at h2
          subst h2
          rcases List.mem_append.1 hx' with hx' | hx'
          · cases hfind : find (keyOf s c) old with
            | none => rw [hfind] at hx'; simp at hx'
            | some hist =>
              rw [hfind] at hx'
              exact .inl ⟨hist, by simp only at h; rw [h]; exact find_mem hfind, hx'⟩
          · exact .inr ⟨c, List.mem_cons_self, h, hx'⟩
      · exact .inr ⟨d, List.mem_cons_of_mem _ hd, h⟩

/-- What a partition knows about the slices added to it. -/
structure Holds (skip : τ → Bool) (slices : List (Slice τ)) (p : Part τ) : Prop where
  ids : ∀ s ∈ slices, ∃ ids, find s.layout.name p.typeIds = some ids ∧ ∀ i row, (i, row) ∈ s.events → Has ids i
  idsOnly : ∀ t ∈ p.typeIds, ∀ i, Has t.2 i → ∃ s ∈ slices, s.layout.name = t.1 ∧ ∃ row, (i, row) ∈ s.events
  values : ∀ s ∈ slices, ∀ c ∈ s.layout.indexed, ∃ hist, find (keyOf s c) p.fields = some hist ∧
    (skip c.1.type = false → ∀ i row, (i, row) ∈ s.events → (i, row.getD c.2 .none) ∈ hist)
  keys : ∀ f ∈ p.fields, ∃ s ∈ slices, ∃ c ∈ s.layout.indexed, f.1 = keyOf s c
  valuesOnly : ∀ f ∈ p.fields, ∀ x ∈ f.2, ∃ s ∈ slices, ∃ c ∈ s.layout.indexed, f.1 = keyOf s c ∧
    ∃ row, (x.1, row) ∈ s.events ∧ x.2 = row.getD c.2 .none

theorem mem_columnValues (skip : τ → Bool) (s : Slice τ) (c : Column τ × Nat) (x : Nat × Data) :
    x ∈ columnValues skip s c ↔ skip c.1.type = false ∧ ∃ row, (x.1, row) ∈ s.events ∧ x.2 = row.getD c.2 .none := by
  rw [columnValues]
  split
  · rename_i h; simp [h]
  · rename_i h
    rw [List.mem_map]
    constructor
    · rintro ⟨e, he, rfl⟩
      exact ⟨by simpa using h, e.2, he, rfl⟩
    · rintro ⟨_, row, he, hx⟩
      exact ⟨(x.1, row), he, by rw [Prod.ext_iff]; exact ⟨rfl, hx.symm⟩⟩

theorem holds_add {skip : τ → Bool} {slices : List (Slice τ)} {p p' : Part τ} (h : Holds skip slices p) (s : Slice τ)
    (ha : addSlice skip p s = some p') : Holds skip (slices ++ [s]) p' := by
  rw [addSlice, Option.map_eq_some_iff] at ha
  obtain ⟨ids, hm, rfl⟩ := ha
  have hadd := added_foldl skip s s.layout.indexed p.fields
  have hmark := has_mark hm
  refine ⟨?_, ?_, ?_, ?_, ?_⟩
  · intro s' hs'
    simp only [find_assign]
    rcases List.mem_append.1 hs' with hs' | hs'
    · obtain ⟨ids', h1, h2⟩ := h.ids s' hs'
      by_cases he : s'.layout.name = s.layout.name
      · refine ⟨ids, by simp [he], fun i row hi => (hmark i).2 (.inl ?_)⟩
        rw [← he, h1]; exact h2 i row hi
      · refine ⟨ids', ?_, h2⟩
        rw [if_neg, h1]
        first
          | exact he
          | exact fun h => he h.symm
    · rw [List.mem_singleton] at hs'; subst hs'
      refine ⟨ids, by simp, fun i row hi => (hmark i).2 (.inr ?_)⟩
      exact (events_range s' i).1 ⟨row, hi⟩
  · intro t ht i hi
    rcases mem_assign _ _ _ _ ht with ⟨h1, h2⟩ | ht
    · rw [h2, hmark] at hi
      rcases hi with hi | hi
      · cases hf : find s.layout.name p.typeIds with
        | none => rw [hf] at hi; exact absurd hi (has_nil i)
        | some ids' =>
          rw [hf] at hi
          obtain ⟨s', hs', hn, hr⟩ := h.idsOnly _ (find_mem hf) i hi
          exact ⟨s', List.mem_append_left _ hs', by rw [h1]; exact hn, hr⟩
      · exact ⟨s, by simp, h1.symm, (events_range s i).2 hi⟩
    · obtain ⟨s', hs', hr⟩ := h.idsOnly t ht i hi
      exact ⟨s', List.mem_append_left _ hs', hr⟩
  · intro s' hs' c hc
    rcases List.mem_append.1 hs' with hs' | hs'
    · obtain ⟨hist, h1, h2⟩ := h.values s' hs' c hc
      obtain ⟨hist', h3, h4⟩ := hadd.kept _ _ h1
      exact ⟨hist', h3, fun hk i row hi => h4 _ (h2 hk i row hi)⟩
    · rw [List.mem_singleton] at hs'; subst hs'
      obtain ⟨hist, h1, h2⟩ := hadd.added c hc
      exact ⟨hist, h1, fun hk i row hi => h2 _ ((mem_columnValues ..).2 ⟨hk, row, hi, rfl⟩)⟩
  · intro f hf
    rcases hadd.keys f hf with ⟨hist, h1⟩ | ⟨c, hc, h1⟩
    · obtain ⟨s', hs', hr⟩ := h.keys _ h1
      exact ⟨s', List.mem_append_left _ hs', hr⟩
    · exact ⟨s, by simp, c, hc, h1⟩
  · intro f hf x hx
    rcases hadd.values f hf x hx with ⟨hist, h1, h2⟩ | ⟨c, hc, h1, h2⟩
    · obtain ⟨s', hs', hr⟩ := h.valuesOnly _ h1 x h2
      exact ⟨s', List.mem_append_left _ hs', hr⟩
    · exact ⟨s, by simp, c, hc, h1, ((mem_columnValues ..).1 h2).2⟩

theorem holds_foldl (skip : τ → Bool) : ∀ (rest done : List (Slice τ)) (p : Part τ) (q : Part τ), Holds skip done p →
    rest.foldl (fun p s => p.bind fun p => addSlice skip p s) (some p) = some q → Holds skip (done ++ rest) q
  | [], done, p, q, h, he => by
    simp only [List.foldl_nil, Option.some.injEq] at he
    subst he
    simpa using h
  | s :: rest, done, p, q, h, he => by
    rw [List.foldl_cons, Option.bind_some] at he
    cases ha : addSlice skip p s with
    | none =>
      rw [ha] at he
      have : ∀ l : List (Slice τ), l.foldl (fun p s => p.bind fun p => addSlice skip p s) none = none := by
        intro l; induction l with
        | nil => rfl
        | cons _ _ ih => exact ih
      rw [this] at he; cases he
    | some p' =>
      rw [ha] at he
      have := holds_foldl skip rest (done ++ [s]) p' q (holds_add h s ha) he
      simpa using this

theorem holds_build {skip : τ → Bool} {slices : List (Slice τ)} {p : Part τ} (h : build skip slices = some p) :
    Holds skip slices p := by
  have := holds_foldl skip slices [] .empty p ⟨by simp, by simp [Part.empty], by simp, by simp [Part.empty], by simp [Part.empty]⟩ h
  simpa using this

end Verif.Partition
