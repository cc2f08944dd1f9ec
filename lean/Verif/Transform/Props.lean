import Verif.Transform.Model
import Verif.Types.MergeProps

/-! # C52: Transforms

C65: The steps "delete", "replace" and "hash". -/

namespace Verif.Transform
open Types (Name Meta Ty Fields)
open Types.Spec

variable {τ V : Type}

namespace Spec

/-- Transforms that can be made with the constructor and `add_step`. -/
inductive Made : Transform τ V → Prop
  | make (events : List Name) : Made (Transform.make events)
  | addStep {t : Transform τ V} (s : Step τ V) : Made t → Made (t.addStep s)

/-- Run functions one after the other, up to the first error. -/
def inOrder : List (Step τ V) → Step τ V
  | [], x => some x
  | f :: fs, x => (f x).bind (inOrder fs)

/-- A transform: its steps in order, for slices of its event types. -/
def run (t : Transform τ V) : Step τ V := fun x => if x.name ∈ t.events then inOrder t.steps x else some x

/-- An error if the number of rows is not `n` after a step. -/
def sameRows (n : Nat) (s : Step τ V) : Step τ V := fun x => (s x).bind fun y => if y.rows.length = n then some y else none

/-- The slice has a cell in every row for every leaf of its layout. -/
def Rectangular (x : Slice τ V) : Prop := ∀ r ∈ x.rows, r.length = (columns x.fields).length

/-- A row: the columns, each with its cell. -/
def row (fs : Fields τ) (r : List V) : List ((List Name × Ty τ) × V) := (columns fs).zip r

end Spec

open Spec

/-! ### Lemmas -/

theorem fast_iff {t : Transform τ V} (h : Made t) : t.fast = true ↔ t.steps = [] := by
  cases h with
  | make => simp [Transform.make]
  | addStep s _ => simp [Transform.addStep]

theorem runSteps_eq : ∀ (ss : List (Step τ V)) (x : Slice τ V), runSteps ss x = inOrder ss x
  | [], x => rfl
  | s :: ss, x => by
    rw [runSteps, inOrder]
    cases s x with
    | none => rfl
    | some y => exact runSteps_eq ss y

theorem apply_eq (t : Transform τ V) : t.apply = run t := by
  funext x
  rw [Transform.apply, run, runSteps_eq]

theorem applyAll_eq (n : Nat) : ∀ (ts : List (Transform τ V)) (x : Slice τ V),
    applyAll n ts x = inOrder (ts.map fun t => sameRows n (run t)) x
  | [], x => rfl
  | t :: ts, x => by
    rw [applyAll, List.map_cons, inOrder, sameRows, apply_eq]
    cases run t x with
    | none => rfl
    | some y =>
      simp only [Option.bind_some]
      by_cases h : y.rows.length = n
      · rw [if_neg (by simpa using h), if_pos h, Option.bind_some]; exact applyAll_eq n ts y
      · rw [if_pos h, if_neg h]; rfl

theorem applyAll_rows (n : Nat) : ∀ (ts : List (Transform τ V)) (x y : Slice τ V), x.rows.length = n →
    applyAll n ts x = some y → y.rows.length = n
  | [], x, y, h, hy => by rw [applyAll] at hy; cases hy; exact h
  | t :: ts, x, y, h, hy => by
    rw [applyAll] at hy
    cases ht : t.apply x with
    | none => rw [ht] at hy; cases hy
    | some z =>
      rw [ht, Option.bind_some] at hy
      by_cases hz : z.rows.length ≠ n
      · rw [if_pos hz] at hy; cases hy
      · rw [if_neg hz] at hy
        exact applyAll_rows n ts z y (by simpa using hz) hy

theorem filter_one {n : Name} : ∀ {l : List Name}, l.Nodup → l.filter (· = n) = if n ∈ l then [n] else []
  | [], _ => by simp
  | a :: l, h => by
    rw [List.nodup_cons] at h
    rw [List.filter_cons, filter_one h.2]
    by_cases ha : a = n
    · subst ha; simp [h.1]
    · simp [ha, Ne.symm ha]

theorem matching_eq {n : Name} {ts : List (Transform τ V)} (h : ∀ t ∈ ts, t.events.Nodup) :
    matching n ts = ts.filter fun t => n ∈ t.events := by
  induction ts with
  | nil => rfl
  | cons t ts ih =>
    have ih' := ih (fun t ht => h t (List.mem_cons_of_mem _ ht))
    rw [matching] at ih'
    rw [matching, List.flatMap_cons, ih', filter_one (h t List.mem_cons_self), List.filter_cons]
    by_cases hn : n ∈ t.events
    · simp [hn]
    · simp [hn]

theorem matching_mem {n : Name} {ts : List (Transform τ V)} {t : Transform τ V} :
    t ∈ matching n ts ↔ t ∈ ts ∧ n ∈ t.events := by
  simp only [matching, List.mem_flatMap, List.mem_map, List.mem_filter]
  constructor
  · rintro ⟨u, hu, a, ⟨ha, hn⟩, rfl⟩
    simp at hn; subst hn
    exact ⟨hu, ha⟩
  · rintro ⟨h1, h2⟩
    exact ⟨t, h1, n, ⟨h2, by simp⟩, rfl⟩

/-! ### The engine -/

/-- C52: slices of types that no transform is for are unchanged. -/
theorem C52_other_types (ts : List (Transform τ V)) (x : Slice τ V) (h : ∀ t ∈ ts, x.name ∉ t.events) :
    apply ts x = some x := by
  rw [apply]
  cases hm : matching x.name ts with
  | nil => rfl
  | cons m ms =>
    have : m ∈ matching x.name ts := by rw [hm]; exact List.mem_cons_self
    rw [matching_mem] at this
    exact absurd this.2 (h m this.1)

/-- C52: the number of rows never changes. -/
theorem C52_rows (ts : List (Transform τ V)) (x y : Slice τ V) (h : apply ts x = some y) :
    y.rows.length = x.rows.length := by
  rw [apply] at h
  cases hm : matching x.name ts with
  | nil => rw [hm] at h; cases h; rfl
  | cons m ms =>
    rw [hm] at h
    simp only at h
    by_cases hf : ((m :: ms).all (·.fast)) = true
    · rw [if_pos hf] at h; cases h; rfl
    · rw [if_neg hf, Option.map_eq_some_iff] at h
      obtain ⟨z, hz, rfl⟩ := h
      exact applyAll_rows _ _ x z rfl hz

/-- C52: the IDs never change, unless transforms match that all have no steps. -/
theorem C52_offset_partial (ts : List (Transform τ V)) (hmade : ∀ t ∈ ts, Made t) (x y : Slice τ V)
    (hs : (∃ t ∈ ts, x.name ∈ t.events) → ∃ t ∈ ts, x.name ∈ t.events ∧ t.steps ≠ [])
    (h : apply ts x = some y) : y.offset = x.offset := by
  rw [apply] at h
  cases hm : matching x.name ts with
  | nil => rw [hm] at h; cases h; rfl
  | cons m ms =>
    rw [hm] at h
    simp only at h
    by_cases hf : ((m :: ms).all (·.fast)) = true
    · exfalso
      have hmm : m ∈ matching x.name ts := by rw [hm]; exact List.mem_cons_self
      rw [matching_mem] at hmm
      obtain ⟨t, h1, h2, h3⟩ := hs ⟨m, hmm⟩
      have : t ∈ m :: ms := by rw [← hm]; exact matching_mem.2 ⟨h1, h2⟩
      rw [List.all_eq_true] at hf
      exact h3 ((fast_iff (hmade t h1)).1 (hf t this))
    · rw [if_neg hf, Option.map_eq_some_iff] at h
      obtain ⟨z, _, rfl⟩ := h
      rfl

/-- C52 fails for a transform without steps: the slice loses its IDs. -/
theorem C52_offset_refuted : ∃ (t : Transform Nat Nat) (x y : Slice Nat Nat), Made t ∧ apply [t] x = some y ∧
    x.offset = 0 ∧ y.offset ≠ x.offset :=
  ⟨.make [[97]], ⟨[97], .nil, [], 0⟩, ⟨[97], .nil, [], invalidId⟩, .make _, rfl, rfl, by simp [invalidId]⟩

/-- C52: the result is the composition of the transforms for the slice's type, in their order, with an error as soon as
    one fails or changes the number of rows. This is for transforms that have no event type twice and not all of
    which are without steps. -/
theorem C52_composition_partial (ts : List (Transform τ V)) (hmade : ∀ t ∈ ts, Made t) (hd : ∀ t ∈ ts, t.events.Nodup)
    (x : Slice τ V) (hs : ∃ t ∈ ts, x.name ∈ t.events ∧ t.steps ≠ []) :
    apply ts x = (inOrder ((ts.filter fun t => x.name ∈ t.events).map fun t => sameRows x.rows.length (run t)) x).map
      fun y => { y with offset := x.offset } := by
  rw [apply]
  cases hm : matching x.name ts with
  | nil =>
    obtain ⟨t, h1, h2, _⟩ := hs
    have : t ∈ matching x.name ts := matching_mem.2 ⟨h1, h2⟩
    rw [hm] at this; cases this
  | cons m ms =>
    simp only
    rw [if_neg]
    · rw [applyAll_eq, ← matching_eq hd, hm]
    · intro hf
      obtain ⟨t, h1, h2, h3⟩ := hs
      have : t ∈ m :: ms := by rw [← hm]; exact matching_mem.2 ⟨h1, h2⟩
      rw [List.all_eq_true] at hf
      exact h3 ((fast_iff (hmade t h1)).1 (hf t this))

/-- A step that makes every cell one larger. -/
def increment : Step Nat Nat := fun x => some { x with rows := x.rows.map (·.map (· + 1)) }

/-- C52 fails for a transform whose event types contain a type twice: it is applied twice. -/
theorem C52_twice_refuted : ∃ (t : Transform Nat Nat) (x y : Slice Nat Nat), Made t ∧ x.name ∈ t.events ∧
    apply [t] x = some y ∧ t.apply x = some { x with rows := [[1]] } ∧ y.rows = [[2]] :=
  ⟨(Transform.make [[97], [97]]).addStep increment, ⟨[97], .cons [98] (.leaf 0) .nil, [[0]], 0⟩,
    ⟨[97], .cons [98] (.leaf 0) .nil, [[2]], 0⟩, .addStep _ (.make _), by decide, rfl, rfl, rfl⟩

/-- Two transforms for the same type are both applied. -/
example : (∀ t ∈ [(Transform.make [[97]]).addStep increment, (Transform.make [[97], [98]]).addStep increment], Made t) ∧
    (apply [(Transform.make [[97]]).addStep increment, (Transform.make [[97], [98]]).addStep increment]
      ⟨[97], .cons [98] (.leaf 0) .nil, [[0], [3]], 7⟩).map (fun y => (y.rows, y.offset)) = some ([[2], [5]], 7) := by
  refine ⟨?_, rfl⟩
  intro t ht
  simp at ht
  rcases ht with rfl | rfl <;> exact .addStep _ (.make _)

/-! ### The steps -/

theorem prefix_cons {i j : Nat} {a b : List Nat} (h : i :: a <+: j :: b) : i = j ∧ a <+: b := List.cons_prefix_cons.1 h

mutual
theorem leavesOf_prefix : ∀ (t : Ty τ) (l l' : Leaf τ), l ∈ leavesOf t → l' ∈ leavesOf t → l.offset <+: l'.offset →
    l.offset = l'.offset
  | .leaf _, l, l', h, h', _ => by simp [leavesOf] at h h'; rw [h, h']
  | .alias _, l, l', h, h', _ => by simp [leavesOf] at h h'; rw [h, h']
  | .record _ fs, l, l', h, h', hp => leaves_prefix fs 0 l l' h h' hp

theorem leaves_prefix : ∀ (fs : Fields τ) (i : Nat) (l l' : Leaf τ), l ∈ leaves i fs → l' ∈ leaves i fs → l.offset <+: l'.offset →
    l.offset = l'.offset
  | .nil, i, l, l', h, _, _ => by simp [leaves] at h
  | .cons n t rest, i, l, l', h, h', hp => by
    rw [leaves, List.mem_append, List.mem_map] at h h'
    rcases h with ⟨m, hm, rfl⟩ | h
    · rcases h' with ⟨m', hm', rfl⟩ | h'
      · have := leavesOf_prefix t m m' hm hm' (prefix_cons hp).2
        simp only [Leaf.under, this]
      · obtain ⟨y, o, ho, hy⟩ := Types.head_leaves rest (i + 1) l' h'
        rw [ho] at hp
        have := (prefix_cons hp).1
        omega
    · rcases h' with ⟨m', hm', rfl⟩ | h'
      · obtain ⟨y, o, ho, hy⟩ := Types.head_leaves rest (i + 1) l h
        rw [ho] at hp
        have := (prefix_cons hp).1
        omega
      · exact leaves_prefix rest (i + 1) l l' h h' hp
end

theorem filter_erase {α : Type} (P : α → Bool) : ∀ (l : List α) (i : Nat), (∀ (j : Nat) x, l[j]? = some x → (P x = false ↔ j = i)) →
    l.filter P = l.eraseIdx i
  | [], i, _ => by simp
  | a :: l, 0, h => by
    have h0 := (h 0 a rfl).2 rfl
    rw [List.filter_cons, if_neg (by simp [h0]), List.eraseIdx_zero, List.tail_cons]
    apply List.filter_eq_self.2
    intro x hx
    obtain ⟨j, hj⟩ := List.mem_iff_getElem?.1 hx
    have := h (j + 1) x (by simpa using hj)
    cases hp : P x with
    | true => rfl
    | false => have := this.1 hp; omega
  | a :: l, i + 1, h => by
    have h0 : P a = true := by
      cases hp : P a with
      | true => rfl
      | false => have := (h 0 a rfl).1 hp; omega
    rw [List.filter_cons, if_pos h0, List.eraseIdx_cons_succ, filter_erase P l i]
    intro j x hj
    have := h (j + 1) x (by simpa using hj)
    rw [this]; omega

theorem map_eraseIdx {α β : Type} (f : α → β) : ∀ (l : List α) (i : Nat), (l.eraseIdx i).map f = (l.map f).eraseIdx i
  | [], i => by simp
  | a :: l, 0 => by simp
  | a :: l, i + 1 => by simp [map_eraseIdx f l i]

theorem zip_eraseIdx {α β : Type} : ∀ (l : List α) (r : List β) (i : Nat), (l.eraseIdx i).zip (r.eraseIdx i) = (l.zip r).eraseIdx i
  | [], r, i => by simp
  | a :: l, [], i => by simp
  | a :: l, b :: r, 0 => by simp
  | a :: l, b :: r, i + 1 => by simp [zip_eraseIdx l r i]

theorem hasField_leaf {fs : Fields τ} {o : List Nat} {p : List Name} {t : Ty τ} (h : HasField fs o p t) (ht : t.isRecord = false) :
    ∀ i, ∃ x o', o = x :: o' ∧ (⟨(i + x) :: o', p, t⟩ : Leaf τ) ∈ leaves i fs := by
  have hmem : ∀ (gs : Fields τ) (x i : Nat) (n : Name) (s : Ty τ) (l : Leaf τ), gs.toList[x]? = some (n, s) → l ∈ leavesOf s →
      l.under (i + x) n ∈ leaves i gs := by
    intro gs
    induction gs using Types.Fields.rec (motive_1 := fun _ => True) with
    | leaf | alias | record => trivial
    | nil => intro x i n s l h; simp [Fields.toList] at h
    | cons k u rest _ ih =>
      intro x i n s l h hl
      rw [leaves, List.mem_append]
      cases x with
      | zero => cases h; exact .inl (List.mem_map.2 ⟨l, hl, rfl⟩)
      | succ x =>
        right
        have := ih x (i + 1) n s l (by simpa [Fields.toList] using h) hl
        rw [show i + (x + 1) = i + 1 + x by omega]; exact this
  induction h with
  | @here fs x n t hx =>
    intro i
    refine ⟨x, [], rfl, ?_⟩
    have := hmem fs x i n t ⟨[], [], t⟩ hx (by cases t <;> first | (simp [Ty.isRecord] at ht; done) | simp [leavesOf])
    exact this
  | @there fs gs x n m o p t hx _ ih =>
    intro i
    obtain ⟨y, o', rfl, hy⟩ := ih ht 0
    rw [Nat.zero_add] at hy
    exact ⟨x, y :: o', rfl, hmem fs x i n _ _ hx hy⟩

theorem leavesOf_cases {t : Ty τ} {l : Leaf τ} (h : l ∈ leavesOf t) :
    l = ⟨[], [], t⟩ ∨ ∃ m gs, t = .record m gs ∧ l ∈ leaves 0 gs := by
  cases t with
  | leaf => exact .inl (by simpa [leavesOf] using h)
  | alias => exact .inl (by simpa [leavesOf] using h)
  | record m gs => exact .inr ⟨m, gs, rfl, by simpa [leavesOf] using h⟩

theorem hasField_succ {fs : Fields τ} {x : Nat} {o : List Nat} {p : List Name} {t : Ty τ} (n : Name) (u : Ty τ)
    (h : HasField fs (x :: o) p t) : HasField (.cons n u fs) ((x + 1) :: o) p t := by
  cases h with
  | here hx => exact .here (by simpa [Fields.toList] using hx)
  | there hx hy => exact .there (by simpa [Fields.toList] using hx) hy

def LeafField (fs : Fields τ) : Prop := ∀ (i : Nat) (l : Leaf τ), l ∈ leaves i fs →
  ∃ x o, l.offset = (i + x) :: o ∧ HasField fs (x :: o) l.path l.type

def LeafFieldOf (t : Ty τ) : Prop := ∀ m gs, t = .record m gs → LeafField gs

theorem leafField (fs : Fields τ) : LeafField fs := by
  apply Fields.rec (motive_1 := LeafFieldOf) (motive_2 := LeafField)
  case leaf => intro _ m gs h; cases h
  case alias => intro _ _ m gs h; cases h
  case record => intro m gs ih m' gs' h; cases h; exact ih
  case nil => intro i l h; rw [leaves] at h; cases h
  case cons =>
    intro n t rest iht ih i l h
    rw [leaves, List.mem_append, List.mem_map] at h
    rcases h with ⟨l', hl, rfl⟩ | h
    · refine ⟨0, l'.offset, rfl, ?_⟩
      rcases leavesOf_cases hl with rfl | ⟨m, gs, rfl, hl⟩
      · exact .here rfl
      · obtain ⟨x, o, ho, hf⟩ := iht m gs rfl 0 l' hl
        rw [Nat.zero_add] at ho
        rw [ho]
        exact .there rfl hf
    · obtain ⟨x, o, ho, hf⟩ := ih (i + 1) l h
      exact ⟨x + 1, o, by rw [ho]; congr 1; omega, hasField_succ n t hf⟩

theorem leaf_hasField (fs : Fields τ) (l : Leaf τ) (h : l ∈ leaves 0 fs) : HasField fs l.offset l.path l.type := by
  obtain ⟨x, o, ho, hf⟩ := leafField fs 0 l h
  rw [ho, Nat.zero_add]; exact hf

theorem leaf_flatIndex {fs : Fields τ} {o : List Nat} {p : List Name} {t : Ty τ} (h : HasField fs o p t) (ht : t.isRecord = false) :
    ∃ j, Types.flatIndexAt o fs = some j ∧ (leaves 0 fs)[j]? = some ⟨o, p, t⟩ := by
  obtain ⟨x, o', rfl, hm⟩ := hasField_leaf h ht 0
  rw [Nat.zero_add] at hm
  obtain ⟨j, hj⟩ := List.mem_iff_getElem?.1 hm
  exact ⟨j, (Types.flatIndexAt_iff fs _ j).2 (by rw [hj]; rfl), hj⟩

/-- The columns without that of a leaf. -/
theorem columns_removeAt {fs : Fields τ} {o : List Nat} {p : List Name} {t : Ty τ} (h : HasField fs o p t) {j : Nat}
    (hj : (leaves 0 fs)[j]? = some ⟨o, p, t⟩) : ∃ fs', Types.removeAt o fs = some fs' ∧ columns fs' = (columns fs).eraseIdx j := by
  obtain ⟨fs', h1, h2⟩ := (Types.C63_remove_offset fs o).1 p t h
  refine ⟨fs', h1, ?_⟩
  rw [h2, filter_erase _ _ j, map_eraseIdx]; rfl
  intro k l hk
  simp only [Bool.not_eq_false', List.isPrefixOf_iff_prefix]
  constructor
  · intro hp
    have := leaves_prefix fs 0 _ _ (List.mem_of_getElem? hj) (List.mem_of_getElem? hk) hp
    simp only at this
    have e1 := (Types.flatIndexAt_iff fs o j).2 (by rw [hj]; rfl)
    have e2 := (Types.flatIndexAt_iff fs o k).2 (by rw [hk, this]; rfl)
    rw [e1] at e2; cases e2; rfl
  · rintro rfl
    rw [hj] at hk; cases hk
    exact List.prefix_refl _

/-- C65, delete: for a field that is not a record, the other columns stay, in order, with their cells, and there are
    no others. This is for layouts in which no field name is a prefix of a sibling's. -/
theorem C65_delete_partial (x : Slice τ V) (hn : AllNames PlainNames x.fields) (o : List Nat) (p : List Name) (t : Ty τ)
    (h : HasField x.fields o p t) (ht : t.isRecord = false) :
    ∃ (y : Slice τ V) (j : Nat), deleteStep (dotted p) x = some y ∧ (columns x.fields)[j]? = some (p, t) ∧ y.name = x.name ∧
      columns y.fields = (columns x.fields).eraseIdx j ∧ y.rows.length = x.rows.length ∧
      ∀ (i : Nat) r, x.rows[i]? = some r → ∃ r', y.rows[i]? = some r' ∧ row y.fields r' = (row x.fields r).eraseIdx j := by
  obtain ⟨j, h1, h2⟩ := leaf_flatIndex h ht
  obtain ⟨fs', h3, h4⟩ := columns_removeAt h h2
  refine ⟨{ x with fields := fs', rows := x.rows.map (·.eraseIdx j), offset := invalidId }, j, ?_, ?_, rfl, h4, ?_, ?_⟩
  · rw [deleteStep, Types.C62_resolve_key_partial x.fields hn o p t h]
    simp only [h1, h3, Option.map_some]
  · rw [columns, List.getElem?_map, h2]; rfl
  · simp
  · intro i r hr
    refine ⟨r.eraseIdx j, by simp [hr], ?_⟩
    rw [row, h4, zip_eraseIdx]; rfl

/-- C65, delete: nothing changes if there is no such field. -/
theorem C65_delete_missing (x : Slice τ V) (field : Name) (h : Types.resolveKey field x.fields = some none) :
    deleteStep field x = some { x with offset := invalidId } := by
  rw [deleteStep, h]

/-- C65 fails for deleting a field that is a record: the step has undefined behavior. -/
theorem C65_delete_record_refuted (x : Slice τ V) (hn : AllNames PlainNames x.fields) (o : List Nat) (p : List Name) (m : Meta)
    (gs : Fields τ) (h : HasField x.fields o p (.record m gs)) : deleteStep (dotted p) x = none := by
  rw [deleteStep, Types.C62_resolve_key_partial x.fields hn o p _ h]
  have : Types.flatIndexAt o x.fields = none := by
    cases hf : Types.flatIndexAt o x.fields with
    | none => rfl
    | some j =>
      exfalso
      rw [Types.flatIndexAt_iff] at hf
      cases hl : (leaves 0 x.fields)[j]? with
      | none => rw [hl] at hf; cases hf
      | some l =>
        rw [hl] at hf
        simp at hf
        have hl' := List.mem_of_getElem? hl
        have htype := Types.leaves_type hl'
        have hu : ∀ {fs : Fields τ} {o : List Nat} {p p' : List Name} {t t' : Ty τ}, HasField fs o p t → HasField fs o p' t' → t = t' := by
          intro fs o p p' t t' h1
          induction h1 generalizing p' with
          | here hx =>
            intro h2
            cases h2 with
            | here hx' => rw [hx] at hx'; cases hx'; rfl
            | there hx' h3 => cases h3
          | there hx hy ih =>
            intro h2
            cases h2 with
            | here hx' => cases hy
            | there hx' h3 => rw [hx] at hx'; cases hx'; exact ih h3
        have hback := leaf_hasField x.fields l hl'
        rw [hf] at hback
        have := hu h hback
        rw [← this] at htype
        simp [Ty.isRecord] at htype
  simp only [this]

/-- A layout with a nested record, and two rows. -/
def sample : Slice Nat Nat := ⟨[97], Types.lookupSample, [[1, 2, 3], [4, 5, 6]], 9⟩

example : AllNames PlainNames sample.fields ∧ HasField sample.fields [0, 1, 0] [[120], [98], [99]] (.leaf 2) ∧
    (deleteStep [120, 46, 98, 46, 99] sample).map (fun y => y.rows) = some [[1, 3], [4, 6]] :=
  ⟨Types.lookupSample_names, .there rfl (.there rfl (.here rfl)), by decide⟩

variable [DecidableEq τ]

/-- C65, replace: for a field that is not a record, its cells become the value and the others stay. -/
theorem C65_replace_partial (x : Slice τ V) (hn : AllNames PlainNames x.fields) (o : List Nat) (p : List Name) (t : Ty τ)
    (h : HasField x.fields o p t) (ht : t.isRecord = false) (value : V) (vt : Ty τ) (m : Meta) :
    ∃ (y : Slice τ V) (j : Nat), replaceStep (dotted p) value vt m x = some y ∧ (columns x.fields)[j]? = some (p, t) ∧ y.name = x.name ∧
      y.rows = x.rows.map (·.set j value) := by
  obtain ⟨j, h1, h2⟩ := leaf_flatIndex h ht
  have hnames : ∀ {fs : Fields τ} {o : List Nat} {p : List Name} {t : Ty τ}, HasField fs o p t → (Types.namesTo o fs).isSome = true := by
    intro fs o p t h
    induction h with
    | here hx => rfl
    | there hx hy ih =>
      cases hy with
      | here hz => rw [Types.namesTo, Fields.get?, hx]; rfl
      | there hz hw =>
        rw [Types.namesTo, Fields.get?, hx]
        simpa using ih
  have ha := hnames h
  obtain ⟨ns, hns⟩ := Option.isSome_iff_exists.1 ha
  refine ⟨{ x with fields := x.fields, rows := x.rows.map (·.set j value), offset := invalidId }, j, ?_, ?_, rfl, rfl⟩
  · rw [replaceStep, Types.C62_resolve_key_partial x.fields hn o p t h]
    simp only [h1, Types.assign, hns, Option.map_some]
  · rw [columns, List.getElem?_map, h2]; rfl

/-- C65 fails for replacing a field with a value of another type: the layout keeps the old type. -/
theorem C65_replace_type_refuted (x y : Slice τ V) (field : Name) (value : V) (vt : Ty τ) (m : Meta)
    (h : replaceStep field value vt m x = some y) : y.fields = x.fields := by
  rw [replaceStep] at h
  cases hr : Types.resolveKey field x.fields with
  | none => rw [hr] at h; cases h
  | some r =>
    rw [hr] at h
    cases r with
    | none => cases h; rfl
    | some o =>
      simp only at h
      cases hj : Types.flatIndexAt o x.fields with
      | none => rw [hj] at h; cases h
      | some j =>
        rw [hj] at h
        simp only [Option.map_eq_some_iff] at h
        obtain ⟨new, hn, rfl⟩ := h
        exact (Types.C64_assign_refuted o (field, vt) m new.1 x.fields new.2 hn).2

example : (replaceStep [120, 46, 98, 46, 99] 0 (.leaf 7) {} sample).map (fun y => (y.rows, columns y.fields)) =
    some ([[1, 0, 3], [4, 0, 6]], columns sample.fields) := by decide

omit [DecidableEq τ] in
theorem columns_snoc (fs : Fields τ) (n : Name) (t : Ty τ) (ht : t.isRecord = false) :
    columns (.ofList (fs.toList ++ [(n, t)])) = columns fs ++ [([n], t)] := by
  rw [Types.columns_eq, Types.columns_eq, Types.toList_ofList, Types.cols_append]
  simp [Types.cols, Types.colsOf_leaf ht]

omit [DecidableEq τ] in
/-- C65, hash: for a field that is not a record, a column with the hashes of its cells is added at the end, and all
    other columns stay. -/
theorem C65_hash_partial (x : Slice τ V) (hn : AllNames PlainNames x.fields) (hx : Rectangular x) (o : List Nat) (p : List Name)
    (t : Ty τ) (h : HasField x.fields o p t) (ht : t.isRecord = false) (out : Name) (hash : V → V) (string : Ty τ)
    (hs : string.isRecord = false) :
    ∃ (y : Slice τ V) (j : Nat), hashStep (dotted p) out hash string x = some y ∧ (columns x.fields)[j]? = some (p, t) ∧ y.name = x.name ∧
      columns y.fields = columns x.fields ++ [([out], string)] ∧ y.rows.length = x.rows.length ∧
      ∀ (i : Nat) r, x.rows[i]? = some r → ∃ c, r[j]? = some c ∧ y.rows[i]? = some (r ++ [hash c]) := by
  obtain ⟨j, h1, h2⟩ := leaf_flatIndex h ht
  refine ⟨{ x with
      fields := .ofList (x.fields.toList ++ [(out, string)])
      rows := x.rows.map fun r => r ++ (r[j]?.map hash).toList
      offset := invalidId }, j, by rw [hashStep, Types.C62_resolve_key_partial x.fields hn o p t h]; simp only [h1], ?_, rfl,
    columns_snoc _ _ _ hs, ?_, ?_⟩
  · rw [columns, List.getElem?_map, h2]; rfl
  · simp
  · intro i r hr
    have hl := hx r (List.mem_of_getElem? hr)
    have hj : j < (leaves 0 x.fields).length := by
      obtain ⟨hj, _⟩ := List.getElem?_eq_some_iff.1 h2
      exact hj
    have hj' : j < r.length := by rw [hl, columns, List.length_map]; exact hj
    exact ⟨r[j], by simp [hj'], by simp [hr, hj']⟩

example : Rectangular sample ∧ (hashStep [120, 46, 98, 46, 99] [122] (· + 10) (.leaf 0) sample).map (fun y => y.rows) =
    some [[1, 2, 3, 12], [4, 5, 6, 15]] := by
  refine ⟨?_, by decide⟩
  intro r hr
  simp [sample] at hr
  rcases hr with rfl | rfl <;> rfl

end Verif.Transform
