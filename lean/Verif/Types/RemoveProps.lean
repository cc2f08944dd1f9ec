import Verif.Types.LookupProps

/-! # C63: Removing a field of a record type removes exactly its leaves -/

namespace Verif.Types
open Spec

variable {τ : Type}

namespace Spec

/-- The path and the type of each leaf, in order. -/
def columns (fs : Fields τ) : List (List Name × Ty τ) := (leaves 0 fs).map fun l => (l.path, l.type)

/-- The names of siblings differ, and no component of the path but the first is the name of a field of the
    record that the component before it is looked up in; the same holds for the rest of the path. -/
inductive ClearPath : List Name → Fields τ → Prop
  | last {n : Name} {fs : Fields τ} : (fs.toList.map (·.1)).Nodup → ClearPath [n] fs
  | step {n m : Name} {p : List Name} {fs : Fields τ} : (fs.toList.map (·.1)).Nodup → m ∉ fs.toList.map (·.1) →
    (∀ (x : Nat) (k : Meta) (gs : Fields τ), fs.toList[x]? = some (n, .record k gs) → ClearPath (m :: p) gs) →
    ClearPath (n :: m :: p) fs

end Spec

/-! ### Lemmas -/

/-- Path and type of a leaf. -/
def strip (l : Leaf τ) : List Name × Ty τ := (l.path, l.type)

theorem strip_shift (fs : Fields τ) (i j : Nat) : (leaves i fs).map strip = (leaves j fs).map strip := by
  have h : ∀ i, (leaves i fs).map strip = (leaves 0 fs).map strip := by
    intro i
    induction i with
    | zero => rfl
    | succ i ih => rw [leaves_shift, List.map_map, ← ih]; rfl
  rw [h i, h j]

theorem head_leaves : ∀ (fs : Fields τ) (i : Nat), ∀ l ∈ leaves i fs, ∃ y o, l.offset = y :: o ∧ i ≤ y
  | .nil, i, l, h => by rw [leaves] at h; cases h
  | .cons n t rest, i, l, h => by
    rw [leaves, List.mem_append] at h
    rcases h with h | h
    · obtain ⟨l', _, rfl⟩ := List.mem_map.1 h
      exact ⟨i, l'.offset, rfl, Nat.le_refl _⟩
    · obtain ⟨y, o, ho, hy⟩ := head_leaves rest (i + 1) l h
      exact ⟨y, o, ho, by omega⟩

/-- The leaves that are not below an offset. -/
def keep (o : List Nat) (l : Leaf τ) : Bool := !o.isPrefixOf l.offset

theorem removeAt_zero_nil (n : Name) (t : Ty τ) (rest : Fields τ) : removeAt [0] (.cons n t rest) = some rest := by
  rw [removeAt, get?_zero]
  simp [Fields.toList, ofList_toList]

theorem removeAt_zero_rec (y : Nat) (o : List Nat) (n : Name) (m : Meta) (gs rest : Fields τ) :
    removeAt (0 :: y :: o) (.cons n (.record m gs) rest) = (removeAt (y :: o) gs).map fun new =>
      if new.toList.isEmpty then rest else .cons n (.record m new) rest := by
  rw [removeAt, get?_zero]
  simp only
  congr 1
  funext new
  by_cases h : new.toList.isEmpty
  · simp [h, Fields.toList, ofList_toList]
  · simp [h, Fields.toList, Fields.ofList, ofList_toList]

theorem removeAt_succ (x : Nat) (o : List Nat) (n : Name) (t : Ty τ) (rest : Fields τ) :
    removeAt ((x + 1) :: o) (.cons n t rest) = (removeAt (x :: o) rest).map (.cons n t) := by
  rw [removeAt, removeAt, get?_succ]
  cases h : rest.get? x with
  | none => rfl
  | some f =>
    obtain ⟨n', t'⟩ := f
    cases o with
    | nil => simp [Fields.toList, Fields.ofList]
    | cons y o =>
      cases t' with
      | leaf _ => rfl
      | alias _ => rfl
      | record m gs =>
        simp only [Option.map_map]
        congr 1

theorem keep_under_ne {i j : Nat} (h : j ≠ i) (o : List Nat) (n : Name) (L : List (Leaf τ)) :
    (L.map (Leaf.under i n)).filter (keep (j :: o)) = L.map (Leaf.under i n) := by
  rw [List.filter_eq_self]
  intro l hl
  obtain ⟨l', _, rfl⟩ := List.mem_map.1 hl
  simp [keep, Leaf.under, List.isPrefixOf, h]

theorem keep_rest (o : List Nat) {i j : Nat} (h : j < i) (fs : Fields τ) :
    (leaves i fs).filter (keep (j :: o)) = leaves i fs := by
  rw [List.filter_eq_self]
  intro l hl
  obtain ⟨y, o', ho, hy⟩ := head_leaves fs i l hl
  simp [keep, ho, List.isPrefixOf]
  left; omega

theorem keep_under (i : Nat) (o : List Nat) (n : Name) (L : List (Leaf τ)) :
    (L.map (Leaf.under i n)).filter (keep (i :: o)) = (L.filter (keep o)).map (Leaf.under i n) := by
  rw [List.filter_map]
  congr 1
  refine List.filter_congr fun l _ => ?_
  simp [keep, Leaf.under]

theorem strip_under (i j : Nat) (n : Name) {L M : List (Leaf τ)} (h : L.map strip = M.map strip) :
    (L.map (Leaf.under i n)).map strip = (M.map (Leaf.under j n)).map strip := by
  have : ∀ (i : Nat) (L : List (Leaf τ)), (L.map (Leaf.under i n)).map strip = (L.map strip).map fun x => (n :: x.1, x.2) := by
    intro i L
    rw [List.map_map, List.map_map]
    rfl
  rw [this, this, h]

theorem leaves_of_empty {fs : Fields τ} (h : fs.toList.isEmpty = true) (i : Nat) : leaves i fs = [] := by
  cases fs with
  | nil => rfl
  | cons n t rest => simp [Fields.toList] at h

theorem removeAt_spec {fs : Fields τ} {o : List Nat} {p : List Name} {t : Ty τ} (h : HasField fs o p t) :
    ∃ x o', o = x :: o' ∧ ∃ fs', removeAt o fs = some fs' ∧
      ∀ i j, (leaves i fs').map strip = ((leaves j fs).filter (keep ((j + x) :: o'))).map strip := by
  have walk : ∀ (o' : List Nat) (g : Name → Ty τ → Option (Option (Ty τ))) (fs : Fields τ) (x : Nat) (n : Name) (t : Ty τ),
      fs.toList[x]? = some (n, t) →
      (∀ rest : Fields τ, ∃ fs', removeAt (0 :: o') (.cons n t rest) = some fs' ∧
        ∀ i j, (leaves i fs').map strip = ((leaves j (.cons n t rest)).filter (keep (j :: o'))).map strip) →
      ∃ fs', removeAt (x :: o') fs = some fs' ∧
        ∀ i j, (leaves i fs').map strip = ((leaves j fs).filter (keep ((j + x) :: o'))).map strip := by
    intro o' g fs
    induction fs using Fields.rec (motive_1 := fun _ => True) with
    | leaf | alias | record => trivial
    | nil => intro x n t hx; simp [Fields.toList] at hx
    | cons n' t' rest _ ih =>
      intro x n t hx hb
      cases x with
      | zero =>
        simp [Fields.toList] at hx
        obtain ⟨rfl, rfl⟩ := hx
        exact hb rest
      | succ x =>
        obtain ⟨fs', h1, h2⟩ := ih x n t (by simpa [Fields.toList] using hx) hb
        refine ⟨.cons n' t' fs', by rw [removeAt_succ, h1]; rfl, ?_⟩
        intro i j
        rw [leaves, leaves, List.filter_append, List.map_append, List.map_append, keep_under_ne (by omega)]
        rw [strip_under i j n' (L := leavesOf t') (M := leavesOf t') rfl, h2 (i + 1) (j + 1),
          show j + 1 + x = j + (x + 1) by omega]
  induction h with
  | @here fs x n t h =>
    refine ⟨x, [], rfl, walk [] (fun _ _ => none) fs x n t h ?_⟩
    intro rest
    refine ⟨rest, removeAt_zero_nil n t rest, ?_⟩
    intro i j
    rw [leaves, List.filter_append, keep_under]
    have : (leavesOf t).filter (keep []) = [] := by
      rw [List.filter_eq_nil_iff]; intro l _; simp [keep]
    rw [this, keep_rest [] (Nat.lt_succ_self j)]
    simpa using strip_shift rest i (j + 1)
  | @there fs gs x n m o p t h h' ih =>
    obtain ⟨y, o', rfl, new, h1, h2⟩ := ih
    refine ⟨x, y :: o', rfl, walk (y :: o') (fun _ _ => none) fs x n (.record m gs) h ?_⟩
    intro rest
    refine ⟨_, by rw [removeAt_zero_rec, h1]; rfl, ?_⟩
    intro i j
    show (leaves i (if new.toList.isEmpty = true then rest else .cons n (.record m new) rest)).map strip = _
    rw [leaves, leavesOf, List.filter_append, List.map_append, keep_under, keep_rest _ (Nat.lt_succ_self j)]
    have h3 := h2 0 0
    rw [Nat.zero_add] at h3
    by_cases he : new.toList.isEmpty = true
    · rw [if_pos he]
      rw [leaves_of_empty he] at h3
      have : ((leaves 0 gs).filter (keep (y :: o'))) = [] := by simpa using h3.symm
      rw [this]
      simpa using strip_shift rest i (j + 1)
    · rw [if_neg he, leaves, leavesOf, List.map_append, strip_shift rest (i + 1) (j + 1), strip_under i j n h3]

theorem removeAt_none : ∀ (o : List Nat) (fs : Fields τ), (∀ p t, ¬ HasField fs o p t) → removeAt o fs = none
  | [], fs, _ => by rw [removeAt]
  | x :: o, fs, h => by
    rw [removeAt]
    cases hg : fs.get? x with
    | none => rfl
    | some f =>
      obtain ⟨n, t⟩ := f
      cases o with
      | nil => exact absurd (HasField.here hg) (h [n] t)
      | cons y o =>
        cases t with
        | leaf _ => rfl
        | alias _ => rfl
        | record m gs =>
          have := removeAt_none (y :: o) gs (fun p t hf => h (n :: p) t (.there hg hf))
          simp only [this]
          rfl

/-! Paths -/

theorem removePath_pass {path : List Name} : ∀ (fs : Fields τ),
    (∀ n, path.head? = some n → n ∉ fs.toList.map (·.1)) → removePath path fs = some fs
  | .nil, _ => by rw [removePath]
  | .cons n t rest, h => by
    have hn : ¬ (some n = path.head?) := fun he => h n he.symm (by simp [Fields.toList])
    rw [removePath, if_neg hn, removePath_pass rest (by
      intro n' hn'
      have := h n' hn'
      simp [Fields.toList] at this ⊢
      exact this.2)]
    rfl

/-- The leaves whose path does not start with a path. -/
def keepPath (p : List Name) (l : Leaf τ) : Bool := !p.isPrefixOf l.path

theorem keepPath_under_ne {a n : Name} (h : a ≠ n) (p : List Name) (i : Nat) (L : List (Leaf τ)) :
    (L.map (Leaf.under i n)).filter (keepPath (a :: p)) = L.map (Leaf.under i n) := by
  rw [List.filter_eq_self]
  intro l hl
  obtain ⟨l', _, rfl⟩ := List.mem_map.1 hl
  simp [keepPath, Leaf.under, List.isPrefixOf, h]

theorem keepPath_under (n : Name) (p : List Name) (i : Nat) (L : List (Leaf τ)) :
    (L.map (Leaf.under i n)).filter (keepPath (n :: p)) = (L.filter (keepPath p)).map (Leaf.under i n) := by
  rw [List.filter_map]
  congr 1
  refine List.filter_congr fun l _ => ?_
  simp [keepPath, Leaf.under]

theorem keepPath_rest {a : Name} (p : List Name) : ∀ (fs : Fields τ) (i : Nat), a ∉ fs.toList.map (·.1) →
    (leaves i fs).filter (keepPath (a :: p)) = leaves i fs
  | .nil, i, _ => by rw [leaves]; rfl
  | .cons n t rest, i, h => by
    simp [Fields.toList] at h
    rw [leaves, List.filter_append, keepPath_under_ne (fun e => h.1 e), keepPath_rest p rest (i + 1) (by simpa using h.2)]

theorem removePath_spec {fs : Fields τ} {o : List Nat} {p : List Name} {t : Ty τ} (h : HasField fs o p t) :
    ClearPath p fs → ∃ fs', removePath p fs = some fs' ∧
      ∀ i j, (leaves i fs').map strip = ((leaves j fs).filter (keepPath p)).map strip := by
  have walk : ∀ (a : Name) (q : List Name) (fs : Fields τ) (x : Nat) (t : Ty τ),
      fs.toList[x]? = some (a, t) → (fs.toList.map (·.1)).Nodup → (∀ b, q.head? = some b → b ∉ fs.toList.map (·.1)) →
      (∀ rest : Fields τ, a ∉ rest.toList.map (·.1) → (∀ b, q.head? = some b → b ∉ rest.toList.map (·.1)) →
        ∃ fs', removePath (a :: q) (.cons a t rest) = some fs' ∧
        ∀ i j, (leaves i fs').map strip = ((leaves j (.cons a t rest)).filter (keepPath (a :: q))).map strip) →
      ∃ fs', removePath (a :: q) fs = some fs' ∧
        ∀ i j, (leaves i fs').map strip = ((leaves j fs).filter (keepPath (a :: q))).map strip := by
    intro a q fs
    induction fs using Fields.rec (motive_1 := fun _ => True) with
    | leaf | alias | record => trivial
    | nil => intro x t hx; simp [Fields.toList] at hx
    | cons n' t' rest _ ih =>
      intro x t hx hnd hq hb
      have hnd' := List.nodup_cons.1 (by simpa only [Fields.toList, List.map_cons] using hnd)
      have hq' : ∀ b, q.head? = some b → b ∉ rest.toList.map (·.1) := by
        intro b hb' hm
        exact hq b hb' (by simp only [Fields.toList, List.map_cons]; exact List.mem_cons_of_mem _ hm)
      cases x with
      | zero =>
        simp [Fields.toList] at hx
        obtain ⟨rfl, rfl⟩ := hx
        exact hb rest hnd'.1 hq'
      | succ x =>
        have hx' : rest.toList[x]? = some (a, t) := by simpa [Fields.toList] using hx
        have hne : n' ≠ a := by
          rintro rfl
          exact hnd'.1 (List.mem_map.2 ⟨_, List.mem_of_getElem? hx', rfl⟩)
        obtain ⟨fs', h1, h2⟩ := ih x t hx' hnd'.2 hq' hb
        refine ⟨.cons n' t' fs', ?_, ?_⟩
        · rw [removePath, if_neg (by simp [hne]), h1]; rfl
        · intro i j
          rw [leaves, leaves, List.filter_append, List.map_append, List.map_append, keepPath_under_ne (Ne.symm hne),
            strip_under i j n' (L := leavesOf t') (M := leavesOf t') rfl, h2 (i + 1) (j + 1)]
  induction h with
  | @here fs x n t h =>
    intro hc
    cases hc with
    | last hnd =>
      refine walk n [] fs x t h hnd (by simp) ?_
      intro rest hr _
      refine ⟨rest, ?_, ?_⟩
      · rw [removePath, if_pos (by simp), if_neg (by simp)]
        exact removePath_pass rest (by simpa using hr)
      · intro i j
        rw [leaves, List.filter_append, keepPath_under]
        have : (leavesOf t).filter (keepPath []) = [] := by
          rw [List.filter_eq_nil_iff]; intro l _; simp [keepPath]
        rw [this, keepPath_rest [] rest (j + 1) hr]
        simpa using strip_shift rest i (j + 1)
  | @there fs gs x n k o p t h h' ih =>
    intro hc
    cases hc with
    | last _ => exact absurd rfl (hasField_path_ne h')
    | @step _ m p _ hnd hm hsub =>
      obtain ⟨new, h1, h2⟩ := ih (hsub x k gs h)
      refine walk n (m :: p) fs x (.record k gs) h hnd (by simpa using hm) ?_
      intro rest hr hq
      refine ⟨_, by
        rw [removePath, if_pos (by simp), if_pos (by simp), removeIn, List.tail_cons, h1, Option.map_some, Option.bind_some,
          removePath_pass rest (by simpa using hq), Option.map_some], ?_⟩
      intro i j
      rw [leaves, leavesOf, List.filter_append, List.map_append, keepPath_under, keepPath_rest _ rest (j + 1) hr]
      have h3 := h2 0 0
      simp only
      by_cases he : new.toList.isEmpty = true
      · rw [if_pos he]
        rw [leaves_of_empty he] at h3
        have : ((leaves 0 gs).filter (keepPath (m :: p))) = [] := by simpa using h3.symm
        rw [this]
        simpa using strip_shift rest i (j + 1)
      · rw [if_neg he, leaves, leavesOf, List.map_append, strip_shift rest (i + 1) (j + 1), strip_under i j n h3]

/-! ### Properties -/

/-- `remove_field` with the offset of a field, be it a leaf or a record, leaves exactly the other columns, in
    order; it fails for every other offset. -/
theorem C63_remove_offset (fs : Fields τ) (o : List Nat) :
    (∀ p t, HasField fs o p t → ∃ fs', removeAt o fs = some fs' ∧
      columns fs' = ((leaves 0 fs).filter fun l => !o.isPrefixOf l.offset).map fun l => (l.path, l.type)) ∧
    ((∀ p t, ¬ HasField fs o p t) → removeAt o fs = none) := by
  refine ⟨fun p t h => ?_, removeAt_none o fs⟩
  obtain ⟨x, o', rfl, fs', h1, h2⟩ := removeAt_spec h
  refine ⟨fs', h1, ?_⟩
  have := h2 0 0
  rw [Nat.zero_add] at this
  exact this

example : (removeAt [0, 1] lookupSample).map (fun fs => (columns fs).map (·.1)) = some [[[120], [97]], [[121]]] := by
  decide

/-- `remove_field` with the path of a field leaves exactly the other columns, in order, if no component
    of the path but the first names a field next to the one that the component before it names. -/
theorem C63_remove_path_partial (fs : Fields τ) (o : List Nat) (p : List Name) (t : Ty τ) (h : HasField fs o p t)
    (hc : ClearPath p fs) : ∃ fs', removePath p fs = some fs' ∧
      columns fs' = ((leaves 0 fs).filter fun l => !p.isPrefixOf l.path).map fun l => (l.path, l.type) := by
  obtain ⟨fs', h1, h2⟩ := removePath_spec h hc
  exact ⟨fs', h1, h2 0 0⟩

/-- without the condition: removing `x.y` from `{x: {a, y}, y}` also removes the field `y` -/
theorem C63_remove_path_refuted : ∃ (fs fs' : Fields Nat), HasField fs [0, 1] [[120], [121]] (.leaf 2) ∧
    HasField fs [1] [[121]] (.leaf 3) ∧ removePath [[120], [121]] fs = some fs' ∧
      (columns fs').map (·.1) = [[[120], [97]]] :=
  ⟨.cons [120] (.record {} (.cons [97] (.leaf 1) (.cons [121] (.leaf 2) .nil))) (.cons [121] (.leaf 3) .nil),
    .cons [120] (.record {} (.cons [97] (.leaf 1) .nil)) .nil, .there rfl (.here rfl), .here rfl, rfl, by decide⟩

example : ClearPath [[120], [97]] lookupSample := by
  refine .step (by decide) (by decide) ?_
  intro x k gs h
  match x with
  | 0 => simp [lookupSample, Fields.toList] at h; rw [← h.2]; exact .last (by decide)
  | 1 => simp [lookupSample, Fields.toList] at h
  | x + 2 => simp [lookupSample, Fields.toList] at h

end Verif.Types
