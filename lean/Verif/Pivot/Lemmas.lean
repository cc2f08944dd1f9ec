import Verif.Types.LookupProps
import Verif.Pivot.Model
/-! Helper lemmas about the pivoter. -/
namespace Verif.Pivot
open Verif.Types Verif.Types.Spec Verif.Data
open Spec (Batch)

section
variable {τ : Type}

mutual
theorem leavesOf_notRecord : ∀ (t : Ty τ) (l : Leaf τ), l ∈ leavesOf t → ∀ m gs, l.type ≠ .record m gs
  | .leaf t, l, h, m, gs => by simp [leavesOf] at h; simp [h]
  | .alias t, l, h, m, gs => by simp [leavesOf] at h; simp [h]
  | .record _ fs, l, h, m, gs => by rw [leavesOf] at h; exact leaves_notRecord fs 0 l h m gs

theorem leaves_notRecord : ∀ (fs : Fields τ) (i : Nat) (l : Leaf τ), l ∈ leaves i fs → ∀ m gs, l.type ≠ .record m gs
  | .nil, i, l, h, m, gs => by simp [leaves] at h
  | .cons n t rest, i, l, h, m, gs => by
    rw [leaves, List.mem_append, List.mem_map] at h
    rcases h with ⟨l', h1, rfl⟩ | h
    · exact leavesOf_notRecord t l' h1 m gs
    · exact leaves_notRecord rest (i + 1) l h m gs
end

theorem hasField_shift {fs : Fields τ} {n : Name} {t : Ty τ} {x : Nat} {o : List Nat} {p : List Name} {u : Ty τ}
    (h : HasField fs (x :: o) p u) : HasField (.cons n t fs) ((x + 1) :: o) p u := by
  cases h with
  | here hx => exact .here (by simpa [Fields.toList] using hx)
  | there hx hy => exact .there (by simpa [Fields.toList] using hx) hy

mutual
theorem leavesOf_hasField : ∀ (t : Ty τ) (l : Leaf τ), l ∈ leavesOf t → ∀ (n : Name) (rest : Fields τ),
    HasField (.cons n t rest) (0 :: l.offset) (n :: l.path) l.type
  | .leaf t, l, h, n, rest => by simp [leavesOf] at h; subst h; exact .here rfl
  | .alias t, l, h, n, rest => by simp [leavesOf] at h; subst h; exact .here rfl
  | .record m gs, l, h, n, rest => by
    rw [leavesOf] at h
    exact .there rfl (leaves_hasField gs l h)

theorem leaves_hasField : ∀ (fs : Fields τ) (l : Leaf τ), l ∈ leaves 0 fs → HasField fs l.offset l.path l.type
  | .nil, l, h => by simp [leaves] at h
  | .cons n t rest, l, h => by
    rw [leaves, leaves_shift, List.mem_append, List.mem_map, List.mem_map] at h
    rcases h with ⟨l', h1, rfl⟩ | ⟨l', h1, rfl⟩
    · exact leavesOf_hasField t l' h1 n rest
    · have h2 := leaves_hasField rest l' h1
      cases ho : l'.offset with
      | nil => rw [ho] at h2; cases h2
      | cons x o =>
        rw [ho] at h2
        simpa [ho] using hasField_shift h2
end

/-- A field that is not a record is a leaf. -/
theorem top_leaf : ∀ (fs : Fields τ) (x : Nat) (n : Name) (t : Ty τ), fs.toList[x]? = some (n, t) → (∀ m gs, t ≠ .record m gs) →
    ∃ i, flatIndexAt [x] fs = some i ∧ ∃ l, (leaves 0 fs)[i]? = some l ∧ l.offset = [x] ∧ l.path = [n] := by
  intro fs x n t hx ht
  have : ∃ i, flatIndexAt [x] fs = some i := by
    rw [flatIndexAt, Fields.get?, hx]
    cases t with
    | leaf t => exact ⟨_, rfl⟩
    | alias t => exact ⟨_, rfl⟩
    | record m gs => exact absurd rfl (ht m gs)
  obtain ⟨i, hi⟩ := this
  refine ⟨i, hi, ?_⟩
  have h := (flatIndexAt_iff fs [x] i).mp hi
  cases hl : (leaves 0 fs)[i]? with
  | none => rw [hl] at h; cases h
  | some l =>
    rw [hl] at h
    simp at h
    refine ⟨l, rfl, h, ?_⟩
    have hf := leaves_hasField fs l (List.mem_of_getElem? hl)
    rw [h] at hf
    generalize l.path = p at hf
    generalize l.type = u at hf
    cases hf with
    | here hy => rw [hx] at hy; cases hy; rfl
    | there hy hz => cases hz

theorem hasField_one {fs : Fields τ} {o : List Nat} {f : Name} {t : Ty τ} (h : HasField fs o [f] t) :
    ∃ x, o = [x] ∧ fs.toList[x]? = some (f, t) := by
  cases h with
  | here hx => exact ⟨_, rfl, hx⟩
  | there _ hy => cases hy

theorem hasField_path {fs : Fields τ} {o : List Nat} {p q : List Name} {t u : Ty τ} (h : HasField fs o p t) (h' : HasField fs o q u) :
    p = q := by
  induction h generalizing q u with
  | here hx => cases h' with
    | here hy => rw [hx] at hy; cases hy; rfl
    | there hy hz => cases hz
  | there hx h1 ih => cases h' with
    | here hy => cases h1
    | there hy hz => rw [hx] at hy; cases hy; rw [ih hz]

theorem dotted_one (name f : Name) : dotted [name, f] = name ++ 46 :: f := by simp [dotted]

end

variable {τ : Type} [DecidableEq τ]

/-- A name that ends with the key after a dot, or is the key. -/
theorem hit_iff (key n : Name) : hit key n = true ↔ n = key ∨ (46 :: key) <:+ n := by
  simp [hit, List.isSuffixOf_iff_suffix]

/-- What is in front of a dot. -/
theorem dotted_hit {name key : Name} {p : List Name} (hp : p ≠ []) (hk : 46 ∉ key) (h : hit key (dotted (name :: p)) = true) :
    (46 :: key) <:+ dotted (name :: p) := by
  rcases (hit_iff _ _).mp h with h | h
  · rw [dotted_cons_ne hp] at h
    exact absurd (by rw [← h]; simp) hk
  · exact h

theorem edge_nodot (target name : Name) : 46 ∉ edge target name := by
  rw [edge]; split <;> decide

/-- What `table_slice_column::make` finds. -/
theorem column_some (b : Batch τ) (f : Name) (hf : 46 ∉ f) (k : Nat) (h : column b.name b.fields f = some k) :
    ∃ l, (leaves 0 b.fields)[k]? = some l ∧ (46 :: f) <:+ dotted (b.name :: l.path) := by
  rw [column] at h
  cases ho : (findSuffix { name := b.name } (hit f) b.fields).head? with
  | none => rw [ho] at h; cases h
  | some o =>
    rw [ho] at h
    simp only [Option.bind_some] at h
    obtain ⟨p, t, h1, h2⟩ := (C62_find_suffix { name := b.name } (hit f) b.fields o).mp (List.mem_of_mem_head? ho)
    have h3 := (flatIndexAt_iff b.fields o k).mp h
    cases hl : (leaves 0 b.fields)[k]? with
    | none => rw [hl] at h3; cases h3
    | some l =>
      rw [hl] at h3
      simp at h3
      refine ⟨l, rfl, ?_⟩
      have h4 := leaves_hasField b.fields l (List.mem_of_getElem? hl)
      rw [h3] at h4
      have e : l.path = p := hasField_path h4 h1
      rw [e]
      exact dotted_hit (hasField_path_ne h1) hf h2

/-- With clear names it is the field at the top. -/
theorem column_clear (b : Batch τ) (f : Name) (hf : 46 ∉ f) (hc : Spec.Clear b f) (ht : Spec.HasTop b f) :
    ∃ k, column b.name b.fields f = some k ∧ ∀ i l, (leaves 0 b.fields)[i]? = some l → (l.path = [f] ↔ i = k) := by
  obtain ⟨t, ht⟩ := ht
  obtain ⟨x, hx⟩ := List.getElem?_of_mem ht
  have hs : ∀ x t, b.fields.toList[x]? = some (f, t) → [x] ∈ findSuffix { name := b.name } (hit f) b.fields := by
    intro x t hx
    refine (C62_find_suffix { name := b.name } (hit f) b.fields [x]).mpr ⟨[f], t, .here hx, (hit_iff _ _).mpr (.inr ?_)⟩
    rw [dotted_one]
    exact List.suffix_append _ _
  have hh := hs x t hx
  cases ho : (findSuffix { name := b.name } (hit f) b.fields).head? with
  | none => rw [List.head?_eq_none_iff] at ho; rw [ho] at hh; cases hh
  | some o =>
    obtain ⟨p, u, h1, h2⟩ := (C62_find_suffix { name := b.name } (hit f) b.fields o).mp (List.mem_of_mem_head? ho)
    obtain ⟨h3, h4⟩ := hc.1 o p u h1 (dotted_hit (hasField_path_ne h1) hf h2)
    subst h3
    obtain ⟨y, rfl, hy⟩ := hasField_one h1
    obtain ⟨k, hk, l, hl, hlo, hlp⟩ := top_leaf b.fields y f u hy h4
    refine ⟨k, by rw [column, ho]; exact hk, fun i l' hl' => ⟨fun e => ?_, fun e => ?_⟩⟩
    · have h5 := leaves_hasField b.fields l' (List.mem_of_getElem? hl')
      rw [e] at h5
      obtain ⟨z, e1, hz⟩ := hasField_one h5
      have e2 := hc.2 z y _ _ hz hy
      subst e2
      have h6 := (flatIndexAt_iff b.fields [z] i).mpr (by rw [hl']; simp [e1])
      rw [hk] at h6
      cases h6; rfl
    · subst e
      rw [hl] at hl'
      cases hl'
      exact hlp

/-! ## Collecting values -/

theorem collect_spec (cs : List Data) : ∀ (r : List Str),
    (collect r cs).2 = (collect r cs).1.reverse ++ r
    ∧ (collect r cs).1.Nodup ∧ (∀ x ∈ (collect r cs).1, x ∉ r ∧ .string x ∈ cs)
    ∧ ∀ x, .string x ∈ cs → x ∈ r ∨ x ∈ (collect r cs).1 := by
  induction cs with
  | nil => intro r; simp [collect]
  | cons c cs ih =>
    intro r
    have other : collect r (c :: cs) = collect r cs → (∀ x, c = .string x → x ∈ r) → (collect r (c :: cs)).2 = (collect r (c :: cs)).1.reverse ++ r
    ∧ (collect r (c :: cs)).1.Nodup ∧ (∀ x ∈ (collect r (c :: cs)).1, x ∉ r ∧ .string x ∈ c :: cs)
    ∧ ∀ x, .string x ∈ c :: cs → x ∈ r ∨ x ∈ (collect r (c :: cs)).1 := by
      intro e hx
      rw [e]
      obtain ⟨h1, h2, h3, h4⟩ := ih r
      refine ⟨h1, h2, fun x h => ⟨(h3 x h).1, List.mem_cons_of_mem _ (h3 x h).2⟩, fun x h => ?_⟩
      rcases List.mem_cons.mp h with h | h
      · exact .inl (hx x h.symm)
      · exact h4 x h
    cases c with
    | string y =>
      by_cases hy : y ∈ r
      · exact other (by simp [collect, hy]) (fun x e => by cases e; exact hy)
      · obtain ⟨h1, h2, h3, h4⟩ := ih (y :: r)
        have e : collect r (.string y :: cs) = (y :: (collect (y :: r) cs).1, (collect (y :: r) cs).2) := by simp [collect, hy]
        rw [e]
        refine ⟨by simp [h1], List.nodup_cons.mpr ⟨fun h => (h3 y h).1 (by simp), h2⟩, fun x h => ?_, fun x h => ?_⟩
        · rcases List.mem_cons.mp h with rfl | h
          · exact ⟨hy, by simp⟩
          · exact ⟨fun hr => (h3 x h).1 (by simp [hr]), List.mem_cons_of_mem _ (h3 x h).2⟩
        · rcases List.mem_cons.mp h with h | h
          · cases h; right; simp
          · rcases h4 x h with h | h
            · rcases List.mem_cons.mp h with rfl | h
              · right; simp
              · exact .inl h
            · right; simp [h]
    | _ => exact other (by simp [collect]) (fun x e => by cases e)

end Verif.Pivot
