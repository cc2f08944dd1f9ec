import Verif.Types.MergeLemmas

/-! # C64: Merging record types

`Spec.columns` lists path and type of the leaves of a record type, `Spec.Conflict` says that two records disagree on
a field, and `Spec.Defines` that a record has something at a path. -/

namespace Verif.Types
open Spec

variable {τ : Type} [DecidableEq τ]

/-- record{a: 1, r: record{b: 2}} -/
def mergeLeft : Fields Nat :=
  .cons [97] (.leaf 1) (.cons [114] (.record ⟨[110], [([107], none)]⟩ (.cons [98] (.leaf 2) .nil)) .nil)

/-- record{r: record{c: 3}, d: 4} -/
def mergeRight : Fields Nat :=
  .cons [114] (.record ⟨[111], []⟩ (.cons [99] (.leaf 3) .nil)) (.cons [100] (.leaf 4) .nil)

/-- record{r: 5} -/
def mergeOther : Fields Nat := .cons [114] (.leaf 5) .nil

omit [DecidableEq τ] in
theorem unique_nil : UniqueNames (.nil : Fields τ) :=
  ⟨by simp [Fields.toList], by intro x n m gs h; simp [Fields.toList] at h⟩

omit [DecidableEq τ] in
theorem unique_mk {n : Name} {t : Ty τ} {rest : Fields τ} (h1 : UniqueNames rest) (h2 : n ∉ rest.toList.map (·.1))
    (h3 : ∀ m gs, t = .record m gs → UniqueNames gs) : UniqueNames (.cons n t rest) := by
  obtain ⟨h4, h5⟩ := h1
  refine ⟨by rw [Fields.toList, List.map_cons, List.nodup_cons]; exact ⟨h2, h4⟩, ?_⟩
  intro x n' m gs hx
  cases x with
  | zero => cases hx; exact h3 m gs rfl
  | succ x => exact h5 x n' m gs (by simpa [Fields.toList] using hx)

theorem mergeLeft_unique : UniqueNames mergeLeft :=
  unique_mk (unique_mk unique_nil (by simp [Fields.toList]) (by
    (rintro _ _ ⟨⟩; exact unique_mk unique_nil (by simp [Fields.toList]) (by (rintro _ _ ⟨⟩)))))
    (by simp [Fields.toList]) (by (rintro _ _ ⟨⟩))

theorem mergeRight_unique : UniqueNames mergeRight :=
  unique_mk (unique_mk unique_nil (by simp [Fields.toList]) (by (rintro _ _ ⟨⟩)))
    (by simp [Fields.toList]) (by
    (rintro _ _ ⟨⟩; exact unique_mk unique_nil (by simp [Fields.toList]) (by (rintro _ _ ⟨⟩))))

theorem mergeOther_unique : UniqueNames mergeOther :=
  unique_mk unique_nil (by simp [Fields.toList]) (by (rintro _ _ ⟨⟩))

/-- C64: when two record types merge, the leaves of the result are the leaves of the two, with their types. -/
theorem C64_merge_leaves (m m' : Meta) (fs gs hs : Fields τ) (h : merge m fs gs = some (m', hs)) :
    ∀ x, x ∈ columns hs ↔ x ∈ columns fs ∨ x ∈ columns gs := by
  intro x
  rw [merge] at h
  cases hl : mergeLoop fs.toList [] gs with
  | none => rw [hl] at h; cases h
  | some r =>
    rw [hl] at h; cases h
    rw [columns_eq, columns_eq, columns_eq, toList_ofList, mergeLoop_cols gs _ _ r hl x, List.append_nil]

example : (merge ⟨[], []⟩ mergeLeft mergeRight).map (fun r => columns r.2) =
    some [([[97]], .leaf 1), ([[114], [98]], .leaf 2), ([[114], [99]], .leaf 3), ([[100]], .leaf 4)] := by decide

/-- C64: merging fails exactly for record types that disagree on a field. -/
theorem C64_merge_fails (m : Meta) (fs gs : Fields τ) (hf : UniqueNames fs) (hg : UniqueNames gs) :
    merge m fs gs = none ↔ Conflict fs gs := by
  have := mergeTy_none (.record m gs) (.record m fs) (by rintro _ _ ⟨⟩; exact hg) (by rintro _ _ ⟨⟩; exact hf)
  rw [merge, Option.map_eq_none_iff]
  rw [mergeTy, Option.map_eq_none_iff] at this
  rw [this]
  constructor
  · rintro (h | ⟨_, _, _, _, h1, h2, h⟩)
    · simp [Ty.isRecord] at h
    · cases h1; cases h2; exact h
  · exact fun h => .inr ⟨_, _, _, _, rfl, rfl, h⟩

example : merge ⟨[], []⟩ mergeLeft mergeOther = none ∧ Conflict mergeLeft mergeOther :=
  ⟨by decide, .here (n := [114]) (by simp [mergeLeft, Fields.toList]; rfl) (by simp [mergeOther, Fields.toList]; rfl)
    (by decide) (by decide)⟩

example : ¬ Conflict mergeLeft mergeRight := by
  rw [← C64_merge_fails ⟨[], []⟩ _ _ mergeLeft_unique mergeRight_unique]
  decide

/-- C64: a priority merge always succeeds. When the right side is preferred, the leaves of the result are those of
    the right side, and those of the left side where the right side has nothing. -/
theorem C64_prefer_right (m m' : Meta) (fs gs : Fields τ) (hf : UniqueNames fs) (hg : UniqueNames gs) :
    ∀ x, x ∈ columns (priorityMerge true m fs m' gs).2 ↔
      x ∈ columns gs ∨ (x ∈ columns fs ∧ ¬ Defines gs x.1) :=
  fun x => priorityMerge_columns true m m' fs gs hf hg x

example : columns (priorityMerge true ⟨[], []⟩ mergeLeft ⟨[], []⟩ mergeOther).2 = [([[97]], .leaf 1), ([[114]], .leaf 5)] ∧
    UniqueNames mergeLeft ∧ UniqueNames mergeOther := ⟨by decide, mergeLeft_unique, mergeOther_unique⟩

/-- C64: and when the left side is preferred, the leaves of the result are those of the left side, and those of the
    right side where the left side has nothing. -/
theorem C64_prefer_left (m m' : Meta) (fs gs : Fields τ) (hf : UniqueNames fs) (hg : UniqueNames gs) :
    ∀ x, x ∈ columns (priorityMerge false m fs m' gs).2 ↔
      x ∈ columns fs ∨ (x ∈ columns gs ∧ ¬ Defines fs x.1) :=
  fun x => priorityMerge_columns false m m' fs gs hf hg x

example : columns (priorityMerge false ⟨[], []⟩ mergeOther ⟨[], []⟩ mergeLeft).2 = [([[114]], .leaf 5), ([[97]], .leaf 1)] := by
  decide

/-- C64: the names stay unique. -/
theorem C64_unique (right : Bool) (m m' : Meta) (fs gs : Fields τ) (hf : UniqueNames fs) (hg : UniqueNames gs) :
    UniqueNames (priorityMerge right m fs m' gs).2 :=
  priorityMerge_unique right gs fs hf hg

/-- C64: the attributes of the result are those of both sides; the preferred side wins. -/
theorem C64_attributes (right : Bool) (m m' : Meta) (fs gs : Fields τ) (k : Name) :
    (priorityMerge right m fs m' gs).1.attrs.find? (·.1 = k) =
      if right then (m'.attrs.reverse.find? (·.1 = k)).or (m.attrs.find? (·.1 = k))
      else (m.attrs.reverse.find? (·.1 = k)).or (m'.attrs.find? (·.1 = k)) := by
  cases right <;> exact updateAttrs_find _ _ k

/-- C64 fails for assigning to a field: the assignment has no effect. -/
theorem C64_assign_refuted (o : List Nat) (f : Name × Ty τ) (m m' : Meta) (fs hs : Fields τ)
    (h : assign o f m fs = some (m', hs)) : m' = m ∧ hs = fs := by
  rw [assign, Option.map_eq_some_iff] at h
  obtain ⟨_, _, h⟩ := h
  cases h; exact ⟨rfl, rfl⟩

example : assign [1, 0] ([98], .leaf 9) ⟨[], []⟩ mergeLeft = some (⟨[], []⟩, mergeLeft) := by decide

end Verif.Types
