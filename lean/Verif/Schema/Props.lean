import Verif.Schema.Model

/-! # C53: Schemas keep one type per name -/

namespace Verif.Schema
open Types (name isNone)

variable {T : Type} [Types T] [DecidableEq T]

namespace Spec

/-- No two types of the schema have the same name, none has an empty name and none is the none type. -/
def Valid (s : List T) : Prop :=
  (s.map name).Nodup ∧ ∀ t ∈ s, name t ≠ [] ∧ isNone t = false

/-- Schemas that can be made from empty ones with `add`, `merge` and `combine`. -/
inductive Reachable : List T → Prop
  | empty : Reachable []
  | add {s : List T} (t : T) : Reachable s → Reachable (add t s).1
  | merge {s1 s2 s : List T} : Reachable s1 → Reachable s2 → merge s1 s2 = some s → Reachable s
  | combine {s1 s2 : List T} : Reachable s1 → Reachable s2 → Reachable (combine s1 s2)

end Spec

open Spec

/-! ### Lemmas -/

theorem find_none {n : List UInt8} : ∀ {s : List T}, find n s = none ↔ ∀ t ∈ s, name t ≠ n
  | [] => by simp [find]
  | u :: s => by
    rw [find]
    by_cases h : name u = n
    · simp [h]
    · rw [if_neg h, find_none]; simp [h]

theorem find_mem {n : List UInt8} {t : T} : ∀ {s : List T}, find n s = some t → t ∈ s ∧ name t = n
  | u :: s, h => by
    rw [find] at h
    by_cases hu : name u = n
    · rw [if_pos hu] at h; cases h; exact ⟨List.mem_cons_self, hu⟩
    · rw [if_neg hu] at h
      exact ⟨List.mem_cons_of_mem _ (find_mem h).1, (find_mem h).2⟩

theorem find_unique {t : T} : ∀ {s : List T}, (s.map name).Nodup → t ∈ s → find (name t) s = some t
  | u :: s, h, ht => by
    rw [List.map_cons, List.nodup_cons] at h
    rw [find]
    rcases List.mem_cons.1 ht with rfl | ht
    · rw [if_pos rfl]
    · rw [if_neg, find_unique h.2 ht]
      intro he
      exact h.1 (he ▸ List.mem_map.2 ⟨t, ht, rfl⟩)

theorem replace_split {t : T} : ∀ {s : List T} {u : T}, find (name t) s = some u →
    ∃ a b, s = a ++ u :: b ∧ replace t s = a ++ t :: b ∧ name u = name t
  | v :: s, u, h => by
    rw [find] at h
    by_cases hv : name v = name t
    · rw [if_pos hv] at h; cases h
      exact ⟨[], s, rfl, by rw [replace, if_pos hv]; rfl, hv⟩
    · rw [if_neg hv] at h
      obtain ⟨a, b, rfl, h2, h3⟩ := replace_split h
      exact ⟨v :: a, b, rfl, by rw [replace, if_neg hv, h2]; rfl, h3⟩

theorem valid_append {s : List T} {t : T} (h : Valid s) (hn : ∀ u ∈ s, name u ≠ name t) (ht : name t ≠ [] ∧ isNone t = false) :
    Valid (s ++ [t]) := by
  refine ⟨?_, ?_⟩
  · rw [List.map_append, List.nodup_append]
    refine ⟨h.1, by simp, ?_⟩
    intro a ha b hb
    obtain ⟨u, hu, rfl⟩ := List.mem_map.1 ha
    simp at hb; subst hb
    exact hn u hu
  · intro u hu
    rcases List.mem_append.1 hu with hu | hu
    · exact h.2 u hu
    · simp at hu; subst hu; exact ht

theorem mergeLoop_none {s2 : List T} : ∀ {s1 result : List T}, mergeLoop s2 result s1 = none ↔
    ∃ t ∈ s1, ∃ u, find (name t) s2 = some u ∧ t ≠ u
  | [], result => by simp [mergeLoop]
  | t :: s1, result => by
    rw [mergeLoop]
    cases hf : find (name t) s2 with
    | none =>
      simp only
      rw [mergeLoop_none]
      simp [hf]
    | some u =>
      simp only
      by_cases h : t ≠ u ∧ name t = name u
      · rw [if_pos h]
        simp only [true_iff]
        exact ⟨t, List.mem_cons_self, u, hf, h.1⟩
      · rw [if_neg h, mergeLoop_none]
        have htu : t = u := by
          apply Classical.byContradiction
          intro hc
          exact h ⟨hc, (find_mem hf).2.symm⟩
        subst htu
        simp [hf]

theorem mergeLoop_mem {s2 : List T} : ∀ {s1 result s : List T}, mergeLoop s2 result s1 = some s →
    (∀ x ∈ s2, x ∈ result) → ∀ x, x ∈ s ↔ x ∈ result ∨ x ∈ s1
  | [], result, s, h, _, x => by rw [mergeLoop] at h; cases h; simp
  | t :: s1, result, s, h, hr, x => by
    rw [mergeLoop] at h
    cases hf : find (name t) s2 with
    | none =>
      rw [hf] at h
      rw [mergeLoop_mem h (fun y hy => by simp [hr y hy]) x]
      simp [or_assoc]
    | some u =>
      rw [hf] at h
      simp only at h
      by_cases hc : t ≠ u ∧ name t = name u
      · rw [if_pos hc] at h; cases h
      · rw [if_neg hc] at h
        have htu : t = u := by
          apply Classical.byContradiction
          intro hc'
          exact hc ⟨hc', (find_mem hf).2.symm⟩
        subst htu
        rw [mergeLoop_mem h hr x, List.mem_cons]
        have := hr t (find_mem hf).1
        constructor
        · rintro (h | h) <;> simp [h]
        · rintro (h | rfl | h)
          · exact .inl h
          · exact .inl this
          · exact .inr h

theorem mergeLoop_valid {s2 : List T} : ∀ {s1 result s : List T}, mergeLoop s2 result s1 = some s → Valid result → Valid s1 →
    (∀ x ∈ result, x ∈ s2 ∨ ∀ y ∈ s1, name y ≠ name x) → Valid s
  | [], result, s, h, hv, _, _ => by rw [mergeLoop] at h; cases h; exact hv
  | t :: s1, result, s, h, hv, h1, hr => by
    have h1n := h1.1
    rw [List.map_cons, List.nodup_cons] at h1n
    have h1' : Valid s1 := ⟨h1n.2, fun u hu => h1.2 u (List.mem_cons_of_mem _ hu)⟩
    have hr' : ∀ x ∈ result, x ∈ s2 ∨ ∀ y ∈ s1, name y ≠ name x := by
      intro x hx
      rcases hr x hx with h | h
      · exact .inl h
      · exact .inr fun y hy => h y (List.mem_cons_of_mem _ hy)
    rw [mergeLoop] at h
    cases hf : find (name t) s2 with
    | none =>
      rw [hf] at h
      refine mergeLoop_valid h (valid_append hv ?_ (h1.2 t List.mem_cons_self)) h1' ?_
      · intro u hu
        rcases hr u hu with h | h
        · exact find_none.1 hf u h
        · exact Ne.symm (h t List.mem_cons_self)
      · intro x hx
        rcases List.mem_append.1 hx with hx | hx
        · exact hr' x hx
        · simp at hx; subst hx
          refine .inr fun y hy he => h1n.1 (List.mem_map.2 ⟨y, hy, he⟩)
    | some u =>
      rw [hf] at h
      simp only at h
      by_cases hc : t ≠ u ∧ name t = name u
      · rw [if_pos hc] at h; cases h
      · rw [if_neg hc] at h
        exact mergeLoop_valid h hv h1' hr'

theorem replace_valid {s : List T} {t u : T} (hf : find (name t) s = some u) (h : Valid s) (ht : name t ≠ [] ∧ isNone t = false) :
    Valid (replace t s) := by
  obtain ⟨a, b, rfl, h2, h3⟩ := replace_split hf
  rw [h2]
  refine ⟨?_, ?_⟩
  · have := h.1
    rw [List.map_append, List.map_cons, h3] at this
    rw [List.map_append, List.map_cons]
    exact this
  · intro x hx
    rcases List.mem_append.1 hx with hx | hx
    · exact h.2 x (by simp [hx])
    · rcases List.mem_cons.1 hx with rfl | hx
      · exact ht
      · exact h.2 x (by simp [hx])

theorem replace_mem {s : List T} {t u : T} (hf : find (name t) s = some u) (h : Valid s) (x : T) :
    x ∈ replace t s ↔ x = t ∨ (x ∈ s ∧ name x ≠ name t) := by
  obtain ⟨a, b, rfl, h2, h3⟩ := replace_split hf
  rw [h2]
  have hn := h.1
  rw [List.map_append, List.map_cons, List.nodup_append, List.nodup_cons] at hn
  have ha : ∀ y ∈ a, name y ≠ name t := by
    intro y hy
    rw [← h3]
    exact hn.2.2 _ (List.mem_map.2 ⟨y, hy, rfl⟩) _ List.mem_cons_self
  have hb : ∀ y ∈ b, name y ≠ name t := by
    intro y hy he
    rw [← h3] at he
    exact hn.2.1.1 (List.mem_map.2 ⟨y, hy, he⟩)
  simp only [List.mem_append, List.mem_cons]
  constructor
  · rintro (h | h | h)
    · exact .inr ⟨.inl h, ha x h⟩
    · exact .inl h
    · exact .inr ⟨.inr (.inr h), hb x h⟩
  · rintro (h | ⟨h | h | h, h'⟩)
    · exact .inr (.inl h)
    · exact .inl h
    · subst h; exact absurd h3 h'
    · exact .inr (.inr h)

theorem add_new {s : List T} {t : T} (hf : find (name t) s = none) (ht : name t ≠ [] ∧ isNone t = false) : (add t s).1 = s ++ [t] := by
  rw [add, if_neg]
  rintro (h | h | h)
  · rw [ht.2] at h; cases h
  · exact ht.1 h
  · rw [hf] at h; cases h

theorem combine_ok : ∀ {s2 s1 : List T}, Valid s1 → Valid s2 → Valid (combine s1 s2) ∧
    ∀ x, x ∈ combine s1 s2 ↔ x ∈ s2 ∨ (x ∈ s1 ∧ ∀ u ∈ s2, name u ≠ name x)
  | [], s1, h1, _ => ⟨h1, fun x => by simp [combine]⟩
  | t :: s2, s1, h1, h2 => by
    have h2n := h2.1
    rw [List.map_cons, List.nodup_cons] at h2n
    have h2' : Valid s2 := ⟨h2n.2, fun u hu => h2.2 u (List.mem_cons_of_mem _ hu)⟩
    have ht := h2.2 t List.mem_cons_self
    have htn : ∀ u ∈ s2, name u ≠ name t := fun u hu he => h2n.1 (List.mem_map.2 ⟨u, hu, he⟩)
    rw [combine]
    cases hf : find (name t) s1 with
    | some u =>
      simp only
      obtain ⟨hv, hm⟩ := combine_ok (s1 := replace t s1) (replace_valid hf h1 ht) h2'
      refine ⟨hv, fun x => ?_⟩
      rw [hm, replace_mem hf h1]
      simp only [List.mem_cons, forall_eq_or_imp]
      constructor
      · rintro (h | ⟨rfl | ⟨h, h'⟩, h''⟩)
        · exact .inl (.inr h)
        · exact .inl (.inl rfl)
        · exact .inr ⟨h, Ne.symm h', h''⟩
      · rintro ((rfl | h) | ⟨h, h', h''⟩)
        · exact .inr ⟨.inl rfl, htn⟩
        · exact .inl h
        · exact .inr ⟨.inr ⟨h, Ne.symm h'⟩, h''⟩
    | none =>
      simp only
      rw [add_new hf ht]
      obtain ⟨hv, hm⟩ := combine_ok (s1 := s1 ++ [t]) (valid_append h1 (find_none.1 hf) ht) h2'
      refine ⟨hv, fun x => ?_⟩
      rw [hm]
      simp only [List.mem_cons, forall_eq_or_imp, List.mem_append, List.mem_nil_iff, or_false]
      constructor
      · rintro (h | ⟨h | rfl, h''⟩)
        · exact .inl (.inr h)
        · exact .inr ⟨h, Ne.symm (find_none.1 hf x h), h''⟩
        · exact .inl (.inl rfl)
      · rintro ((rfl | h) | ⟨h, h', h''⟩)
        · exact .inr ⟨.inr rfl, htn⟩
        · exact .inl h
        · exact .inr ⟨.inl h, h''⟩

/-! ### Properties -/

/-- C53: however a schema was made, no two of its types have the same name, none has an empty name and none is none. -/
theorem C53_valid (s : List T) (h : Reachable s) : Valid s := by
  induction h with
  | empty => exact ⟨by simp, by simp⟩
  | @add s t _ ih =>
    by_cases hc : isNone t = true ∨ name t = [] ∨ (find (name t) s).isSome
    · rw [add, if_pos hc]; exact ih
    · rw [add, if_neg hc]
      simp only [not_or] at hc
      refine valid_append ih (find_none.1 ?_) ⟨hc.2.1, by simpa using hc.1⟩
      cases hf : find (name t) s with
      | none => rfl
      | some u => rw [hf] at hc; exact absurd rfl hc.2.2
  | @merge s1 s2 s _ _ hm ih1 ih2 => exact mergeLoop_valid hm ih2 ih1 (fun x hx => .inl hx)
  | @combine s1 s2 _ _ ih1 ih2 => exact (combine_ok ih1 ih2).1

/-- C53: `find` gives the type of a name, if there is one. -/
theorem C53_find (s : List T) (h : Reachable s) (n : List UInt8) (t : T) : find n s = some t ↔ t ∈ s ∧ name t = n := by
  constructor
  · exact find_mem
  · rintro ⟨ht, rfl⟩; exact find_unique (C53_valid s h).1 ht

/-- C53: `add` adds a type that has a new name, and says so; otherwise nothing changes. -/
theorem C53_add (s : List T) (t : T) :
    ((add t s).2 = true ↔ isNone t = false ∧ name t ≠ [] ∧ ∀ u ∈ s, name u ≠ name t) ∧
    ((add t s).2 = true → ∀ x, x ∈ (add t s).1 ↔ x ∈ s ∨ x = t) ∧ ((add t s).2 = false → (add t s).1 = s) := by
  by_cases hc : isNone t = true ∨ name t = [] ∨ (find (name t) s).isSome
  · rw [add, if_pos hc]
    refine ⟨⟨(fun h => by cases h), ?_⟩, (fun h => by cases h), fun _ => rfl⟩
    rintro ⟨h1, h2, h3⟩
    rcases hc with h | h | h
    · rw [h1] at h; cases h
    · exact absurd h h2
    · rw [find_none.2 h3] at h; cases h
  · rw [add, if_neg hc]
    simp only [not_or] at hc
    refine ⟨⟨fun _ => ⟨by simpa using hc.1, hc.2.1, find_none.1 ?_⟩, fun _ => rfl⟩, fun _ x => by simp, (fun h => by cases h)⟩
    cases hf : find (name t) s with
    | none => rfl
    | some u => rw [hf] at hc; exact absurd rfl hc.2.2

/-- C53: merging fails exactly if the schemas have different types of the same name. -/
theorem C53_merge_fails (s1 s2 : List T) (h2 : Reachable s2) :
    merge s1 s2 = none ↔ ∃ t ∈ s1, ∃ u ∈ s2, name t = name u ∧ t ≠ u := by
  rw [merge, mergeLoop_none]
  constructor
  · rintro ⟨t, ht, u, hu, h⟩; exact ⟨t, ht, u, (find_mem hu).1, (find_mem hu).2.symm, h⟩
  · rintro ⟨t, ht, u, hu, hn, h⟩
    exact ⟨t, ht, u, by rw [hn]; exact find_unique (C53_valid s2 h2).1 hu, h⟩

/-- C53: the merged schema has the types of both. -/
theorem C53_merge (s1 s2 s : List T) (h : merge s1 s2 = some s) (t : T) : t ∈ s ↔ t ∈ s1 ∨ t ∈ s2 := by
  rw [mergeLoop_mem h (fun _ h => h) t]
  exact or_comm

/-- C53: the combined schema has the types of the right side and those of the left side with other names. -/
theorem C53_combine (s1 s2 : List T) (h1 : Reachable s1) (h2 : Reachable s2) (t : T) :
    t ∈ combine s1 s2 ↔ t ∈ s2 ∨ (t ∈ s1 ∧ ∀ u ∈ s2, name u ≠ name t) :=
  (combine_ok (C53_valid s1 h1) (C53_valid s2 h2)).2 t

/-! Examples: types are pairs of a name and a number, and 0 is the none type. -/

instance : Types (List UInt8 × Nat) where
  name t := t.1
  isNone t := t.2 == 0

def left : List (List UInt8 × Nat) := (add ([98], 2) (add ([97], 1) []).1).1
def right : List (List UInt8 × Nat) := (add ([99], 4) (add ([98], 3) []).1).1

theorem left_reachable : Reachable left := .add _ (.add _ .empty)
theorem right_reachable : Reachable right := .add _ (.add _ .empty)

example : left = [([97], 1), ([98], 2)] ∧ merge left right = none ∧
    combine left right = [([97], 1), ([98], 3), ([99], 4)] ∧
    merge left [([98], 2), ([100], 5)] = some [([98], 2), ([100], 5), ([97], 1)] := by decide

end Verif.Schema
