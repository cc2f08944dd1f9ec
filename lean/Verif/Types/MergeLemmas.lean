import Verif.Types.Merge
import Verif.Types.MergeSpec

/-! # Lemmas about merging record types -/

namespace Verif.Types
open Spec

variable {τ : Type} [DecidableEq τ]

/-- Path and type of the leaves of a type. -/
def colsOf (t : Ty τ) : List (List Name × Ty τ) := (leavesOf t).map strip

/-- Path and type of the leaves of a list of fields. -/
def cols (l : List (Name × Ty τ)) : List (List Name × Ty τ) :=
  l.flatMap fun f => (colsOf f.2).map fun x => (f.1 :: x.1, x.2)

omit [DecidableEq τ] in
theorem columns_eq : ∀ fs : Fields τ, columns fs = cols fs.toList := by
  have : ∀ (fs : Fields τ) (i : Nat), (leaves i fs).map strip = cols fs.toList := by
    intro fs
    induction fs using Fields.rec (motive_1 := fun _ => True) with
    | leaf | alias | record => trivial
    | nil => intro i; rfl
    | cons n t rest _ ih =>
      intro i
      rw [leaves, List.map_append, ih (i + 1)]
      show _ = (colsOf t).map (fun x => (n :: x.1, x.2)) ++ cols rest.toList
      rw [colsOf, List.map_map, List.map_map]
      rfl
  exact fun fs => this fs 0

omit [DecidableEq τ] in
theorem colsOf_record (m : Meta) (fs : Fields τ) : colsOf (.record m fs) = cols fs.toList := columns_eq fs

omit [DecidableEq τ] in
theorem mem_cols {l : List (Name × Ty τ)} {x : List Name × Ty τ} :
    x ∈ cols l ↔ ∃ n t y, (n, t) ∈ l ∧ y ∈ colsOf t ∧ x = (n :: y.1, y.2) := by
  simp only [cols, List.mem_flatMap, List.mem_map]
  constructor
  · rintro ⟨⟨n, t⟩, h1, y, h2, rfl⟩; exact ⟨n, t, y, h1, h2, rfl⟩
  · rintro ⟨n, t, y, h1, h2, rfl⟩; exact ⟨(n, t), h1, y, h2, rfl⟩

omit [DecidableEq τ] in
theorem cols_append (l l' : List (Name × Ty τ)) : cols (l ++ l') = cols l ++ cols l' := by simp [cols]

omit [DecidableEq τ] in
theorem lookup_split {n : Name} {t : Ty τ} : ∀ {l : List (Name × Ty τ)}, lookup n l = some t →
    ∃ a b, l = a ++ (n, t) :: b ∧ ∀ t', update n t' l = a ++ (n, t') :: b
  | (n', s) :: l, h => by
    rw [lookup] at h
    by_cases hn : n' = n
    · rw [if_pos hn] at h
      cases h; subst hn
      exact ⟨[], l, rfl, fun t' => by rw [update, if_pos rfl]; rfl⟩
    · rw [if_neg hn] at h
      obtain ⟨a, b, rfl, h2⟩ := lookup_split h
      exact ⟨(n', s) :: a, b, rfl, fun t' => by rw [update, if_neg hn, h2]; rfl⟩

omit [DecidableEq τ] in
theorem mem_cols_update {n : Name} {lt rt t' : Ty τ} {l : List (Name × Ty τ)} (h : lookup n l = some lt)
    (ht : ∀ y, y ∈ colsOf t' ↔ y ∈ colsOf lt ∨ y ∈ colsOf rt) (x : List Name × Ty τ) :
    x ∈ cols (update n t' l) ↔ x ∈ cols l ∨ x ∈ cols [(n, rt)] := by
  obtain ⟨a, b, rfl, h2⟩ := lookup_split h
  rw [h2, cols_append, cols_append, show (n, t') :: b = [(n, t')] ++ b from rfl,
    show (n, lt) :: b = [(n, lt)] ++ b from rfl, cols_append, cols_append]
  have hx : x ∈ cols [(n, t')] ↔ x ∈ cols [(n, lt)] ∨ x ∈ cols [(n, rt)] := by
    simp only [mem_cols, List.mem_singleton]
    constructor
    · rintro ⟨_, _, y, h, hy, rfl⟩
      cases h
      rcases (ht y).1 hy with h | h
      · exact .inl ⟨n, lt, y, rfl, h, rfl⟩
      · exact .inr ⟨n, rt, y, rfl, h, rfl⟩
    · rintro (⟨_, _, y, h, hy, rfl⟩ | ⟨_, _, y, h, hy, rfl⟩) <;> cases h
      · exact ⟨n, t', y, rfl, (ht y).2 (.inl hy), rfl⟩
      · exact ⟨n, t', y, rfl, (ht y).2 (.inr hy), rfl⟩
  simp only [List.mem_append, hx]
  constructor
  · rintro (h | (h | h) | h) <;> simp [h]
  · rintro ((h | h | h) | h) <;> simp [h]

mutual
theorem mergeLoop_cols : ∀ (gs : Fields τ) (ls ext : List (Name × Ty τ)) (r : List (Name × Ty τ) × List (Name × Ty τ)),
    mergeLoop ls ext gs = some r → ∀ x, x ∈ cols (r.1 ++ r.2) ↔ x ∈ cols (ls ++ ext) ∨ x ∈ cols gs.toList
  | .nil, ls, ext, r, h, x => by
    rw [mergeLoop] at h; cases h
    simp [Fields.toList, cols]
  | .cons n t rest, ls, ext, r, h, x => by
    have hc : cols (Fields.cons n t rest).toList = cols [(n, t)] ++ cols rest.toList := by
      rw [← cols_append]; rfl
    rw [hc]
    rw [mergeLoop] at h
    cases hl : lookup n ls with
    | none =>
      rw [hl] at h
      rw [mergeLoop_cols rest _ _ r h x, ← List.append_assoc, cols_append _ [(n, t)]]
      simp only [List.mem_append, or_assoc]
    | some lt =>
      rw [hl] at h
      simp only at h
      by_cases he : lt = t
      · subst he
        rw [if_pos rfl] at h
        rw [mergeLoop_cols rest ls ext r h x, List.mem_append]
        have hin : x ∈ cols [(n, lt)] → x ∈ cols (ls ++ ext) := by
          obtain ⟨a, b, rfl, _⟩ := lookup_split hl
          rw [cols_append, cols_append, show (n, lt) :: b = [(n, lt)] ++ b from rfl, cols_append]
          intro h; simp [h]
        constructor
        · rintro (h | h)
          · exact .inl h
          · exact .inr (.inr h)
        · rintro (h | h | h)
          · exact .inl h
          · exact .inl (hin h)
          · exact .inr h
      · rw [if_neg he] at h
        cases hm : mergeTy lt t with
        | none => rw [hm] at h; cases h
        | some t' =>
          rw [hm, Option.bind_some] at h
          rw [mergeLoop_cols rest _ ext r h x, cols_append, cols_append, List.mem_append, List.mem_append, List.mem_append,
            mem_cols_update hl (mergeTy_cols t lt t' hm) x]
          constructor
          · rintro (((h | h) | h) | h) <;> simp [h]
          · rintro ((h | h) | h | h) <;> simp [h]

theorem mergeTy_cols : ∀ (t lt t' : Ty τ), mergeTy lt t = some t' → ∀ y, y ∈ colsOf t' ↔ y ∈ colsOf lt ∨ y ∈ colsOf t
  | .leaf _, lt, t', h, y => by rw [mergeTy] at h; cases h
  | .alias _, lt, t', h, y => by rw [mergeTy] at h; cases h
  | .record m' gs, lt, t', h, y => by
    cases lt with
    | leaf _ => simp [mergeTy] at h
    | alias _ => simp [mergeTy] at h
    | record m fs =>
      rw [mergeTy] at h
      cases hl : mergeLoop fs.toList [] gs with
      | none => rw [hl] at h; cases h
      | some r =>
        rw [hl] at h; cases h
        rw [colsOf_record, colsOf_record, colsOf_record, toList_ofList, mergeLoop_cols gs _ _ r hl y, List.append_nil]
end

omit [DecidableEq τ] in
theorem lookup_update_ne {n k : Name} (h : k ≠ n) (t : Ty τ) : ∀ l : List (Name × Ty τ), lookup k (update n t l) = lookup k l
  | [] => rfl
  | (n', s) :: l => by
    rw [update]
    by_cases hn : n' = n
    · subst hn; rw [if_pos rfl, lookup, lookup, if_neg (Ne.symm h), if_neg (Ne.symm h)]
    · rw [if_neg hn, lookup, lookup, lookup_update_ne h t l]

omit [DecidableEq τ] in
theorem lookup_update_self {n : Name} {s : Ty τ} (t : Ty τ) : ∀ {l : List (Name × Ty τ)}, lookup n l = some s →
    lookup n (update n t l) = some t
  | (n', s') :: l, h => by
    rw [lookup] at h
    rw [update]
    by_cases hn : n' = n
    · rw [if_pos hn, lookup, if_pos hn]
    · rw [if_neg hn] at h ⊢
      rw [lookup, if_neg hn]
      exact lookup_update_self t h

omit [DecidableEq τ] in
theorem lookup_append (n : Name) : ∀ (l l' : List (Name × Ty τ)), lookup n (l ++ l') = (lookup n l).or (lookup n l')
  | [], l' => by simp [lookup]
  | (n', s) :: l, l' => by
    rw [List.cons_append, lookup, lookup]
    by_cases hn : n' = n
    · rw [if_pos hn, if_pos hn]; rfl
    · rw [if_neg hn, if_neg hn, lookup_append n l l']

omit [DecidableEq τ] in
theorem lookup_none {n : Name} : ∀ {l : List (Name × Ty τ)}, lookup n l = none ↔ n ∉ l.map (·.1)
  | [] => by simp [lookup]
  | (n', s) :: l => by
    rw [lookup]
    by_cases hn : n' = n
    · simp [hn]
    · rw [if_neg hn, lookup_none]; simp [Ne.symm hn]

omit [DecidableEq τ] in
theorem lookup_iff {n : Name} {t : Ty τ} : ∀ {l : List (Name × Ty τ)}, (l.map (·.1)).Nodup →
    (lookup n l = some t ↔ (n, t) ∈ l)
  | [], _ => by simp [lookup]
  | (n', s) :: l, h => by
    rw [List.map_cons, List.nodup_cons] at h
    rw [lookup]
    by_cases hn : n' = n
    · subst hn
      rw [if_pos rfl]
      constructor
      · intro h; cases h; simp
      · intro h'
        rcases List.mem_cons.1 h' with h' | h'
        · cases h'; rfl
        · exact absurd (List.mem_map.2 ⟨_, h', rfl⟩) h.1
    · rw [if_neg hn, lookup_iff h.2, List.mem_cons]
      simp [Ne.symm hn]

omit [DecidableEq τ] in
theorem names_update (n : Name) (t : Ty τ) : ∀ l : List (Name × Ty τ), (update n t l).map (·.1) = l.map (·.1)
  | [] => rfl
  | (n', s) :: l => by
    rw [update]
    by_cases hn : n' = n
    · rw [if_pos hn]; rfl
    · rw [if_neg hn, List.map_cons, names_update n t l]; rfl

omit [DecidableEq τ] in
theorem unique_mem {fs : Fields τ} (h : UniqueNames fs) {n : Name} {m : Meta} {gs : Fields τ}
    (hm : (n, Ty.record m gs) ∈ fs.toList) : UniqueNames gs := by
  obtain ⟨_, h2⟩ := h
  obtain ⟨x, hx⟩ := List.mem_iff_getElem?.1 hm
  exact h2 x n m gs hx

omit [DecidableEq τ] in
theorem unique_nodup {fs : Fields τ} (h : UniqueNames fs) : (fs.toList.map (·.1)).Nodup := by
  obtain ⟨h1, _⟩ := h
  exact h1

omit [DecidableEq τ] in
theorem unique_cons {n : Name} {t : Ty τ} {rest : Fields τ} (h : UniqueNames (.cons n t rest)) :
    UniqueNames rest ∧ n ∉ rest.toList.map (·.1) ∧ ∀ m gs, t = .record m gs → UniqueNames gs := by
  obtain ⟨h1, h2⟩ := h
  rw [Fields.toList, List.map_cons, List.nodup_cons] at h1
  refine ⟨⟨h1.2, fun x n' m gs hx => h2 (x + 1) n' m gs (by simpa [Fields.toList] using hx)⟩, h1.1, ?_⟩
  rintro m gs rfl
  exact h2 0 n m gs rfl

/-! When merging fails -/

mutual
theorem mergeLoop_none : ∀ (gs : Fields τ) (ls ext : List (Name × Ty τ)), UniqueNames gs →
    (∀ n m fs', lookup n ls = some (.record m fs') → n ∈ gs.toList.map (·.1) → UniqueNames fs') →
    (mergeLoop ls ext gs = none ↔ ∃ n a b, lookup n ls = some a ∧ (n, b) ∈ gs.toList ∧ a ≠ b ∧
      (¬ (a.isRecord = true ∧ b.isRecord = true) ∨ ∃ m fs' m' gs', a = .record m fs' ∧ b = .record m' gs' ∧ Conflict fs' gs'))
  | .nil, ls, ext, _, _ => by rw [mergeLoop]; simp [Fields.toList]
  | .cons n t rest, ls, ext, hu, hul => by
    obtain ⟨hu1, hu2, hu3⟩ := unique_cons hu
    have hul' : ∀ k m fs', lookup k ls = some (.record m fs') → k ∈ rest.toList.map (·.1) → UniqueNames fs' := by
      intro k m fs' h1 h2
      exact hul k m fs' h1 (by rw [Fields.toList, List.map_cons]; exact List.mem_cons_of_mem _ h2)
    -- a conflict of another field
    have hsplit : ∀ (P : Name → Ty τ → Ty τ → Prop), (∃ k a b, lookup k ls = some a ∧ (k, b) ∈ (Fields.cons n t rest).toList ∧ P k a b) ↔
        (∃ a, lookup n ls = some a ∧ P n a t) ∨ ∃ k a b, lookup k ls = some a ∧ (k, b) ∈ rest.toList ∧ P k a b := by
      intro P
      constructor
      · rintro ⟨k, a, b, h1, h2, h3⟩
        rcases List.mem_cons.1 h2 with h2 | h2
        · cases h2; exact .inl ⟨a, h1, h3⟩
        · exact .inr ⟨k, a, b, h1, h2, h3⟩
      · rintro (⟨a, h1, h3⟩ | ⟨k, a, b, h1, h2, h3⟩)
        · exact ⟨n, a, t, h1, List.mem_cons_self, h3⟩
        · exact ⟨k, a, b, h1, List.mem_cons_of_mem _ h2, h3⟩
    rw [hsplit]
    rw [mergeLoop]
    cases hl : lookup n ls with
    | none =>
      simp only
      rw [mergeLoop_none rest ls _ hu1 hul']
      simp
    | some lt =>
      simp only
      by_cases he : lt = t
      · rw [if_pos he, mergeLoop_none rest ls ext hu1 hul']
        simp [he]
      · rw [if_neg he]
        have hty := mergeTy_none t lt hu3 (by
          rintro m fs' rfl
          exact hul n m fs' hl (by rw [Fields.toList, List.map_cons]; exact List.mem_cons_self))
        cases hm : mergeTy lt t with
        | none =>
          rw [Option.bind_none]
          simp only [true_iff]
          exact .inl ⟨lt, rfl, he, hty.1 hm⟩
        | some t' =>
          have hn : ¬ (¬ (lt.isRecord = true ∧ t.isRecord = true) ∨
              ∃ m fs' m' gs', lt = .record m fs' ∧ t = .record m' gs' ∧ Conflict fs' gs') := by
            intro h; rw [hty.2 h] at hm; cases hm
          rw [Option.bind_some, mergeLoop_none rest (update n t' ls) ext hu1 (by
            intro k m fs' h1 h2
            have hk : k ≠ n := by rintro rfl; exact hu2 h2
            rw [lookup_update_ne hk] at h1
            exact hul' k m fs' h1 h2)]
          constructor
          · rintro ⟨k, a, b, h1, h2, h3⟩
            have hk : k ≠ n := by
              rintro rfl; exact hu2 (List.mem_map.2 ⟨_, h2, rfl⟩)
            rw [lookup_update_ne hk] at h1
            exact .inr ⟨k, a, b, h1, h2, h3⟩
          · rintro (⟨a, h1, h3, h4⟩ | ⟨k, a, b, h1, h2, h3⟩)
            · cases h1; exact absurd h4 hn
            · have hk : k ≠ n := by
                rintro rfl; exact hu2 (List.mem_map.2 ⟨_, h2, rfl⟩)
              exact ⟨k, a, b, by rw [lookup_update_ne hk]; exact h1, h2, h3⟩

theorem mergeTy_none : ∀ (t lt : Ty τ), (∀ m gs, t = .record m gs → UniqueNames gs) →
    (∀ m fs, lt = .record m fs → UniqueNames fs) →
    (mergeTy lt t = none ↔ ¬ (lt.isRecord = true ∧ t.isRecord = true) ∨
      ∃ m fs' m' gs', lt = .record m fs' ∧ t = .record m' gs' ∧ Conflict fs' gs')
  | .leaf _, lt, _, _ => by rw [mergeTy]; simp [Ty.isRecord]
  | .alias _, lt, _, _ => by rw [mergeTy]; simp [Ty.isRecord]
  | .record m' gs, lt, hu, hul => by
    cases lt with
    | leaf _ => simp [mergeTy, Ty.isRecord]
    | alias _ => simp [mergeTy, Ty.isRecord]
    | record m fs =>
      rw [mergeTy]
      have hfs := hul m fs rfl
      have hgs := hu m' gs rfl
      simp only [Option.map_eq_none_iff]
      rw [mergeLoop_none gs fs.toList [] hgs (by
        intro n k fs' h _
        exact unique_mem hfs ((lookup_iff (unique_nodup hfs)).1 h))]
      constructor
      · rintro ⟨n, a, b, h1, h2, h3, h4⟩
        have h1 := (lookup_iff (unique_nodup hfs)).1 h1
        refine .inr ⟨m, fs, m', gs, rfl, rfl, ?_⟩
        rcases h4 with h4 | ⟨k, fs', k', gs', rfl, rfl, h4⟩
        · exact .here h1 h2 h3 h4
        · exact .there h1 h2 h3 h4
      · rintro (h | ⟨k, fs', k', gs', h1, h2, h3⟩)
        · simp [Ty.isRecord] at h
        · cases h1; cases h2
          cases h3 with
          | @here _ _ n a b h1 h2 h3 h4 => exact ⟨n, a, b, (lookup_iff (unique_nodup hfs)).2 h1, h2, h3, .inl h4⟩
          | @there _ _ fs' gs' n k k' h1 h2 h3 h4 =>
            exact ⟨n, _, _, (lookup_iff (unique_nodup hfs)).2 h1, h2, h3, .inr ⟨_, _, _, _, rfl, rfl, h4⟩⟩
end

/-! Priorities -/

/-- What `priority_merge` makes of the types of a field. -/
def prioField (right : Bool) (a b : Option (Ty τ)) : Option (Ty τ) :=
  match a, b with
  | none, b => b
  | some a, none => some a
  | some a, some b => some (if a = b then a else prioTy right a b)

theorem prioLoop_lookup (right : Bool) : ∀ (gs : Fields τ) (ls ext : List (Name × Ty τ)), UniqueNames gs →
    (∀ n, n ∈ gs.toList.map (·.1) → n ∉ ext.map (·.1)) → (∀ n, lookup n ls ≠ none → n ∉ ext.map (·.1)) → ∀ n,
    lookup n ((prioLoop right ls ext gs).1 ++ (prioLoop right ls ext gs).2) =
      prioField right (lookup n (ls ++ ext)) (lookup n gs.toList)
  | .nil, ls, ext, _, _, _, n => by
    rw [prioLoop]
    simp only [Fields.toList, lookup, prioField]
    cases lookup n (ls ++ ext) <;> rfl
  | .cons k t rest, ls, ext, hu, he, hl, n => by
    obtain ⟨hu1, hu2, hu3⟩ := unique_cons hu
    have hk : k ∉ ext.map (·.1) := he k (by rw [Fields.toList, List.map_cons]; exact List.mem_cons_self)
    have he' : ∀ n, n ∈ rest.toList.map (·.1) → n ∉ ext.map (·.1) := fun n h =>
      he n (by rw [Fields.toList, List.map_cons]; exact List.mem_cons_of_mem _ h)
    rw [prioLoop]
    cases hlk : lookup k ls with
    | none =>
      simp only
      rw [prioLoop_lookup right rest ls (ext ++ [(k, t)]) hu1 (by
        intro n' h
        simp only [List.map_append, List.mem_append, not_or]
        refine ⟨he' n' h, ?_⟩
        simp; rintro rfl; exact hu2 h) (by
        intro n' h
        simp only [List.map_append, List.mem_append, not_or]
        refine ⟨hl n' h, ?_⟩
        simp; rintro rfl; exact h hlk)]
      rw [Fields.toList, lookup, ← List.append_assoc, lookup_append]
      by_cases hn : k = n
      · subst hn
        rw [if_pos rfl, lookup_none.2 hu2, lookup_append, hlk, lookup_none.2 hk]
        simp [prioField, lookup]
      · rw [if_neg hn]
        have : lookup n [(k, t)] = none := by rw [lookup, if_neg hn, lookup]
        rw [this, Option.or_none]
    | some lt =>
      simp only
      by_cases hlt : lt = t
      · rw [if_pos hlt, prioLoop_lookup right rest ls ext hu1 he' hl, Fields.toList, lookup]
        by_cases hn : k = n
        · subst hn
          rw [if_pos rfl, lookup_none.2 hu2, lookup_append, hlk, hlt]
          simp [prioField]
        · rw [if_neg hn]
      · rw [if_neg hlt, prioLoop_lookup right rest (update k (prioTy right lt t) ls) ext hu1 he' (by
          intro n' h
          by_cases hn : n' = k
          · subst hn; exact hk
          · rw [lookup_update_ne hn] at h; exact hl n' h), Fields.toList, lookup]
        by_cases hn : k = n
        · subst hn
          rw [if_pos rfl, lookup_none.2 hu2, lookup_append, lookup_append, hlk, lookup_update_self _ hlk]
          simp [prioField, hlt]
        · rw [if_neg hn, lookup_append, lookup_append, lookup_update_ne (Ne.symm hn)]

theorem prioLoop_names (right : Bool) : ∀ (gs : Fields τ) (ls ext : List (Name × Ty τ)), UniqueNames gs →
    (∀ n, n ∈ gs.toList.map (·.1) → n ∉ ext.map (·.1)) → ((ls ++ ext).map (·.1)).Nodup →
    (((prioLoop right ls ext gs).1 ++ (prioLoop right ls ext gs).2).map (·.1)).Nodup
  | .nil, ls, ext, _, _, h => by rw [prioLoop]; exact h
  | .cons k t rest, ls, ext, hu, he, h => by
    obtain ⟨hu1, hu2, hu3⟩ := unique_cons hu
    have hk : k ∉ ext.map (·.1) := he k (by rw [Fields.toList, List.map_cons]; exact List.mem_cons_self)
    have he' : ∀ n, n ∈ rest.toList.map (·.1) → n ∉ ext.map (·.1) := fun n h =>
      he n (by rw [Fields.toList, List.map_cons]; exact List.mem_cons_of_mem _ h)
    rw [prioLoop]
    cases hlk : lookup k ls with
    | none =>
      simp only
      refine prioLoop_names right rest ls (ext ++ [(k, t)]) hu1 ?_ ?_
      · intro n' h
        simp only [List.map_append, List.mem_append, not_or]
        refine ⟨he' n' h, ?_⟩
        simp; rintro rfl; exact hu2 h
      · rw [← List.append_assoc, List.map_append, List.nodup_append]
        refine ⟨h, by simp, ?_⟩
        intro a ha b hb
        simp at hb; subst hb
        rintro rfl
        rw [List.map_append, List.mem_append] at ha
        rcases ha with ha | ha
        · exact lookup_none.1 hlk ha
        · exact hk ha
    | some lt =>
      simp only
      by_cases hlt : lt = t
      · rw [if_pos hlt]; exact prioLoop_names right rest ls ext hu1 he' h
      · rw [if_neg hlt]
        refine prioLoop_names right rest _ ext hu1 he' ?_
        rw [List.map_append, names_update, ← List.map_append]
        exact h

omit [DecidableEq τ] in
theorem mem_cols_lookup {l : List (Name × Ty τ)} (h : (l.map (·.1)).Nodup) {x : List Name × Ty τ} :
    x ∈ cols l ↔ ∃ n t y, lookup n l = some t ∧ y ∈ colsOf t ∧ x = (n :: y.1, y.2) := by
  rw [mem_cols]
  constructor
  · rintro ⟨n, t, y, h1, h2⟩; exact ⟨n, t, y, (lookup_iff h).2 h1, h2⟩
  · rintro ⟨n, t, y, h1, h2⟩; exact ⟨n, t, y, (lookup_iff h).1 h1, h2⟩

/-- A type has a field or a leaf on the way to a path within it. -/
def definesIn (p : List Name) (t : Ty τ) : Prop :=
  match t with
  | .record _ fs => p = [] ∨ Defines fs p
  | _ => True

omit [DecidableEq τ] in
theorem defines_iff {fs : Fields τ} (h : UniqueNames fs) {n : Name} {p : List Name} :
    Defines fs (n :: p) ↔ ∃ t, lookup n fs.toList = some t ∧ definesIn p t := by
  constructor
  · rintro (⟨o, t, h1⟩ | ⟨c, h1, h2⟩)
    · cases h1 with
      | here hx =>
        refine ⟨t, (lookup_iff (unique_nodup h)).2 (List.mem_of_getElem? hx), ?_⟩
        cases t with
        | record m gs => exact .inl rfl
        | leaf _ => trivial
        | alias _ => trivial
      | @there _ gs _ _ m o _ _ hx hy =>
        exact ⟨_, (lookup_iff (unique_nodup h)).2 (List.mem_of_getElem? hx), .inr (.inl ⟨o, t, hy⟩)⟩
    · rw [columns_eq] at h1
      obtain ⟨n', t, y, h3, h4, rfl⟩ := mem_cols.1 h1
      simp only [List.cons_prefix_cons] at h2
      obtain ⟨rfl, h2⟩ := h2
      refine ⟨t, (lookup_iff (unique_nodup h)).2 h3, ?_⟩
      cases t with
      | record m gs => exact .inr (.inr ⟨y, by rw [columns_eq, ← colsOf_record m]; exact h4, h2⟩)
      | leaf _ => trivial
      | alias _ => trivial
  · rintro ⟨t, h1, h2⟩
    have h1 := (lookup_iff (unique_nodup h)).1 h1
    obtain ⟨x, hx⟩ := List.mem_iff_getElem?.1 h1
    have leafCase : ∀ (t' : Ty τ), (n, t') ∈ fs.toList → ([], t') ∈ colsOf t' → Defines fs (n :: p) := by
      intro t' hm ht
      refine .inr ⟨([n], t'), ?_, by simp⟩
      rw [columns_eq]
      exact mem_cols.2 ⟨n, t', ([], t'), hm, ht, rfl⟩
    cases t with
    | leaf s => exact leafCase _ h1 (by simp [colsOf, leavesOf, strip])
    | alias s => exact leafCase _ h1 (by simp [colsOf, leavesOf, strip])
    | record m gs =>
      rcases h2 with rfl | ⟨o, s, h2⟩ | ⟨c, h2, h3⟩
      · exact .inl ⟨[x], _, .here hx⟩
      · exact .inl ⟨x :: o, s, .there hx h2⟩
      · refine .inr ⟨(n :: c.1, c.2), ?_, by simpa using h3⟩
        rw [columns_eq]
        exact mem_cols.2 ⟨n, _, c, h1, by rw [colsOf_record, ← columns_eq]; exact h2, rfl⟩

omit [DecidableEq τ] in
theorem colsOf_leaf {t : Ty τ} (h : t.isRecord = false) : colsOf t = [([], t)] := by
  cases t with
  | leaf _ => rfl
  | alias _ => rfl
  | record _ _ => simp [Ty.isRecord] at h

omit [DecidableEq τ] in
theorem cols_ne_nil {l : List (Name × Ty τ)} {x : List Name × Ty τ} (h : x ∈ cols l) : x.1 ≠ [] := by
  obtain ⟨n, t, y, _, _, rfl⟩ := mem_cols.1 h
  simp

/-- What `prio_cols` says of a type. -/
def PrioOk (right : Bool) (b : Ty τ) : Prop := ∀ (a : Ty τ), (∀ m gs, b = .record m gs → UniqueNames gs) →
    (∀ m fs, a = .record m fs → UniqueNames fs) → ∀ y, y ∈ colsOf (if a = b then a else prioTy right a b) ↔
      (if right then y ∈ colsOf b ∨ (y ∈ colsOf a ∧ ¬ definesIn y.1 b)
       else y ∈ colsOf a ∨ (y ∈ colsOf b ∧ ¬ definesIn y.1 a))

/-- What `prio_cols` says of the types of fields. -/
def PrioOks (right : Bool) (gs : Fields τ) : Prop := ∀ n b, (n, b) ∈ gs.toList → PrioOk right b

/-- The columns of a merged field. -/
theorem prio_cols (right : Bool) : ∀ b : Ty τ, PrioOk right b := by
  have leafDef : ∀ {t : Ty τ} {p : List Name}, t.isRecord = false → definesIn p t := by
    intro t p h
    cases t with
    | leaf _ => trivial
    | alias _ => trivial
    | record _ _ => simp [Ty.isRecord] at h
  have selfDef : ∀ {t : Ty τ} {y : List Name × Ty τ}, y ∈ colsOf t → definesIn y.1 t := by
    intro t y h
    cases t with
    | leaf _ => trivial
    | alias _ => trivial
    | record m gs => exact .inr (.inr ⟨y, by rw [columns_eq, ← colsOf_record m]; exact h, List.prefix_refl _⟩)
  -- one of the two is not a record
  have mixed : ∀ {a b : Ty τ}, ¬ (a.isRecord = true ∧ b.isRecord = true) → ∀ y, y ∈ colsOf a → definesIn y.1 b := by
    intro a b h y hy
    by_cases hb : b.isRecord = true
    · have ha : a.isRecord = false := by
        cases hr : a.isRecord with
        | false => rfl
        | true => exact absurd ⟨hr, hb⟩ h
      rw [colsOf_leaf ha] at hy
      simp at hy; subst hy
      cases b with
      | leaf _ => trivial
      | alias _ => trivial
      | record _ _ => exact .inl rfl
    · exact leafDef (by simpa using hb)
  have done : ∀ {a b c : Ty τ}, a ≠ b → prioTy right a b = (if right then b else a) →
      ¬ (a.isRecord = true ∧ b.isRecord = true) → ∀ y, y ∈ colsOf (if a = b then a else prioTy right a b) ↔
      (if right then y ∈ colsOf b ∨ (y ∈ colsOf a ∧ ¬ definesIn y.1 b)
       else y ∈ colsOf a ∨ (y ∈ colsOf b ∧ ¬ definesIn y.1 a)) := by
    intro a b _ hne hp hm y
    rw [if_neg hne, hp]
    cases right with
    | true =>
      simp only [if_true]
      refine ⟨.inl, ?_⟩
      rintro (h | ⟨h1, h2⟩)
      · exact h
      · exact absurd (mixed hm y h1) h2
    | false =>
      simp only [Bool.false_eq_true, if_false]
      refine ⟨.inl, ?_⟩
      rintro (h | ⟨h1, h2⟩)
      · exact h
      · exact absurd (mixed (fun h => hm ⟨h.2, h.1⟩) y h1) h2
  apply Ty.rec (motive_1 := PrioOk right) (motive_2 := PrioOks right)
  case nil => intro n b h; simp [Fields.toList] at h
  case cons =>
    intro n t rest iht ihr k b h
    rcases List.mem_cons.1 h with h | h
    · cases h; exact iht
    · exact ihr k b h
  case leaf =>
    intro t a _ _ y
    by_cases he : a = .leaf t
    · subst he; cases right <;> simp [definesIn]
    · exact done (c := a) he (by rw [prioTy]) (by simp [Ty.isRecord]) y
  case alias =>
    intro t _ a _ _ y
    by_cases he : a = .alias t
    · subst he; cases right <;> simp [definesIn]
    · exact done (c := a) he (by rw [prioTy]) (by simp [Ty.isRecord]) y
  case record =>
    intro m' gs ih a hb ha y
    by_cases he : a = .record m' gs
    · subst he
      rw [if_pos rfl]
      cases right
      · simp only [Bool.false_eq_true, if_false]
        refine ⟨.inl, ?_⟩
        rintro (h | ⟨h, _⟩) <;> exact h
      · simp only [if_true]
        refine ⟨.inl, ?_⟩
        rintro (h | ⟨h, _⟩) <;> exact h
    · cases a with
      | leaf s => exact done (c := .leaf s) he (by simp [prioTy]) (by simp [Ty.isRecord]) y
      | alias s => exact done (c := .alias s) he (by simp [prioTy]) (by simp [Ty.isRecord]) y
      | record m fs =>
        have hfs := ha m fs rfl
        have hgs := hb m' gs rfl
        have hp : prioTy right (.record m fs) (.record m' gs) = .record (prioMeta right m m')
            (.ofList ((prioLoop right fs.toList [] gs).1 ++ (prioLoop right fs.toList [] gs).2)) := by simp only [prioTy]
        rw [if_neg he, hp, colsOf_record, colsOf_record, colsOf_record, toList_ofList]
        have hnd := prioLoop_names right gs fs.toList [] hgs (by simp) (by simpa using unique_nodup hfs)
        rw [mem_cols_lookup hnd]
        have hlk := prioLoop_lookup right gs fs.toList [] hgs (by simp) (by simp)
        simp only [List.append_nil] at hlk
        have hx : ∀ {n : Name} {a b : Ty τ}, lookup n fs.toList = some a → lookup n gs.toList = some b → ∀ z, z ∈ colsOf (if a = b then a else prioTy right a b) ↔
            (if right then z ∈ colsOf b ∨ (z ∈ colsOf a ∧ ¬ definesIn z.1 b)
             else z ∈ colsOf a ∨ (z ∈ colsOf b ∧ ¬ definesIn z.1 a)) := by
          intro n a b h1 h2
          have h1 := (lookup_iff (unique_nodup hfs)).1 h1
          have h2 := (lookup_iff (unique_nodup hgs)).1 h2
          exact ih n b h2 a (by rintro m gs' rfl; exact unique_mem hgs h2) (by rintro m fs' rfl; exact unique_mem hfs h1)
        have key : (∃ n t z, lookup n ((prioLoop right fs.toList [] gs).1 ++ (prioLoop right fs.toList [] gs).2) = some t ∧
            z ∈ colsOf t ∧ y = (n :: z.1, z.2)) ↔
            (if right then y ∈ cols gs.toList ∨ (y ∈ cols fs.toList ∧ ¬ Defines gs y.1)
              else y ∈ cols fs.toList ∨ (y ∈ cols gs.toList ∧ ¬ Defines fs y.1)) := by
          cases hy : y.1 with
          | nil =>
            constructor
            · rintro ⟨n, t, z, _, _, rfl⟩; simp at hy
            · intro h
              exfalso
              cases right
              · simp only [Bool.false_eq_true, if_false] at h
                rcases h with h | ⟨h, _⟩ <;> exact cols_ne_nil h hy
              · simp only [if_true] at h
                rcases h with h | ⟨h, _⟩ <;> exact cols_ne_nil h hy
          | cons n q =>
            have hcol : ∀ {l : List (Name × Ty τ)}, (l.map (·.1)).Nodup → (y ∈ cols l ↔ ∃ t, lookup n l = some t ∧ (q, y.2) ∈ colsOf t) := by
              intro l hl
              rw [mem_cols_lookup hl]
              constructor
              · rintro ⟨n', t, z, h1, h2, rfl⟩
                simp at hy
                obtain ⟨rfl, rfl⟩ := hy
                exact ⟨t, h1, h2⟩
              · rintro ⟨t, h1, h2⟩
                exact ⟨n, t, (q, y.2), h1, h2, by rw [← hy]⟩
            rw [← mem_cols_lookup hnd, hcol hnd, hlk n, hcol (unique_nodup hfs), hcol (unique_nodup hgs), defines_iff hgs,
              defines_iff hfs]
            cases h1 : lookup n fs.toList with
            | none =>
              cases h2 : lookup n gs.toList with
              | none => cases right <;> simp [prioField]
              | some b => cases right <;> simp [prioField]
            | some a =>
              cases h2 : lookup n gs.toList with
              | none => cases right <;> simp [prioField]
              | some b =>
                have := hx h1 h2 (q, y.2)
                simp only [prioField, Option.some.injEq, exists_eq_left'] at this ⊢
                exact this
        rw [key]
        have hd : ∀ {m : Meta} {gs : Fields τ} {z : List Name × Ty τ} {l : List (Name × Ty τ)}, z ∈ cols l →
            (definesIn z.1 (.record m gs) ↔ Defines gs z.1) := by
          intro m gs z l hz
          refine ⟨?_, .inr⟩
          rintro (h | h)
          · exact absurd h (cols_ne_nil hz)
          · exact h
        cases right
        · simp only [Bool.false_eq_true, if_false]
          constructor
          · rintro (h | ⟨h, h'⟩)
            · exact .inl h
            · exact .inr ⟨h, fun h'' => h' ((hd h).1 h'')⟩
          · rintro (h | ⟨h, h'⟩)
            · exact .inl h
            · exact .inr ⟨h, fun h'' => h' ((hd h).2 h'')⟩
        · simp only [if_true]
          constructor
          · rintro (h | ⟨h, h'⟩)
            · exact .inl h
            · exact .inr ⟨h, fun h'' => h' ((hd h).1 h'')⟩
          · rintro (h | ⟨h, h'⟩)
            · exact .inl h
            · exact .inr ⟨h, fun h'' => h' ((hd h).2 h'')⟩

theorem priorityMerge_columns (right : Bool) (m m' : Meta) (fs gs : Fields τ) (hf : UniqueNames fs) (hg : UniqueNames gs)
    (x : List Name × Ty τ) : x ∈ columns (priorityMerge right m fs m' gs).2 ↔
      (if right then x ∈ columns gs ∨ (x ∈ columns fs ∧ ¬ Defines gs x.1)
       else x ∈ columns fs ∨ (x ∈ columns gs ∧ ¬ Defines fs x.1)) := by
  -- as the field of two different records
  have hd : ∀ {m : Meta} {gs : Fields τ} {z : List Name × Ty τ} {l : List (Name × Ty τ)}, z ∈ cols l →
      (definesIn z.1 (.record m gs) ↔ Defines gs z.1) := by
    intro m gs z l hz
    refine ⟨?_, .inr⟩
    rintro (h | h)
    · exact absurd h (cols_ne_nil hz)
    · exact h
  have key : ∀ m m' : Meta, Ty.record m fs ≠ .record m' gs → (x ∈ columns (priorityMerge right m fs m' gs).2 ↔
      (if right then x ∈ columns gs ∨ (x ∈ columns fs ∧ ¬ Defines gs x.1)
       else x ∈ columns fs ∨ (x ∈ columns gs ∧ ¬ Defines fs x.1))) := by
    intro m m' hne
    have := prio_cols right (.record m' gs) (.record m fs) (by rintro _ _ ⟨⟩; exact hg) (by rintro _ _ ⟨⟩; exact hf) x
    have hp : prioTy right (.record m fs) (.record m' gs) = .record (prioMeta right m m')
        (.ofList ((prioLoop right fs.toList [] gs).1 ++ (prioLoop right fs.toList [] gs).2)) := by simp only [prioTy]
    rw [if_neg hne, hp, colsOf_record, colsOf_record, colsOf_record, ← columns_eq, ← columns_eq, ← columns_eq] at this
    rw [show (priorityMerge right m fs m' gs).2 = .ofList ((prioLoop right fs.toList [] gs).1 ++ (prioLoop right fs.toList [] gs).2) from rfl,
      this]
    cases right
    · simp only [Bool.false_eq_true, if_false]
      constructor
      · rintro (h | ⟨h, h'⟩)
        · exact .inl h
        · exact .inr ⟨h, fun h'' => h' ((hd (columns_eq gs ▸ h)).2 h'')⟩
      · rintro (h | ⟨h, h'⟩)
        · exact .inl h
        · exact .inr ⟨h, fun h'' => h' ((hd (columns_eq gs ▸ h)).1 h'')⟩
    · simp only [if_true]
      constructor
      · rintro (h | ⟨h, h'⟩)
        · exact .inl h
        · exact .inr ⟨h, fun h'' => h' ((hd (columns_eq fs ▸ h)).2 h'')⟩
      · rintro (h | ⟨h, h'⟩)
        · exact .inl h
        · exact .inr ⟨h, fun h'' => h' ((hd (columns_eq fs ▸ h)).1 h'')⟩
  exact key ⟨[], []⟩ ⟨[0], []⟩ (by simp)

mutual
theorem priorityMerge_unique (right : Bool) : ∀ (gs fs : Fields τ), UniqueNames fs → UniqueNames gs →
    UniqueNames (Fields.ofList ((prioLoop right fs.toList [] gs).1 ++ (prioLoop right fs.toList [] gs).2))
  | gs, fs, hf, hg => by
    refine ⟨?_, ?_⟩
    · rw [toList_ofList]
      exact prioLoop_names right gs fs.toList [] hg (by simp) (by simpa using unique_nodup hf)
    · intro x n m hs hx
      rw [toList_ofList] at hx
      have hnd := prioLoop_names right gs fs.toList [] hg (by simp) (by simpa using unique_nodup hf)
      have hlk := prioLoop_lookup right gs fs.toList [] hg (by simp) (by simp) n
      rw [(lookup_iff hnd).2 (List.mem_of_getElem? hx), List.append_nil] at hlk
      cases h1 : lookup n fs.toList with
      | none =>
        rw [h1, prioField] at hlk
        exact unique_mem hg ((lookup_iff (unique_nodup hg)).1 hlk.symm)
      | some a =>
        cases h2 : lookup n gs.toList with
        | none =>
          rw [h1, h2, prioField] at hlk
          cases hlk
          exact unique_mem hf ((lookup_iff (unique_nodup hf)).1 h1)
        | some b =>
          rw [h1, h2, prioField, Option.some.injEq] at hlk
          have hma := (lookup_iff (unique_nodup hf)).1 h1
          have hmb := (lookup_iff (unique_nodup hg)).1 h2
          by_cases he : a = b
          · rw [if_pos he] at hlk
            subst hlk
            exact unique_mem hf hma
          · rw [if_neg he] at hlk
            cases b with
            | leaf t =>
              cases right
              · simp only [prioTy, Bool.false_eq_true, if_false] at hlk
                subst hlk; exact unique_mem hf hma
              · simp [prioTy] at hlk
            | alias t =>
              cases right
              · simp only [prioTy, Bool.false_eq_true, if_false] at hlk
                subst hlk; exact unique_mem hf hma
              · simp [prioTy] at hlk
            | record m' gs' =>
              have hsz : sizeOf gs' < sizeOf gs := mem_sizeOf hmb
              cases a with
              | record m'' fs' =>
                simp only [prioTy] at hlk
                cases hlk
                exact priorityMerge_unique right gs' fs' (unique_mem hf hma) (unique_mem hg hmb)
              | leaf t =>
                cases right
                · simp [prioTy] at hlk
                · simp [prioTy] at hlk; obtain ⟨rfl, rfl⟩ := hlk; exact unique_mem hg hmb
              | alias t =>
                cases right
                · simp [prioTy] at hlk
                · simp [prioTy] at hlk; obtain ⟨rfl, rfl⟩ := hlk; exact unique_mem hg hmb
termination_by gs => sizeOf gs

theorem mem_sizeOf {gs gs' : Fields τ} {n : Name} {m : Meta} (h : (n, Ty.record m gs') ∈ gs.toList) : sizeOf gs' < sizeOf gs := by
  induction gs using Fields.rec (motive_1 := fun _ => True) with
  | leaf | alias | record => trivial
  | nil => simp [Fields.toList] at h
  | cons k t rest _ ih =>
    rcases List.mem_cons.1 h with h | h
    · cases h; simp; omega
    · have := ih h; simp; omega
end

theorem setAttr_find (k k' : Name) (v : Option Name) : ∀ as : List (Name × Option Name),
    (setAttr k' v as).find? (·.1 = k) = if k' = k then some (k, v) else as.find? (·.1 = k)
  | [] => by
    rw [setAttr]
    by_cases h : k' = k
    · subst h; simp
    · simp [h]
  | (a, w) :: as => by
    rw [setAttr]
    by_cases ha : a = k'
    · subst ha
      rw [if_pos rfl]
      by_cases h : a = k
      · subst h; simp
      · simp [h]
    · rw [if_neg ha]
      by_cases h : a = k
      · subst h
        rw [if_neg (Ne.symm ha)]; simp
      · rw [List.find?_cons_of_neg (by simpa using h), setAttr_find k k' v as, List.find?_cons_of_neg (by simpa using h)]

theorem updateAttrs_find : ∀ (as bs : List (Name × Option Name)) (k : Name),
    (updateAttrs as bs).find? (·.1 = k) = (bs.reverse.find? (·.1 = k)).or (as.find? (·.1 = k))
  | as, [], k => by simp [updateAttrs]
  | as, (a, w) :: bs, k => by
    have ih := updateAttrs_find (setAttr a w as) bs k
    have e : updateAttrs as ((a, w) :: bs) = updateAttrs (setAttr a w as) bs := rfl
    rw [e, ih, setAttr_find, List.reverse_cons, List.find?_append, Option.or_assoc]
    by_cases h : a = k
    · subst h; simp
    · simp [h]

end Verif.Types
