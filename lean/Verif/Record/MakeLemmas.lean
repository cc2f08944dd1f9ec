import Verif.Record.Lemmas

/-! # Lemmas about building records -/

namespace Verif.Record
open Spec
open Types (Ty Fields Meta cols colsOf)

variable {α τ : Type}

/-- Induction over a record type and the record types within it. -/
theorem fieldsInduct {P : Fields τ → Prop} (hn : P .nil)
    (hr : ∀ k m gs rest, P gs → P rest → P (.cons k (.record m gs) rest))
    (ho : ∀ k t rest, t.isRecord = false → P rest → P (.cons k t rest)) : ∀ r, P r
  | .nil => hn
  | .cons k (.record m gs) rest => hr k m gs rest (fieldsInduct hn hr ho gs) (fieldsInduct hn hr ho rest)
  | .cons k (.leaf _) rest => ho k _ rest rfl (fieldsInduct hn hr ho rest)
  | .cons k (.alias _) rest => ho k _ rest rfl (fieldsInduct hn hr ho rest)

theorem recordTypes_other {k : Name} {t : Ty τ} {rest : Fields τ} (h : t.isRecord = false) :
    recordTypes (.cons k t rest) = recordTypes rest := by
  cases t with
  | leaf _ => rfl
  | alias _ => rfl
  | record _ _ => simp [Ty.isRecord] at h

theorem noEmpty_other {k : Name} {t : Ty τ} {rest : Fields τ} (h : t.isRecord = false) :
    NoEmptyRecords (.cons k t rest) ↔ NoEmptyRecords rest := by
  cases t with
  | leaf _ => rfl
  | alias _ => rfl
  | record _ _ => simp [Ty.isRecord] at h

theorem makeLoop_other {k : Name} {t : Ty τ} {rest : Fields τ} (h : t.isRecord = false) (n : Nat) (acc : List (Name × D α))
    (x : D α) (xs : List (D α)) : makeLoop n acc (.cons k t rest) (x :: xs) = makeLoop n (emplace acc (k, x)) rest xs := by
  cases t with
  | leaf _ => rfl
  | alias _ => rfl
  | record _ _ => simp [Ty.isRecord] at h

theorem cols_cons (k : Name) (t : Ty τ) (rest : Fields τ) :
    cols (Fields.cons k t rest).toList = (colsOf t).map (fun x => (k :: x.1, x.2)) ++ cols rest.toList := rfl

theorem cols_pos : ∀ fs : Fields τ, fs ≠ .nil → NoEmptyRecords fs → 0 < (cols fs.toList).length := by
  intro fs
  induction fs using fieldsInduct with
  | hn => intro h; exact absurd rfl h
  | hr k m gs rest ih _ =>
    intro _ h
    obtain ⟨h1, h2, _⟩ := h
    rw [cols_cons, Types.colsOf_record, List.length_append, List.length_map]
    have := ih h1 h2
    omega
  | ho k t rest ht _ =>
    intro _ _
    rw [cols_cons, Types.colsOf_leaf ht]
    simp

theorem at_cons_ne {k k' : Name} {p : List Name} {d : D α} {l : List (Name × D α)} (h : k ≠ k') :
    at' (k' :: p) ((k, d) :: l) = at' (k' :: p) l := by
  cases p with
  | nil => rw [at', at', get, if_neg h]
  | cons a p => rw [at', at', get, if_neg h]

theorem at_cons_self {k k' : Name} {p : List Name} {s : R α} {l : List (Name × D α)} :
    at' (k :: k' :: p) ((k, .record s) :: l) = at' (k' :: p) s.toList := by
  rw [at', get, if_pos rfl]

theorem emplace_new {acc : List (Name × D α)} {k : Name} {d : D α} (h : k ∉ acc.map (·.1)) : emplace acc (k, d) = acc ++ [(k, d)] := by
  rw [emplace, show get (k, d).1 acc = none from get_none.2 h]

theorem makeLoop_ok : ∀ (fs : Fields τ), Types.Spec.UniqueNames fs → NoEmptyRecords fs → ∀ (n : Nat) (acc : List (Name × D α))
    (xs : List (D α)), recordTypes fs < n → n < 2 ^ 64 → (∀ k ∈ fs.toList.map (·.1), k ∉ acc.map (·.1)) →
    (cols fs.toList).length ≤ xs.length →
    ∃ es, makeLoop n acc fs xs = some (acc ++ es, xs.drop (cols fs.toList).length) ∧ es.map (·.1) = fs.toList.map (·.1) ∧
      ∀ (i : Nat) p t, (cols fs.toList)[i]? = some (p, t) → at' p es = xs[i]? := by
  intro fs
  induction fs using fieldsInduct with
  | hn =>
    intro _ _ n acc xs _ _ _ _
    exact ⟨[], by simp [makeLoop, cols, Fields.toList], rfl, by intro i p t h; simp [cols, Fields.toList] at h⟩
  | hr k m gs rest ihg ihr =>
    intro hu he n acc xs h h' hacc hl
    obtain ⟨hu1, hu2, hu3⟩ := Types.unique_cons hu
    obtain ⟨he1, he2, he3⟩ := he
    have hrt : recordTypes (Fields.cons k (.record m gs) rest) = recordTypes gs + 1 + recordTypes rest := rfl
    rw [hrt] at h
    rw [cols_cons, Types.colsOf_record] at hl ⊢
    rw [List.length_append, List.length_map] at hl
    have hpos := cols_pos gs he1 he2
    have hdec := dec_eq (by omega : 0 < n) h'
    obtain ⟨es1, h1, h2, h3⟩ := ihg (hu3 m gs rfl) he2 (n - 1) [] xs (by omega) (by omega) (by simp) (by omega)
    have hk : k ∉ acc.map (·.1) := hacc k (by simp [Fields.toList])
    obtain ⟨es2, h4, h5, h6⟩ := ihr hu1 he3 (n - 1) (acc ++ [(k, .record (.ofList es1))]) (xs.drop (cols gs.toList).length)
      (by omega) (by omega) (by
        intro k' hk'
        rw [List.map_append, List.mem_append, not_or]
        refine ⟨hacc k' (by rw [Fields.toList, List.map_cons]; exact List.mem_cons_of_mem _ hk'), ?_⟩
        simp; rintro rfl; exact hu2 hk') (by rw [List.length_drop]; omega)
    refine ⟨(k, .record (.ofList es1)) :: es2, ?_, ?_, ?_⟩
    · cases xs with
      | nil => rw [List.length_nil] at hl; omega
      | cons x xs =>
        rw [makeLoop, hdec, if_neg (by omega), h1, Option.bind_some]
        simp only [List.nil_append]
        rw [emplace_new hk, h4]
        simp [List.append_assoc, List.drop_drop]
    · rw [List.map_cons, h5]; rfl
    · intro i p t hi
      by_cases hi' : i < (cols gs.toList).length
      · rw [List.getElem?_append_left (by simpa using hi'), List.getElem?_map, Option.map_eq_some_iff] at hi
        obtain ⟨⟨q, t'⟩, hq, he⟩ := hi
        cases he
        have hne := Types.cols_ne_nil (List.mem_of_getElem? hq)
        cases q with
        | nil => exact absurd rfl hne
        | cons a q => rw [at_cons_self, toList_ofList]; exact h3 i _ _ hq
      · rw [List.getElem?_append_right (by simpa using hi'), List.length_map] at hi
        obtain ⟨a, s, y, hm, _, he⟩ := Types.mem_cols.1 (List.mem_of_getElem? hi)
        have := h6 _ _ _ hi
        cases he
        have hne : k ≠ a := by rintro rfl; exact hu2 (List.mem_map.2 ⟨_, hm, rfl⟩)
        rw [at_cons_ne hne, this, List.getElem?_drop]
        congr 1
        omega
  | ho k t rest ht ih =>
    intro hu he n acc xs h h' hacc hl
    obtain ⟨hu1, hu2, _⟩ := Types.unique_cons hu
    rw [recordTypes_other ht] at h
    rw [noEmpty_other ht] at he
    rw [cols_cons, Types.colsOf_leaf ht] at hl ⊢
    simp only [List.map_cons, List.map_nil, List.cons_append, List.nil_append, List.length_cons] at hl ⊢
    cases xs with
    | nil => simp at hl
    | cons x xs =>
      have hk : k ∉ acc.map (·.1) := hacc k (by simp [Fields.toList])
      obtain ⟨es, h1, h2, h3⟩ := ih hu1 he n (acc ++ [(k, x)]) xs h h' (by
        intro k' hk'
        rw [List.map_append, List.mem_append, not_or]
        refine ⟨hacc k' (by rw [Fields.toList, List.map_cons]; exact List.mem_cons_of_mem _ hk'), ?_⟩
        simp; rintro rfl; exact hu2 hk') (by simpa using hl)
      refine ⟨(k, x) :: es, ?_, ?_, ?_⟩
      · rw [makeLoop_other ht, emplace_new hk, h1]; simp
      · rw [List.map_cons, h2]; rfl
      · intro i p s hi
        cases i with
        | zero => simp at hi; obtain ⟨rfl, rfl⟩ := hi; simp [at', get]
        | succ i =>
          rw [List.getElem?_cons_succ] at hi ⊢
          obtain ⟨a, s', y, hm, _, he⟩ := Types.mem_cols.1 (List.mem_of_getElem? hi)
          have := h3 _ _ _ hi
          cases he
          have hne : k ≠ a := by rintro rfl; exact hu2 (List.mem_map.2 ⟨_, hm, rfl⟩)
          rw [at_cons_ne hne, this]

/-- However the loop goes on, it takes a value for every leaf. -/
theorem makeLoop_rest : ∀ (fs : Fields τ) (n : Nat) (acc : List (Name × D α)) (xs : List (D α)) r,
    makeLoop n acc fs xs = some r → r.2.length + (cols fs.toList).length = xs.length := by
  intro fs
  induction fs using fieldsInduct with
  | hn => intro n acc xs r h; rw [makeLoop] at h; cases h; simp [cols, Fields.toList]
  | hr k m gs rest ihg ihr =>
    intro n acc xs r h
    rw [cols_cons, Types.colsOf_record, List.length_append, List.length_map]
    cases xs with
    | nil => rw [makeLoop] at h; cases h
    | cons x xs =>
      rw [makeLoop] at h
      by_cases hd : dec n = 0
      · rw [if_pos hd] at h; cases h
      · rw [if_neg hd] at h
        cases hg : makeLoop (dec n) [] gs (x :: xs) with
        | none => rw [hg] at h; cases h
        | some r' =>
          rw [hg, Option.bind_some] at h
          have h1 := ihg _ _ _ _ hg
          have h2 := ihr _ _ _ _ h
          omega
  | ho k t rest ht ih =>
    intro n acc xs r h
    rw [cols_cons, Types.colsOf_leaf ht]
    simp only [List.map_cons, List.map_nil, List.cons_append, List.nil_append, List.length_cons]
    cases xs with
    | nil => cases t <;> cases h
    | cons x xs =>
      rw [makeLoop_other ht] at h
      have := ih _ _ _ _ h
      simp; omega

end Verif.Record
