import Verif.Types.Lemmas

/-! Lemmas on the iteration over the leaves of a record type. -/

namespace Verif.Types
open Spec

variable {τ : Type}

/-- A leaf relative to the current field of an iteration. -/
def withPrefix (st : Each τ) (l : Leaf τ) : Leaf τ := ⟨st.offset ++ l.offset, st.trace ++ l.path, l.type⟩

/-- The leaves behind the current one. -/
def pending : Each τ → List (Leaf τ)
  | [] => []
  | (fs, i) :: st => (leaves (i + 1) (Fields.ofList (fs.drop (i + 1)))).map (withPrefix st) ++ pending st

/-- What holds for the states of an iteration. -/
def Valid (st : Each τ) : Prop := ∀ f ∈ st, f.2 < f.1.length ∧ NoEmptyIn (Fields.ofList f.1)

/-- The leaves from the current one on. -/
def remaining (st : Each τ) : List (Leaf τ) :=
  match st.type with
  | none => []
  | some t => ⟨st.offset, st.trace, t⟩ :: pending st

theorem offset_cons (fs : List (Name × Ty τ)) (i : Nat) (st : Each τ) :
    Each.offset ((fs, i) :: st) = Each.offset st ++ [i] := by simp [Each.offset]

theorem trace_cons {fs : List (Name × Ty τ)} {i : Nat} (st : Each τ) {n : Name} {t : Ty τ} (h : fs[i]? = some (n, t)) :
    Each.trace ((fs, i) :: st) = Each.trace st ++ [n] := by simp [Each.trace, h]

theorem withPrefix_cons {fs : List (Name × Ty τ)} {i : Nat} (st : Each τ) {n : Name} {t : Ty τ}
    (h : fs[i]? = some (n, t)) (l : Leaf τ) : withPrefix ((fs, i) :: st) l = withPrefix st (l.under i n) := by
  simp [withPrefix, Leaf.under, offset_cons, trace_cons st h]

theorem withPrefix_nil (l : Leaf τ) : withPrefix ([] : Each τ) l = l := rfl

theorem descend_spec : ∀ (t : Ty τ) (st : Each τ), NoEmpty t → Valid st → (t.isRecord = true ∨ st.type = some t) →
    ∃ st', descend t st = some st' ∧ Valid st' ∧ remaining st' = (leavesOf t).map (withPrefix st) ++ pending st
  | .leaf x, st, _, hv, ht => by
    have ht : st.type = some (.leaf x) := by simpa [Ty.isRecord] using ht
    exact ⟨st, rfl, hv, by rw [remaining, ht, leavesOf]; simp [withPrefix]⟩
  | .alias x, st, _, hv, ht => by
    have ht : st.type = some (.alias x) := by simpa [Ty.isRecord] using ht
    exact ⟨st, rfl, hv, by rw [remaining, ht, leavesOf]; simp [withPrefix]⟩
  | .record m .nil, st, hn, _, _ => absurd rfl hn.1
  | .record m (.cons n t rest), st, hn, hv, _ => by
    obtain ⟨_, hn1, hn2⟩ := hn
    have hv' : Valid (((n, t) :: rest.toList, 0) :: st) := by
      intro f hf
      rcases List.mem_cons.1 hf with rfl | hf
      · refine ⟨by simp, ?_⟩
        simp only [Fields.ofList, ofList_toList]
        exact ⟨hn1, hn2⟩
      · exact hv f hf
    obtain ⟨st', h1, h2, h3⟩ := descend_spec t (((n, t) :: rest.toList, 0) :: st) hn1 hv' (.inr rfl)
    refine ⟨st', by rw [descend, h1], h2, ?_⟩
    rw [h3, pending, leavesOf, leaves, List.map_append, List.map_map, List.append_assoc]
    simp only [List.drop_succ_cons, List.drop_zero, ofList_toList]
    congr 1
    refine List.map_congr_left fun l _ => ?_
    exact withPrefix_cons st rfl l

theorem leaves_ofList_cons (i : Nat) (f : Name × Ty τ) (l : List (Name × Ty τ)) :
    leaves i (Fields.ofList (f :: l)) = (leavesOf f.2).map (Leaf.under i f.1) ++ leaves (i + 1) (Fields.ofList l) := by
  obtain ⟨n, t⟩ := f
  rw [Fields.ofList, leaves]

theorem noEmptyIn_get {fs : List (Name × Ty τ)} (h : NoEmptyIn (Fields.ofList fs)) {i : Nat} {n : Name} {t : Ty τ}
    (hi : fs[i]? = some (n, t)) : NoEmpty t := by
  induction fs generalizing i with
  | nil => simp at hi
  | cons f fs ih =>
    obtain ⟨n', t'⟩ := f
    rw [Fields.ofList] at h
    cases i with
    | zero => simp at hi; exact hi.2 ▸ h.1
    | succ i => exact ih h.2 (by simpa using hi)

theorem bump_spec : ∀ (st : Each τ), Valid st →
    (bump st = [] ∧ pending st = []) ∨
    ∃ fs i st' n t, bump st = (fs, i) :: st' ∧ fs[i]? = some (n, t) ∧ Valid ((fs, i) :: st') ∧
      pending st = (leavesOf t).map (withPrefix ((fs, i) :: st')) ++ pending ((fs, i) :: st')
  | [], _ => .inl ⟨rfl, rfl⟩
  | (fs, i) :: st, hv => by
    have hvt : Valid st := fun f hf => hv f (List.mem_cons_of_mem _ hf)
    have hf := hv (fs, i) List.mem_cons_self
    simp only at hf
    by_cases hi : i + 1 = fs.length
    · have hb : bump ((fs, i) :: st) = bump st := by rw [bump, if_pos hi]
      have hp : pending ((fs, i) :: st) = pending st := by
        rw [pending, List.drop_of_length_le (by omega)]
        simp [Fields.ofList, leaves]
      rw [hb, hp]
      exact bump_spec st hvt
    · right
      have hlt : i + 1 < fs.length := by omega
      refine ⟨fs, i + 1, st, fs[i + 1].1, fs[i + 1].2, by rw [bump, if_neg hi], by
        rw [List.getElem?_eq_getElem hlt], ?_, ?_⟩
      · intro f hf'
        rcases List.mem_cons.1 hf' with rfl | hf'
        · exact ⟨hlt, hf.2⟩
        · exact hvt f hf'
      · rw [pending, pending, List.drop_eq_getElem_cons hlt, leaves_ofList_cons, List.map_append, List.append_assoc,
          List.map_map]
        congr 1
        refine List.map_congr_left fun l _ => ?_
        exact (withPrefix_cons st (List.getElem?_eq_getElem hlt) l).symm

theorem next_spec {st : Each τ} (hv : Valid st) :
    ∃ st', st.next = some st' ∧ Valid st' ∧ remaining st' = pending st := by
  rcases bump_spec st hv with ⟨h1, h2⟩ | ⟨fs, i, st', n, t, h1, h2, h3, h4⟩
  · exact ⟨[], by rw [Each.next, h1], by (intro f hf; cases hf), by rw [h2]; rfl⟩
  · have hn : NoEmpty t := noEmptyIn_get (h3 (fs, i) List.mem_cons_self).2 h2
    have ht : Each.type ((fs, i) :: st') = some t := by simp [Each.type, h2]
    obtain ⟨st'', a, b, c⟩ := descend_spec t ((fs, i) :: st') hn h3 (.inr ht)
    refine ⟨st'', ?_, b, by rw [c, h4]⟩
    rw [Each.next, h1]
    simp only [h2]
    exact a

theorem make_spec (m : Meta) (fs : Fields τ) (h : NoEmptyIn fs) :
    ∃ st, Each.make m fs = some st ∧ Valid st ∧ remaining st = leaves 0 fs := by
  match fs with
  | .nil => exact ⟨[], rfl, by (intro f hf; cases hf), rfl⟩
  | .cons n t rest =>
    obtain ⟨st, h1, h2, h3⟩ := descend_spec (.record m (.cons n t rest)) [] ⟨by simp [Fields.toList], h⟩
      (by intro f hf; cases hf) (.inl rfl)
    refine ⟨st, by rw [Each.make, h1], h2, ?_⟩
    rw [h3, leavesOf, pending, List.append_nil]
    exact (List.map_congr_left fun l _ => withPrefix_nil l).trans (List.map_id _)

theorem remaining_cases {st : Each τ} (hv : Valid st) :
    (st = [] ∧ remaining st = []) ∨
      ∃ t, st.done = false ∧ st.type = some t ∧ remaining st = ⟨st.offset, st.trace, t⟩ :: pending st := by
  cases st with
  | nil => exact .inl ⟨rfl, rfl⟩
  | cons f st =>
    right
    obtain ⟨fs, i⟩ := f
    have hf := (hv (fs, i) List.mem_cons_self).1
    have ht : Each.type ((fs, i) :: st) = some fs[i].2 := by simp [Each.type, List.getElem?_eq_getElem hf]
    exact ⟨fs[i].2, rfl, ht, by rw [remaining, ht]⟩

/-- What a loop sees of a leaf. -/
def view (l : Leaf τ) : List Nat × Name × Option (Ty τ) := (l.offset, dotted l.path, some l.type)

theorem run_spec : ∀ (n : Nat) (st : Each τ), Valid st → (remaining st).length < n →
    st.run n = some ((remaining st).map view) := by
  intro n
  induction n with
  | zero => intro st _ h; omega
  | succ n ih =>
    intro st hv hn
    rcases remaining_cases hv with ⟨rfl, h2⟩ | ⟨t, h1, h2, h3⟩
    · rw [h2]; rfl
    · obtain ⟨st', ha, hb, hc⟩ := next_spec hv
      rw [h3, List.length_cons] at hn
      rw [Each.run, h1, ha, h3]
      simp only [Bool.false_eq_true, if_false, Option.bind_some]
      rw [ih st' hb (by rw [hc]; omega), hc, Option.map_some, List.map_cons, view, Each.key, join_eq, h2]

theorem advance_spec : ∀ (i : Nat) (st : Each τ), Valid st →
    ∃ r, Each.advance i st = some r ∧
      (r.bind fun st' => if st'.done then none else some st'.offset) = (remaining st)[i]?.map (·.offset) := by
  intro i
  induction i with
  | zero =>
    intro st hv
    refine ⟨some st, rfl, ?_⟩
    rcases remaining_cases hv with ⟨rfl, h2⟩ | ⟨t, h1, h2, h3⟩
    · rw [h2]; rfl
    · rw [h3]; simp [h1]
  | succ i ih =>
    intro st hv
    rcases remaining_cases hv with ⟨rfl, h2⟩ | ⟨t, h1, h2, h3⟩
    · exact ⟨none, rfl, by rw [h2]; rfl⟩
    · obtain ⟨st', ha, hb, hc⟩ := next_spec hv
      obtain ⟨r, hr, hr2⟩ := ih st' hb
      refine ⟨r, by rw [Each.advance, h1, ha]; simpa using hr, ?_⟩
      rw [hr2, hc, h3, List.getElem?_cons_succ]

end Verif.Types
