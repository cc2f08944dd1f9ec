import Verif.Project.Spec
import Verif.Types.Props
import Verif.Types.LookupProps
import Verif.Pivot.Lemmas
/-!
# Typed views on columns (C165)
-/
namespace Verif.Project
open Verif.Types Verif.Types.Spec Spec

variable {τ ν : Type}

/-! ## Lemmas -/

theorem firstFrom_iff {α : Type} (p : Nat → α → Bool) : ∀ (xs : List α) (k i : Nat), firstFrom p k xs = some i ↔
    ∃ j x, i = k + j ∧ xs[j]? = some x ∧ p i x = true ∧ ∀ j' x', j' < j → xs[j']? = some x' → p (k + j') x' = false
  | [], k, i => by simp [firstFrom]
  | x :: xs, k, i => by
    rw [firstFrom]
    by_cases hp : p k x = true
    · rw [if_pos hp]
      constructor
      · intro h
        injection h with h
        subst h
        exact ⟨0, x, rfl, rfl, hp, fun j' _ hj => by omega⟩
      · rintro ⟨j, y, rfl, _, _, h4⟩
        cases j with
        | zero => rfl
        | succ j =>
          have := h4 0 x (by omega) rfl
          rw [Nat.add_zero] at this
          rw [hp] at this
          cases this
    · rw [if_neg hp, firstFrom_iff p xs (k + 1) i]
      constructor
      · rintro ⟨j, y, rfl, h2, h3, h4⟩
        refine ⟨j + 1, y, by omega, by simpa using h2, h3, ?_⟩
        intro j' x' hj hx
        cases j' with
        | zero =>
          simp only [List.getElem?_cons_zero, Option.some.injEq] at hx
          subst hx
          simpa using hp
        | succ j' =>
          have := h4 j' x' (by omega) (by simpa using hx)
          rw [show k + (j' + 1) = k + 1 + j' by omega]
          exact this
      · rintro ⟨j, y, rfl, h2, h3, h4⟩
        cases j with
        | zero =>
          simp only [List.getElem?_cons_zero, Option.some.injEq] at h2
          subst h2
          exact (hp h3).elim
        | succ j =>
          refine ⟨j, y, by omega, by simpa using h2, h3, ?_⟩
          intro j' x' hj hx
          have := h4 (j' + 1) x' (by omega) (by simpa using hx)
          rw [show k + (j' + 1) = k + 1 + j' by omega] at this
          exact this

theorem firstFrom_none {α : Type} (p : Nat → α → Bool) : ∀ (xs : List α) (k : Nat), firstFrom p k xs = none ↔ ∀ j x, xs[j]? = some x → p (k + j) x = false
  | [], k => by simp [firstFrom]
  | x :: xs, k => by
    rw [firstFrom]
    by_cases hp : p k x = true
    · rw [if_pos hp]
      constructor
      · intro h; cases h
      · intro h
        have := h 0 x rfl
        rw [Nat.add_zero, hp] at this
        cases this
    · rw [if_neg hp, firstFrom_none p xs (k + 1)]
      constructor
      · intro h j y hy
        cases j with
        | zero =>
          simp only [List.getElem?_cons_zero, Option.some.injEq] at hy
          subst hy
          simpa using hp
        | succ j => rw [show k + (j + 1) = k + 1 + j by omega]; exact h j y (by simpa using hy)
      · intro h j y hy
        have := h (j + 1) y (by simpa using hy)
        rw [show k + (j + 1) = k + 1 + j by omega] at this
        exact this

theorem dropWhile_dot (name : Name) : (name.dropWhile (· ≠ 46) = [] ∧ 46 ∉ name) ∨
    ∃ a rest, name = a ++ 46 :: rest ∧ 46 ∉ a ∧ name.dropWhile (· ≠ 46) = 46 :: rest := by
  induction name with
  | nil => left; simp
  | cons c cs ih =>
    by_cases hc : c = 46
    · subst hc
      right
      exact ⟨[], cs, rfl, by simp, by simp⟩
    · have hc' : (46 : UInt8) ≠ c := fun e => hc e.symm
      rcases ih with ⟨h1, h2⟩ | ⟨a, rest, h1, h2, h3⟩
      · left
        simp only [List.dropWhile_cons, ne_eq, hc, not_false_eq_true, decide_true, if_true, List.mem_cons, hc', false_or]
        exact ⟨h1, h2⟩
      · right
        refine ⟨c :: a, rest, by rw [h1]; rfl, by simp [hc', h2], ?_⟩
        simp only [List.dropWhile_cons, ne_eq, hc, not_false_eq_true, decide_true, if_true]
        exact h3

theorem nameLoop_iff (hint : Name) (ok : Bool) : ∀ (fuel : Nat) (name : Name), name.length ≤ fuel → (nameLoop hint ok fuel name = true ↔ Named hint name ∧ ok = true)
  | fuel, name, hf => by
    rw [nameLoop.eq_def]
    simp only []
    by_cases h : (name = hint && ok) = true
    · rw [if_pos h]
      simp only [Bool.and_eq_true, decide_eq_true_eq] at h
      exact ⟨fun _ => ⟨.inl h.1.symm, h.2⟩, fun _ => rfl⟩
    · rw [if_neg h]
      rcases dropWhile_dot name with ⟨h1, h2⟩ | ⟨a, rest, h1, h2, h3⟩
      · rw [h1]
        have : ¬ (Named hint name ∧ ok = true) := by
          rintro ⟨hn | ⟨b, hb⟩, hok⟩
          · apply h; simp [hn, hok]
          · apply h2; rw [hb]; simp
        cases fuel <;> simp [this]
      · rw [h3]
        match fuel, hf with
        | 0, hf => rw [h1] at hf; simp at hf
        | fuel + 1, hf =>
          simp only []
          rw [nameLoop_iff hint ok fuel rest (by rw [h1] at hf; simp at hf; omega)]
          constructor
          · rintro ⟨hn, hok⟩
            refine ⟨.inr ?_, hok⟩
            rcases hn with hn | ⟨b, hb⟩
            · exact ⟨a, by rw [h1, hn]; simp⟩
            · exact ⟨a ++ 46 :: b, by rw [h1, hb]; simp⟩
          · rintro ⟨hn, hok⟩
            refine ⟨?_, hok⟩
            rcases hn with hn | ⟨b, hb⟩
            · exfalso; apply h; simp [hn, hok]
            · have e : a ++ 46 :: rest = b ++ 46 :: hint := by rw [← h1, hb]; simp
              rcases List.append_eq_append_iff.1 e with ⟨c, hc1, hc2⟩ | ⟨c, hc1, hc2⟩
              · cases c with
                | nil => simp only [List.nil_append, List.cons.injEq, true_and] at hc2; exact .inl hc2.symm
                | cons x c =>
                  simp only [List.cons_append, List.cons.injEq] at hc2
                  exact .inr ⟨c, by rw [hc2.2]; simp⟩
              · cases c with
                | nil => simp only [List.nil_append, List.cons.injEq, true_and] at hc2; exact .inl hc2
                | cons x c =>
                  simp only [List.cons_append, List.cons.injEq] at hc2
                  exfalso; apply h2; rw [hc1, ← hc2.1]; simp

theorem dotted_cons (n : Name) (p : List Name) (h : p ≠ []) : dotted (n :: p) = n ++ 46 :: dotted p := by
  cases p with
  | nil => exact (h rfl).elim
  | cons m ms =>
    have : ∀ (ms : List Name) (a b : Name), ms.foldl (fun acc m => acc ++ [46] ++ m) (a ++ b) = a ++ ms.foldl (fun acc m => acc ++ [46] ++ m) b := by
      intro ms
      induction ms with
      | nil => intro a b; rfl
      | cons m ms ih => intro a b; simp only [List.foldl_cons]; rw [show a ++ b ++ [46] ++ m = a ++ (b ++ [46] ++ m) by simp, ih]
    simp only [dotted, List.foldl_cons]
    rw [this ms (n ++ [46]) m]
    simp

theorem accepts_iff (w : Wanted τ ν) (l : Leaf τ) : w.accepts l.type = true ↔ FitsLoosely w l := by
  unfold Wanted.accepts FitsLoosely
  cases w.mode <;> simp

/-! ## C165 -/

/-- A hint finds the first column that it denotes and whose type will do, and nothing if there is none; the type of a list or a map is not
checked.  (Nested records must have fields, see C49.) -/
theorem C165_find_partial (m : Meta) (fs : Fields τ) (h : NoEmptyIn fs) (w : Wanted τ ν) (hint : Hint) :
    ∃ r, find m fs w hint = some r ∧
      (∀ i, r = some i ↔ ∃ l : Leaf τ, (leaves 0 fs)[i]? = some l ∧ Denotes m.name hint i l ∧ FitsLoosely w l ∧
        ∀ (j : Nat) (l' : Leaf τ), j < i → (leaves 0 fs)[j]? = some l' → ¬ (Denotes m.name hint j l' ∧ FitsLoosely w l')) := by
  obtain ⟨st, h1, h2⟩ := C49_each_partial m fs h
  have hrun := h2 (flatSizes fs + 1) (by omega)
  cases hint with
  | offset o =>
    refine ⟨_, rfl, fun i => ?_⟩
    have key : ∀ j (l' : Leaf τ), (leaves 0 fs)[j]? = some l' → l'.offset = o → flatIndexAt o fs = some j := by
      intro j l' hl ho
      rw [C49_flat_index_at, hl]
      simp [ho]
    constructor
    · intro hr
      cases hf : fieldAt o fs with
      | none => rw [hf] at hr; cases hr
      | some nt =>
        obtain ⟨n, t⟩ := nt
        rw [hf] at hr
        simp only [] at hr
        by_cases ha : w.accepts t = true
        · rw [if_pos ha] at hr
          have hl := (C49_flat_index_at fs o i).1 hr
          cases hli : (leaves 0 fs)[i]? with
          | none => rw [hli] at hl; cases hl
          | some l =>
            rw [hli] at hl
            simp only [Option.map_some, Option.some.injEq] at hl
            have hfield := Pivot.leaves_hasField fs l (List.mem_of_getElem? hli)
            obtain ⟨p, hp⟩ := (C62_at_offset fs o n t).1 hf
            have ht : l.type = t := by
              have hne := (leaves_path_ne (List.mem_of_getElem? hli)).1
              obtain ⟨q, x, hq⟩ : ∃ q x, l.path = q ++ [x] := ⟨l.path.dropLast, l.path.getLast hne, (List.dropLast_concat_getLast hne).symm⟩
              rw [hl, hq] at hfield
              have := (C62_at_offset fs o x l.type).2 ⟨q, hfield⟩
              rw [hf] at this
              simp only [Option.some.injEq, Prod.mk.injEq] at this
              exact this.2.symm
            refine ⟨l, rfl, hl, (accepts_iff w l).1 (ht ▸ ha), ?_⟩
            intro j l' hj hl' hd
            have := key j l' hl' hd.1
            rw [hr] at this
            injection this
            omega
        · rw [if_neg ha] at hr; cases hr
    · rintro ⟨l, hl, hd, hfit, _⟩
      have hfield := Pivot.leaves_hasField fs l (List.mem_of_getElem? hl)
      have hne := (leaves_path_ne (List.mem_of_getElem? hl)).1
      obtain ⟨q, x, hq⟩ : ∃ q x, l.path = q ++ [x] := ⟨l.path.dropLast, l.path.getLast hne, (List.dropLast_concat_getLast hne).symm⟩
      have hd : l.offset = o := hd
      rw [hq, hd] at hfield
      rw [(C62_at_offset fs o x l.type).2 ⟨q, hfield⟩]
      simp only [(accepts_iff w l).2 hfit, if_true]
      exact key i l hl hd
  | name n =>
    have e : find m fs w (.name n) = some (firstFrom (fun _ c => nameLoop n (c.2.2.any w.accepts) (m.name ++ 46 :: c.2.1).length (m.name ++ 46 :: c.2.1)) 0
        ((leaves 0 fs).map fun l => (l.offset, dotted l.path, some l.type))) := by
      simp only [find, h1, hrun, Option.bind_eq_bind, Option.bind_some, Option.pure_def]
    refine ⟨_, e, fun i => ?_⟩
    have hd : ∀ l : Leaf τ, l ∈ leaves 0 fs → ((nameLoop n ((some l.type).any w.accepts) (m.name ++ 46 :: dotted l.path).length (m.name ++ 46 :: dotted l.path) = true) ↔
        (Denotes m.name (.name n) i l ∧ FitsLoosely w l)) := by
      intro l hl
      rw [nameLoop_iff _ _ _ _ (Nat.le_refl _), Option.any_some, accepts_iff]
      show _ ↔ Named n (dotted (m.name :: l.path)) ∧ _
      rw [dotted_cons _ _ (leaves_path_ne hl).1]
    rw [firstFrom_iff]
    constructor
    · rintro ⟨j, x, rfl, hx, hp, hlast⟩
      rw [Nat.zero_add] at *
      rw [List.getElem?_map] at hx
      cases hl : (leaves 0 fs)[j]? with
      | none => rw [hl] at hx; cases hx
      | some l =>
        rw [hl] at hx
        simp only [Option.map_some, Option.some.injEq] at hx
        subst hx
        obtain ⟨d1, d2⟩ := (hd l (List.mem_of_getElem? hl)).1 hp
        refine ⟨l, rfl, d1, d2, ?_⟩
        intro j' l' hj hl' hdn
        have := hlast j' (l'.offset, dotted l'.path, some l'.type) hj (by rw [List.getElem?_map, hl']; rfl)
        rw [(hd l' (List.mem_of_getElem? hl')).2 hdn] at this
        cases this
    · rintro ⟨l, hl, d1, d2, hlast⟩
      refine ⟨i, (l.offset, dotted l.path, some l.type), by omega, by rw [List.getElem?_map, hl]; rfl, (hd l (List.mem_of_getElem? hl)).2 ⟨d1, d2⟩, ?_⟩
      intro j' x' hj hx
      rw [List.getElem?_map] at hx
      cases hl' : (leaves 0 fs)[j']? with
      | none => rw [hl'] at hx; cases hx
      | some l' =>
        rw [hl'] at hx
        simp only [Option.map_some, Option.some.injEq] at hx
        subst hx
        have := hlast j' l' hj hl'
        have hd' := hd l' (List.mem_of_getElem? hl')
        cases hb : nameLoop n ((some l'.type).any w.accepts) (m.name ++ 46 :: dotted l'.path).length (m.name ++ 46 :: dotted l'.path)
        · rfl
        · exact (this (hd'.1 hb)).elim
  | index k =>
    have e : find m fs w (.index k) = some (firstFrom (fun i c => i == k && c.2.2.any w.accepts) 0
        ((leaves 0 fs).map fun l => (l.offset, dotted l.path, some l.type))) := by
      simp only [find, h1, hrun, Option.bind_eq_bind, Option.bind_some, Option.pure_def]
    refine ⟨_, e, fun i => ?_⟩
    rw [firstFrom_iff]
    constructor
    · rintro ⟨j, x, rfl, hx, hp, _⟩
      rw [Nat.zero_add] at *
      rw [List.getElem?_map] at hx
      cases hl : (leaves 0 fs)[j]? with
      | none => rw [hl] at hx; cases hx
      | some l =>
        rw [hl] at hx
        simp only [Option.map_some, Option.some.injEq] at hx
        subst hx
        simp only [Option.any_some, Bool.and_eq_true, beq_iff_eq, accepts_iff] at hp
        refine ⟨l, rfl, hp.1, hp.2, ?_⟩
        intro j' l' hj hl' hd
        have : j' = k := hd.1
        omega
    · rintro ⟨l, hl, d1, d2, _⟩
      have d1 : i = k := d1
      refine ⟨i, (l.offset, dotted l.path, some l.type), by omega, by rw [List.getElem?_map, hl]; rfl, ?_, ?_⟩
      · simp only [Option.any_some, Bool.and_eq_true, beq_iff_eq, accepts_iff]
        exact ⟨d1, d2⟩
      · intro j' x' hj _
        have : (0 + j' == k) = false := by simp; omega
        rw [this, Bool.false_and]

theorem mapM_some_iff {α β : Type} (f : α → Option β) (g : α → β) : ∀ (xs : List α), (∀ x ∈ xs, f x = some (g x)) → xs.mapM f = some (xs.map g)
  | [], _ => rfl
  | x :: xs, h => by
    rw [List.mapM_cons, h x (by simp), mapM_some_iff f g xs (fun y hy => h y (by simp [hy]))]
    rfl

/-- The iteration over a projection all of whose columns were found gives, for each row in order, the values of these columns in the order in
which they were asked for, if the values in each column are of the type that was asked for. -/
theorem C165_rows_partial (p : Projection τ ν) (cols : List Nat) (hc : p.columns.map (·.2) = cols.map some) (hw : ∀ i ∈ cols, i < p.width)
    (hrows : ∀ row ∈ p.rows, row.length = p.width)
    (hv : ∀ w i, (w, some i) ∈ p.columns → w.mode ≠ .any → ∀ row ∈ p.rows, ∀ x, row[i]? = some (some x) → w.holds x = true) :
    p.valid = true ∧ p.iterate = some (p.rows.map fun row => cols.map fun i => row[i]?.getD none) := by
  have hmem : ∀ c ∈ p.columns, ∃ i, c.2 = some i ∧ i < p.width := by
    intro c hcm
    have : c.2 ∈ p.columns.map (·.2) := List.mem_map_of_mem hcm
    rw [hc, List.mem_map] at this
    obtain ⟨i, hi, e⟩ := this
    exact ⟨i, e.symm, hw i hi⟩
  have hvalid : p.valid = true := by
    rw [Projection.valid, List.all_eq_true]
    intro c hcm
    obtain ⟨i, e, hi⟩ := hmem c hcm
    rw [e]
    simpa using hi
  refine ⟨hvalid, ?_⟩
  rw [Projection.iterate, if_pos hvalid]
  have hrow : ∀ row ∈ p.rows, p.columns.mapM (cell row) = some (p.columns.map fun c => (c.2.bind (row[·]?)).getD none) := by
    intro row hr
    apply mapM_some_iff
    intro c hcm
    obtain ⟨i, e, hi⟩ := hmem c hcm
    have hlt : i < row.length := by rw [hrows row hr]; exact hi
    obtain ⟨w, o⟩ := c
    subst e
    simp only [cell, Option.bind_eq_bind, Option.bind_some, List.getElem?_eq_getElem hlt, Option.getD_some]
    cases hx : row[i] with
    | none => rfl
    | some x =>
      simp only []
      by_cases hm : w.mode = .any
      · simp [hm]
      · have := hv w i hcm hm row hr x (by rw [List.getElem?_eq_getElem hlt, hx])
        simp [this]
  rw [mapM_some_iff _ _ _ hrow]
  congr 1
  apply List.map_congr_left
  intro row _
  rw [show (p.columns.map fun c => (c.2.bind (row[·]?)).getD none) = (p.columns.map (·.2)).map (fun o => (o.bind (row[·]?)).getD none) by rw [List.map_map]; rfl, hc, List.map_map]
  rfl

/-- If a column was not found, there are no rows to iterate over. -/
theorem C165_invalid (p : Projection τ ν) (c : Wanted τ ν) (h : (c, none) ∈ p.columns) : p.valid = false ∧ p.iterate = some [] := by
  have : p.valid = false := by
    rw [Projection.valid, List.all_eq_false]
    exact ⟨_, h, by simp⟩
  exact ⟨this, by rw [Projection.iterate, this]; rfl⟩

/-- The layout `r` with the fields `x.a` and `y`, numbers and texts, in the examples; a value is 0 for a number and 1 for a text. -/
def sampleFields : Fields Nat := .cons [120] (.record {} (.cons [97] (.leaf 0) .nil)) (.cons [121] (.leaf 1) .nil)

def number : Wanted Nat Nat := ⟨.plain, fun t => match t with | .leaf 0 => true | _ => false, (· = 0)⟩

def aList : Wanted Nat Nat := ⟨.container, fun _ => false, fun _ => false⟩

/-- Asking for a list in a column of texts is not noticed: the access throws where nothing may throw. -/
theorem C165_container_refuted : ∃ p, project { name := [114] } sampleFields [[some 0, some 1]] [(aList, .name [121])] = some p ∧ p.valid = true ∧
    p.iterate = none ∧ ¬ Spec.Fits aList ⟨[1], [[121]], .leaf 1⟩ :=
  ⟨_, rfl, by decide, by decide, by simp [Spec.Fits, aList]⟩

/-- The size of an invalid projection is the number of rows, although there is nothing to iterate over. -/
theorem C165_size_refuted : ∃ p, project { name := [114] } sampleFields [[some 0, some 1]] [(number, .name [121])] = some p ∧ p.valid = false ∧
    p.size = 1 ∧ p.iterate = some [] :=
  ⟨_, rfl, by decide, by decide, by decide⟩

example : ∃ p, project { name := [114] } sampleFields [[some 0, some 1], [none, some 1]] [(number, .name [97]), (number, .name [114, 46, 120, 46, 97]), (number, .offset [0, 0])] = some p ∧
    p.valid = true ∧ p.iterate = some [[some 0, some 0, some 0], [none, none, none]] := ⟨_, rfl, by decide, by decide⟩

example : NoEmptyIn sampleFields := by simp [sampleFields, NoEmptyIn, NoEmpty, Fields.toList]

end Verif.Project
