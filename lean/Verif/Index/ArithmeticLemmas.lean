import Verif.Index.Arithmetic
import Verif.Index.CoderProps

/-!
# Lemmas about numeric indexes
-/

namespace Verif.Index

open Verif.Data (RelOp)
open Spec (Row)

namespace Spec

/-- The six comparison operators on whole numbers, `none` for the other operators. -/
def compareInt (op : RelOp) (v x : Int) : Option Bool :=
  match op with
  | .equal => some (v == x)
  | .notEqual => some (v != x)
  | .less => some (decide (v < x))
  | .lessEqual => some (decide (v ≤ x))
  | .greater => some (decide (v > x))
  | .greaterEqual => some (decide (v ≥ x))
  | _ => none

end Spec

/-- The state of a numeric index holds the keys of the column. -/
def NumInv {T : Type} (N : Numeric T) (base : List Nat) (c : MultiLevelCoder) (col : List (Option T)) : Prop :=
  c.kind = .range ∧ c.base = base ∧ MRep .range base c.coders (col.map (·.map fun v => N.key (N.bin v)))

theorem numInv_make {T : Type} (N : Numeric T) {base : List Nat} (hw : wellDefined base = true) :
    ∃ c, MultiLevelCoder.make .range base = some c ∧ NumInv N base c [] := by
  refine ⟨_, by rw [MultiLevelCoder.make, if_pos hw], rfl, rfl, ?_⟩
  exact mRep_make .range base

theorem numAppends {T : Type} (N : Numeric T) {base : List Nat} (hw : wellDefined base = true) :
    Appends (Arithmetic.impl N) (NumInv N base) (fun v => N.defined v = true) := by
  refine ⟨?_⟩
  rintro ⟨k, b, cs⟩ col v pos ⟨hk, hb, hr⟩ hp hd
  simp only at hk hb hr
  subst hk hb
  obtain ⟨hne, hw'⟩ := (wellDefined_iff _).1 hw
  obtain ⟨hsz, _⟩ := mRep_size hne hr
  have hs := mRep_skip (pos - col.length) hr
  obtain ⟨cs', e1, e2⟩ := mRep_encode 1 hw' (N.key (N.bin v)) hs
  refine ⟨⟨.range, b, cs'⟩, ?_, rfl, rfl, ?_⟩
  · simp only [Arithmetic.impl, Arithmetic.append, hd, if_true, hsz, List.length_map, MultiLevelCoder.skip,
      MultiLevelCoder.encode, e1, Option.map_some, Res.ofOption]
  · simpa using e2

/-- The bitmap a numeric index computes: every row with a value compares the keys. -/
theorem numLookup {T : Type} (N : Numeric T) {base : List Nat} (hw : wellDefined base = true)
    {c : MultiLevelCoder} {col : List (Option T)} (h : NumInv N base c col)
    (op : RelOp) (hop : Spec.compare op 0 0 ≠ none) (x : T) (hd : N.defined x = true)
    (hx : N.key (Arithmetic.adjust N.identity op (N.bin x)) < Spec.product base)
    (hcol : ∀ (i : Nat) v, col[i]? = some (some v) → N.key (N.bin v) < Spec.product base) :
    ∃ r, Arithmetic.lookup N c op x = .ok r ∧ r.length = col.length ∧
      ∀ (i : Nat) v, col[i]? = some (some v) →
        some (r.bit i) = Spec.compare op (N.key (N.bin v)) (N.key (Arithmetic.adjust N.identity op (N.bin x))) := by
  obtain ⟨k, b, cs⟩ := c
  obtain ⟨hk, hb, hr⟩ := h
  simp only at hk hb hr
  subst hk hb
  obtain ⟨hne, hw'⟩ := (wellDefined_iff _).1 hw
  obtain ⟨r, h1, h2, h3⟩ := mRange_decode hne hw' hr op _ hx hop
  refine ⟨r, ?_, by simpa using h2, ?_⟩
  · simp only [Arithmetic.lookup, hd, if_true, h1, Res.ofOption]
  · intro i v hi
    have hi' : (col.map (·.map fun v => N.key (N.bin v)))[i]? = some (some (N.key (N.bin v))) := by simp [hi]
    exact h3 i _ hi' (by simpa using hcol i v hi)

/-! ## Histories -/

theorem rows_mem {α : Type} (h : List (Nat × Option α)) (i : Nat) (v : α) (hi : (Spec.rows h)[i]? = some (.value v)) :
    ∃ pos, (pos, some v) ∈ h := by
  have : ∀ (h : List (Nat × Option α)) (rs : List (Row α)) (i : Nat),
      (h.foldl (fun rs e => Spec.appendRow rs e.1 e.2) rs)[i]? = some (.value v) →
      (∃ j : Nat, rs[j]? = some (.value v)) ∨ ∃ pos, (pos, some v) ∈ h := by
    intro h
    induction h with
    | nil => intro rs i hi; exact Or.inl ⟨i, hi⟩
    | cons e h ih =>
      intro rs i hi
      rcases ih _ i hi with ⟨j, hj⟩ | ⟨pos, hp⟩
      · have hj : (Spec.appendRow rs e.1 e.2)[j]? = some (.value v) := hj
        unfold Spec.appendRow at hj
        split at hj
        · exact Or.inl ⟨j, hj⟩
        · next hle =>
          rw [appendRow_getElem? _ _ _ (by omega)] at hj
          split at hj
          · exact Or.inl ⟨j, hj⟩
          · split at hj
            · simp at hj
            · split at hj
              · right
                obtain ⟨pos, x⟩ := e
                cases x with
                | none => simp [Row.of] at hj
                | some y =>
                  simp only [Row.of, Option.some.injEq, Row.value.injEq] at hj
                  subst hj
                  exact ⟨pos, by simp⟩
              · simp at hj
      · exact Or.inr ⟨pos, by simp [hp]⟩
  rcases this h [] i hi with ⟨j, hj⟩ | h
  · simp at hj
  · exact h

/-- After a history, a lookup of a value: null rows are in the result for `!=` only, rows without
data never, and rows with a value as `lookup_impl` says. -/
theorem lookupVal_frame {σ α ρ : Type} {I : Impl σ α ρ} {inv : σ → List (Option α) → Prop}
    {v : ValueIndex σ} {rs : List (Row α)} (h : VRep inv v rs) (op : RelOp) (x : ρ) (f : α → Bool)
    (hl : ∃ r, I.lookup v.offset v.mask v.impl op x = .ok r ∧ r.length ≤ rs.length ∧
      ∀ (i : Nat) y, rs[i]? = some (.value y) → r.bit i = f y) :
    v.lookupVal I op x = .ok (Spec.answer rs f (decide (op = .notEqual))) := by
  obtain ⟨r, h1, h2, h3⟩ := hl
  obtain ⟨f1, f2⟩ := finish_spec h op r h2
  rw [ValueIndex.lookupVal, h1]
  simp only [Res.ok.injEq]
  apply answer_eq f1
  intro i y hi
  rw [f2 i y hi]
  cases y with
  | absent => rfl
  | null => rfl
  | value y => exact h3 i y hi

theorem VRep.col {σ α : Type} {inv : σ → List (Option α) → Prop} {v : ValueIndex σ} {rs : List (Row α)}
    (h : VRep inv v rs) (i : Nat) (y : α) :
    ((rs.map Spec.Row.toOption).take v.mask.length)[i]? = some (some y) ↔ rs[i]? = some (.value y) := by
  constructor
  · intro hi
    have hlt := lt_of_getElem? hi
    rw [List.length_take] at hlt
    rw [List.getElem?_take_of_lt (by omega), List.getElem?_map] at hi
    cases hr : rs[i]? with
    | none => rw [hr] at hi; simp at hi
    | some r => rw [hr] at hi; cases r <;> simp_all [Spec.Row.toOption]
  · intro hi
    have hm := h.mask i
    rw [hi] at hm
    have : i < v.mask.length := by
      apply Classical.byContradiction
      intro hn
      rw [Bm.bit_of_ge (by omega)] at hm
      simp at hm
    rw [List.getElem?_take_of_lt this, List.getElem?_map, hi]
    rfl

theorem VRep.col_length {σ α : Type} {inv : σ → List (Option α) → Prop} {v : ValueIndex σ} {rs : List (Row α)}
    (h : VRep inv v rs) : ((rs.map Spec.Row.toOption).take v.mask.length).length ≤ rs.length := by
  rw [List.length_take, List.length_map]; omega

/-- A numeric index after a history. -/
theorem numIndex {T : Type} (N : Numeric T) {base : List Nat} (hw : wellDefined base = true)
    (h : List (Nat × Option T)) (hd : ∀ pos v, (pos, some v) ∈ h → N.defined v = true) :
    ∃ v, Arithmetic.index base h N = some v ∧ VRep (NumInv N base) v (Spec.rows h) := by
  obtain ⟨c, e1, e2⟩ := numInv_make N hw
  obtain ⟨v, e3, e4⟩ := vRep_run (numAppends N hw) h (vRep_make e2) hd
  exact ⟨v, by rw [Arithmetic.index, e1]; exact e3, e4⟩

/-- The result of a numeric index, in terms of the keys. -/
theorem numIndex_lookup {T : Type} (N : Numeric T) {base : List Nat} (hw : wellDefined base = true)
    (hb : 2 ^ 64 ≤ Spec.product base)
    (h : List (Nat × Option T)) (hd : ∀ pos v, (pos, some v) ∈ h → N.defined v = true ∧ N.key (N.bin v) < 2 ^ 64)
    (op : RelOp) (hop : Spec.compare op 0 0 ≠ none) (x : T) (hdx : N.defined x = true)
    (hx : N.key (Arithmetic.adjust N.identity op (N.bin x)) < 2 ^ 64) :
    ∃ v, Arithmetic.index base h N = some v ∧ VRep (NumInv N base) v (Spec.rows h) ∧
      v.lookupVal (Arithmetic.impl N) op x = .ok (Spec.answer (Spec.rows h)
        (fun y => (Spec.compare op (N.key (N.bin y)) (N.key (Arithmetic.adjust N.identity op (N.bin x)))) == some true)
        (decide (op = .notEqual))) := by
  obtain ⟨v, e1, e2⟩ := numIndex N hw h fun pos v hv => (hd pos v hv).1
  refine ⟨v, e1, e2, ?_⟩
  apply lookupVal_frame e2
  obtain ⟨r, r1, r2, r3⟩ := numLookup N hw e2.impl op hop x hdx (by omega) (by
    intro i y hi
    rw [e2.col] at hi
    obtain ⟨pos, hp⟩ := rows_mem h i y hi
    have := (hd pos y hp).2
    omega)
  refine ⟨r, r1, by rw [r2]; exact e2.col_length, ?_⟩
  intro i y hi
  have := r3 i y ((e2.col i y).2 hi)
  rw [← this]
  cases r.bit i <;> rfl

end Verif.Index
