import Verif.RangeMap.Lemmas

/-!
# C29: the interval map behaves as a finite map

The specification is a partial function from points to values, `Nat → Option V`, changed pointwise.
`insert` and `inject` succeed exactly when every point of the new interval is free.
-/

namespace Verif.RangeMap

variable {V : Type} [DecidableEq V]

/-! ## Specification -/

/-- A finite map from single points. -/
abbrev Points (V : Type) := Nat → Option V

/-- All points of `[l, r)` get the value `o` (or none). -/
def Points.set (f : Points V) (l r : Nat) (o : Option V) : Points V := fun k => if l ≤ k ∧ k < r then o else f k

/-- All points with the value `x` are removed. -/
def Points.remove (f : Points V) (x : V) : Points V := fun k => if f k = some x then none else f k

/-- No point of `[l, r)` has a value. -/
def Points.FreeIn (f : Points V) (l r : Nat) : Prop := ∀ k, l ≤ k → k < r → f k = none

/-! ## Histories -/

/-- The operations of a history. -/
inductive Op (V : Type) where
  | insert (l r : Nat) (v : V)
  | inject (l r : Nat) (v : V)
  | erasePoint (p : Nat)
  | eraseRange (l r : Nat)
  | eraseValue (v : V)

/-- One operation on the map, and what it returns; `none` if it does not terminate. -/
def step (m : Map V) : Op V → Option (Map V × Bool)
  | .insert l r v => some (insert m l r v)
  | .inject l r v => some (inject m l r v)
  | .erasePoint p => some (erasePoint m p)
  | .eraseRange l r => (eraseRange m l r).map fun m => (m, true)
  | .eraseValue v => some (eraseValue m v, true)

/-- The effect of one operation, in terms of single points. An operation that erases a point erases
the interval around it that `find` reports. -/
def Effect (f f' : Points V) (found : Option (Nat × Nat × V)) (res : Bool) : Op V → Prop
  | .insert l r v | .inject l r v =>
    (f.FreeIn l r ∧ res = true ∧ f' = f.set l r (some v)) ∨ (¬ f.FreeIn l r ∧ res = false ∧ f' = f)
  | .erasePoint _ =>
    (∃ a b v, found = some (a, b, v) ∧ res = true ∧ f' = f.set a b none) ∨ (found = none ∧ res = false ∧ f' = f)
  | .eraseRange l r => f' = f.set l r none
  | .eraseValue v => f' = f.remove v

/-- What the operations require. `insert` and `inject` assert `l < r`. The last condition, that an
interval does not share exactly one endpoint with an erased range that it exceeds, is not in the code:
see `C29_erase_range_refuted`. -/
def Allowed (m : Map V) : Op V → Prop
  | .insert l r _ | .inject l r _ => l < r
  | .erasePoint _ | .eraseValue _ => True
  | .eraseRange l r => l < r ∧ ∀ a b v, (∃ k, find m k = some (a, b, v)) → ¬ (a = l ∧ r < b) ∧ ¬ (a < l ∧ b = r)

/-- The point an operation asks `find` for. -/
def Op.point : Op V → Nat
  | .erasePoint p => p
  | _ => 0

/-- Histories of allowed operations, from the empty map. -/
inductive Reach : Map V → Prop
  | empty : Reach []
  | step {m m' op b} : Reach m → Allowed m op → step m op = some (m', b) → Reach m'

/-! ## Proofs -/

theorem free_iff {m : Map V} (h : WF m) {l r : Nat} (hlr : l < r) : Free m l r ↔ Points.FreeIn (lookup m) l r := by
  constructor
  · intro hf k h1 h2
    cases hl : lookup m k with
    | none => rfl
    | some v =>
      obtain ⟨e, he, h3, h4, _⟩ := (lookup_iff h k v).1 hl
      rcases hf e he with h5 | h5 <;> omega
  · intro hf e he
    have hne := h.nonempty e he
    apply Classical.byContradiction
    intro hn
    have hcov : ∃ k, e.left ≤ k ∧ k < e.right ∧ l ≤ k ∧ k < r := by
      by_cases hle : e.left ≤ l
      · exact ⟨l, by omega⟩
      · exact ⟨e.left, by omega⟩
    obtain ⟨k, h1, h2, h3, h4⟩ := hcov
    have hno := hf k h3 h4
    rw [(lookup_iff h k e.value).2 ⟨e, he, h1, h2, rfl⟩] at hno
    simp at hno

theorem added_lookup {m m' : Map V} (h : WF m) {l r : Nat} {v : V} (ha : Added m m' l r v) :
    lookup m' = Points.set (lookup m) l r (some v) := by
  funext k
  apply lookup_eq ha.wf
  intro w
  rw [ha.holds, Points.set]
  split
  · simp [eq_comm]
  · rw [lookup_iff h]

theorem erased_lookup {m m' : Map V} (h : WF m) (h' : WF m') {l r : Nat}
    (hh : ∀ k w, Holds m' k w ↔ Holds m k w ∧ ¬ (l ≤ k ∧ k < r)) : lookup m' = Points.set (lookup m) l r none := by
  funext k
  apply lookup_eq h'
  intro w
  rw [hh, Points.set]
  split
  · next hk => simp [hk]
  · next hk => rw [lookup_iff h]; exact ⟨fun x => ⟨x, hk⟩, fun x => x.1⟩

theorem find_iff {m : Map V} (h : WF m) (p a b : Nat) (v : V) :
    find m p = some (a, b, v) ↔ (⟨a, b, v⟩ : Entry V) ∈ m ∧ a ≤ p ∧ p < b := by
  unfold find
  rw [Option.map_eq_some_iff]
  constructor
  · rintro ⟨e, he, heq⟩
    obtain ⟨h1, h2, h3⟩ := (locate_spec h p e).1 he
    simp only [Prod.mk.injEq] at heq
    obtain ⟨rfl, rfl, rfl⟩ := heq
    exact ⟨h1, h2, h3⟩
  · rintro ⟨h1, h2, h3⟩
    exact ⟨_, (locate_spec h p _).2 ⟨h1, h2, h3⟩, rfl⟩

theorem step_spec {m : Map V} (h : WF m) {op : Op V} (hop : Allowed m op) :
    ∃ m' b, step m op = some (m', b) ∧ WF m' ∧ Effect (lookup m) (lookup m') (find m op.point) b op := by
  have addCase : ∀ (res : Map V × Bool) (l r : Nat) (v : V), l < r →
      ((res.2 = true ↔ Free m l r) ∧ (res.2 = true → Added m res.1 l r v) ∧ (res.2 = false → res.1 = m)) →
      WF res.1 ∧ ((Points.FreeIn (lookup m) l r ∧ res.2 = true ∧ lookup res.1 = Points.set (lookup m) l r (some v)) ∨
        (¬ Points.FreeIn (lookup m) l r ∧ res.2 = false ∧ lookup res.1 = lookup m)) := by
    intro res l r v hlr ⟨h1, h2, h3⟩
    rw [free_iff h hlr] at h1
    cases hb : res.2 with
    | true => exact ⟨(h2 hb).wf, Or.inl ⟨h1.1 hb, rfl, added_lookup h (h2 hb)⟩⟩
    | false =>
      rw [h3 hb]
      exact ⟨h, Or.inr ⟨fun hf => by rw [h1.2 hf] at hb; simp at hb, rfl, rfl⟩⟩
  cases op with
  | insert l r v =>
    obtain ⟨h1, h2⟩ := addCase (insert m l r v) l r v hop (insert_spec h hop v)
    exact ⟨_, _, rfl, h1, h2⟩
  | inject l r v =>
    obtain ⟨h1, h2⟩ := addCase (inject m l r v) l r v hop (inject_spec h hop v)
    exact ⟨_, _, rfl, h1, h2⟩
  | erasePoint p =>
    obtain ⟨h1, h2, h3, h4⟩ := erasePoint_spec h p
    refine ⟨(erasePoint m p).1, (erasePoint m p).2, rfl, h2, ?_⟩
    generalize hr : erasePoint m p = res at h1 h2 h3 h4 ⊢
    cases hl : locate m p (lowerBound m p) with
    | none =>
      right
      refine ⟨?_, ?_, ?_⟩
      · show find m p = none; rw [find, hl]; rfl
      · rw [h1, lookup, hl]; rfl
      · rw [h4 hl]
    | some e =>
      left
      refine ⟨e.left, e.right, e.value, ?_, ?_, erased_lookup h h2 (h3 e hl)⟩
      · show find m p = _; rw [find, hl]; rfl
      · rw [h1, lookup, hl]; rfl
  | eraseRange l r =>
    obtain ⟨hlr, hc⟩ := hop
    have hclean : Clean m l r := by
      intro e he
      exact hc e.left e.right e.value ⟨e.left, (find_iff h _ _ _ _).2 ⟨he, Nat.le_refl _, h.nonempty e he⟩⟩
    obtain ⟨m', h1, h2, h3⟩ := eraseRange_spec h hlr hclean
    exact ⟨m', true, by simp [step, h1], h2, erased_lookup h h2 h3⟩
  | eraseValue x =>
    obtain ⟨h1, h2⟩ := eraseValue_spec h x
    refine ⟨_, _, rfl, h1, ?_⟩
    funext k
    apply lookup_eq h1
    intro w
    rw [h2, Points.remove]
    split
    · next hk =>
      rw [lookup_iff h] at hk
      constructor
      · intro hw; simp at hw
      · rintro ⟨hw, hne⟩
        have h1 := (lookup_iff h k w).2 hw
        have h2 := (lookup_iff h k x).2 hk
        rw [h1] at h2
        exact absurd (Option.some.inj h2) hne
    · next hk =>
      rw [lookup_iff h]
      constructor
      · intro hw
        refine ⟨hw, ?_⟩
        rintro rfl
        exact hk ((lookup_iff h k w).2 hw)
      · exact fun x => x.1

theorem reach_wf {m : Map V} (h : Reach m) : WF m := by
  induction h with
  | empty => exact ⟨List.Pairwise.nil, by simp, by simp⟩
  | step _ hop hs ih =>
    obtain ⟨m', b, h1, h2, _⟩ := step_spec ih hop
    rw [hs] at h1
    obtain ⟨rfl, rfl⟩ := Prod.mk.inj (Option.some.inj h1)
    exact h2

/-! ## Properties -/

/-- **C29.** After every history of allowed operations, every further one terminates and changes the
points it should, as a map from single points; `insert` and `inject` succeed exactly on free ranges. -/
theorem C29_steps_partial {m : Map V} (h : Reach m) {op : Op V} (hop : Allowed m op) :
    ∃ m' b, step m op = some (m', b) ∧ Effect (lookup m) (lookup m') (find m op.point) b op := by
  obtain ⟨m', b, h1, _, h2⟩ := step_spec (reach_wf h) hop
  exact ⟨m', b, h1, h2⟩

/-- **C29.** After every history of allowed operations the intervals are not empty, disjoint and ordered. -/
theorem C29_intervals_partial {m : Map V} (h : Reach m) :
    (∀ e ∈ m, e.left < e.right) ∧ m.Pairwise (fun a b => a.right ≤ b.left) := by
  have hw := reach_wf h
  refine ⟨hw.nonempty, ?_⟩
  have : m.Pairwise (fun a b => a.left < b.left) := hw.sorted
  rw [List.pairwise_iff_forall_sublist] at this ⊢
  intro a b hs
  exact hw.disjoint a (hs.subset (by simp)) b (hs.subset (by simp)) (this hs)

/-- **C29.** `find` returns an interval exactly if the point has a value; it contains the point and all
its points have that value. -/
theorem C29_find_partial {m : Map V} (h : Reach m) (p : Nat) :
    (∀ a b v, find m p = some (a, b, v) → a ≤ p ∧ p < b ∧ ∀ k, a ≤ k → k < b → lookup m k = some v) ∧
    (find m p = none ↔ lookup m p = none) := by
  have hw := reach_wf h
  refine ⟨?_, ?_⟩
  · intro a b v hf
    obtain ⟨h1, h2, h3⟩ := (find_iff hw _ _ _ _).1 hf
    exact ⟨h2, h3, fun k h4 h5 => (lookup_iff hw k v).2 ⟨_, h1, h4, h5, rfl⟩⟩
  · unfold find lookup
    simp

/-- A history with merging on both sides, a failing injection and a range erased out of the middle. -/
example : ∃ m : Map Nat, Reach m ∧ m = [⟨0, 10, 7⟩, ⟨20, 30, 7⟩] ∧ lookup m 25 = some 7 ∧ lookup m 15 = none := by
  refine ⟨_, .step (op := .eraseRange 10 20) (b := true) (m := [⟨0, 30, 7⟩])
    (.step (op := .inject 10 20 7) (b := true) (m := [⟨0, 10, 7⟩, ⟨20, 30, 7⟩])
      (.step (op := .inject 20 30 7) (b := true) (m := [⟨0, 10, 7⟩])
        (.step (op := .inject 0 10 7) (b := true) (m := []) .empty (show 0 < 10 by decide) (by decide))
        (show 20 < 30 by decide) (by decide))
      (show 10 < 20 by decide) (by decide)) ?_ (by decide), rfl, by decide, by decide⟩
  refine ⟨by decide, ?_⟩
  rintro a b v ⟨k, hk⟩
  have hw : WF [(⟨0, 30, 7⟩ : Entry Nat)] := ⟨by simp, by simp, by simp⟩
  obtain ⟨h1, _⟩ := (find_iff hw _ _ _ _).1 hk
  simp at h1
  omega

/-- An overlapping insertion fails. -/
example : (inject [⟨0, 10, 7⟩, ⟨20, 30, 7⟩] 5 15 8).2 = false ∧ (insert [⟨0, 10, 7⟩] 10 15 7 : Map Nat × Bool) = ([⟨0, 10, 7⟩, ⟨10, 15, 7⟩], true) := by
  decide

/-- **C29 is false of `erase(l, r)`.** Erasing `[0, 5)` from `[0, 10)` leaves an empty interval `[0, 0)`
behind, and point 0 keeps its value. Erasing `[5, 10)` from `[0, 10)` gives a value to point 10, which
never had one. With an adjacent interval of the same value, that whole interval is lost. -/
theorem C29_erase_range_refuted :
    (eraseRange [⟨0, 10, 7⟩] 0 5 : Option (Map Nat)) = some [⟨0, 0, 7⟩, ⟨5, 10, 7⟩] ∧
    lookup ([⟨0, 0, 7⟩, ⟨5, 10, 7⟩] : Map Nat) 0 = some 7 ∧
    (eraseRange [⟨0, 10, 7⟩] 5 10 : Option (Map Nat)) = some [⟨0, 5, 7⟩, ⟨10, 10, 7⟩] ∧
    lookup ([⟨0, 10, 7⟩] : Map Nat) 10 = none ∧ lookup ([⟨0, 5, 7⟩, ⟨10, 10, 7⟩] : Map Nat) 10 = some 7 ∧
    (eraseRange [⟨0, 10, 7⟩, ⟨10, 20, 7⟩] 5 10 : Option (Map Nat)) = some [⟨0, 5, 7⟩] ∧
    Reach ([⟨0, 10, 7⟩, ⟨10, 20, 7⟩] : Map Nat) := by
  refine ⟨by decide, by decide, by decide, by decide, by decide, by decide, ?_⟩
  exact .step (op := .insert 10 20 7) (b := true) (m := [⟨0, 10, 7⟩])
    (.step (op := .insert 0 10 7) (b := true) (m := []) .empty (show 0 < 10 by decide) (by decide))
    (show 10 < 20 by decide) (by decide)

end Verif.RangeMap
