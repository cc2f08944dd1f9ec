import Verif.Partition.IndexProps

/-! # C104: Erasing the events that satisfy a query

An erase query takes the same way as every other query (C102, C103), but the store removes the hits without looking at
the events again (partition.cpp:887-900, archive.cpp:158-162, local_segment_store.cpp:149-153). -/

namespace Verif.Partition
open Verif.Data Verif.Expr Verif.Evaluator Verif.Partition.Spec
open Verif.Evaluator.Spec (Has)

variable {τ : Type} [DecidableEq τ]

/-- archive.cpp:158-162, local_segment_store.cpp:149-200: what is left in the store after an erase query with hits. C30 and
    C43 show for the stores that they remove exactly the given IDs. -/
def remaining (h : Ids) (slices : List (Slice τ)) : List (Layout τ × Nat × Row) :=
  slices.flatMap fun s => (s.events.filter fun ev => !hint h ev.1).map (s.layout, ·)

namespace Spec

/-- All events of slices. -/
def stored (slices : List (Slice τ)) : List (Layout τ × Nat × Row) := slices.flatMap fun s => s.events.map (s.layout, ·)

end Spec

theorem mem_remaining {h : Ids} {slices : List (Slice τ)} {x : Layout τ × Nat × Row} :
    x ∈ remaining h slices ↔ ∃ s ∈ slices, s.layout = x.1 ∧ x.2 ∈ s.events ∧ ¬ Has h x.2.1 := by
  simp only [remaining, List.mem_flatMap, List.mem_map, List.mem_filter]
  constructor
  · rintro ⟨s, hs, ev, ⟨he, hn⟩, rfl⟩
    exact ⟨s, hs, rfl, he, by simpa [hint, Has] using hn⟩
  · rintro ⟨s, hs, hl, he, hn⟩
    exact ⟨s, hs, x.2, ⟨he, by simpa [hint, Has] using hn⟩, by rw [hl]⟩

/-- C104: no event that satisfies the query is left. Partial: see `Suited`. -/
theorem C104_erased_partial (R : Regex) (T : TypeSys τ) (kind : τ → Kind) (skip : τ → Bool) (slices : List (Slice τ))
    (part : Part τ) (hb : build skip slices = some part) (e : Expr τ) (hq : Query e) (hs : Suited R T kind skip slices e)
    (order : List (Position × Option Ids)) (horder : order.Perm (requests R T (fun t => indexAnswer (kind t)) part e))
    (x : Layout τ × Nat × Row) (hx : x ∈ remaining (hits e order) slices) : sat R T x.1 x.2.2 e = false := by
  obtain ⟨s, hs1, hl, he, hn⟩ := mem_remaining.1 hx
  rw [← hl]
  refine Bool.eq_false_iff.mpr fun h => hn ?_
  exact C102_indexes_found_partial R T kind skip slices part hb e hq hs order horder s hs1 x.2.1 x.2.2 he h

/-- C104: what is left is exactly what does not satisfy the query. Partial: no comparison is with a time or a duration,
    negated comparisons are about at most one column, and see `Suited`. -/
theorem C104_exact_partial (R : Regex) (T : TypeSys τ) (kind : τ → Kind) (skip : τ → Bool) (slices : List (Slice τ))
    (part : Part τ) (hb : build skip slices = some part) (e : Expr τ) (hq : Query e) (hs : Suited R T kind skip slices e)
    (hkind : ∀ p ∈ e.preds, ∀ d, p.rhs = .data d → (∀ x, d ≠ .time x) ∧ ∀ x, d ≠ .duration x)
    (hone : ∀ p ∈ e.preds, ∀ d, p.rhs = .data d → p.op.isNegated = true → ∀ s ∈ slices, AtMostOne T p d s.layout)
    (order : List (Position × Option Ids)) (horder : order.Perm (requests R T (fun t => indexAnswer (kind t)) part e)) :
    remaining (hits e order) slices = (stored slices).filter fun x => !sat R T x.1 x.2.2 e := by
  have hex := C102_indexes_exact_partial R T kind skip slices part hb e hq hs hkind hone order horder
  have : ∀ l : List (Slice τ), (∀ s ∈ l, s ∈ slices) →
      remaining (hits e order) l = (stored l).filter fun x => !sat R T x.1 x.2.2 e := by
    intro l
    induction l with
    | nil => intro _; rfl
    | cons s l ih =>
      intro hl
      have h1 : remaining (hits e order) (s :: l) =
          (s.events.filter fun ev => !hint (hits e order) ev.1).map (s.layout, ·) ++ remaining (hits e order) l := rfl
      have h2 : stored (s :: l) = s.events.map (s.layout, ·) ++ stored l := rfl
      rw [h1, h2, List.filter_append, ih fun s' hs' => hl s' (List.mem_cons_of_mem _ hs'), List.filter_map]
      congr 2
      refine List.filter_congr fun ev hev => ?_
      have := hex s (hl s List.mem_cons_self) ev.1 ev.2 hev
      simp only [Function.comp_apply]
      congr 1
      rw [Bool.eq_iff_iff, ← this]
      simp [hint, Has]
  exact this slices fun _ h => h

/-- C104: a partition answers later queries with what is left, although its indexes still know the events that are gone.
    `slices'` are the slices that the store has afterwards: parts of the slices from before. -/
theorem C104_later_partial (R : Regex) (T : TypeSys τ) (kind : τ → Kind) (skip : τ → Bool) (slices slices' : List (Slice τ))
    (part : Part τ) (hb : build skip slices = some part) (e : Expr τ) (hq : Query e) (hm : e.metaConjunctive)
    (hts : ∀ p ∈ e.preds, p.noTimestamp) (hs : Suited R T kind skip slices e)
    (hsafe : ∀ s ∈ slices, ∀ row ∈ s.rows, ∀ p ∈ e.preds, safeFor row p)
    (order : List (Position × Option Ids)) (horder : order.Perm (requests R T (fun t => indexAnswer (kind t)) part e))
    (hpart : ∀ s' ∈ slices', ∃ s ∈ slices, s'.layout = s.layout ∧ ∀ ev ∈ s'.events, ev ∈ s.events) :
    storeExtract R T e (hits e order) slices' = some (matching R T e slices') := by
  have hrow : ∀ s' ∈ slices', ∀ row ∈ s'.rows, ∃ i, (i, row) ∈ s'.events := by
    intro s' _ row hr
    obtain ⟨j, hj, rfl⟩ := List.getElem_of_mem hr
    exact ⟨s'.offset + j, (mem_events ..).2 ⟨by omega, by simp⟩⟩
  refine storeExtract_exact R T e _ hq hm hts hs.plain slices' ?_ ?_ ?_
  · intro s' hs' row hr
    obtain ⟨i, hi⟩ := hrow s' hs' row hr
    obtain ⟨s, hs1, _, h2⟩ := hpart s' hs'
    exact hsafe s hs1 row (mem_rows_of_events (h2 _ hi))
  · intro s' hs' i row hi hsat
    obtain ⟨s, hs1, h1, h2⟩ := hpart s' hs'
    rw [h1] at hsat
    exact C102_indexes_found_partial R T kind skip slices part hb e hq hs order horder s hs1 i row (h2 _ hi) hsat
  · intro s' hs' i row hi hhit
    obtain ⟨s, hs1, h1, h2⟩ := hpart s' hs'
    rw [h1]
    refine hits_weak hb (R := R) (answer := fun t => indexAnswer (kind t)) ?_ hq.normal.noNegation hq.noEmpty hq.noNil horder hs1 (h2 _ hi) hhit
    exact ⟨hs.qualified, hs.ownIds, fun _ hp => suited_covered hs hb hp,
      fun p hp k hk n h => by rw [← hs.dot p hp k hk]; exact h, fun p hp d hd f hf hsel => suited_within hs hb hp hd hf hsel,
      hs.names, hsafe⟩

/-! ### Examples -/

/-- What an erase query with `bytes != 100` leaves of the connections (see the examples for C102 for its hypotheses). -/
example : ∃ part, build (fun _ => false) conns = some part ∧
    (remaining (hits exactQuery (requests noRegex kinds indexAnswer part exactQuery)) conns).map (·.2.1) = [7] ∧
    (stored conns).map (·.2.1) = [7, 8] :=
  ⟨_, rfl, by decide +kernel, by decide +kernel⟩

/-- The rest is a part of a slice from before. -/
example : ∀ s' ∈ [(⟨⟨str "conn", [⟨str "conn.ts", .time⟩, ⟨str "conn.src", .address⟩, ⟨str "conn.bytes", .count⟩]⟩,
      [[.time 1700000000, .address (.v4 10 0 0 2), .none]], 8⟩ : Slice Kind)],
    ∃ s ∈ conns, s'.layout = s.layout ∧ ∀ ev ∈ s'.events, ev ∈ s.events := by
  intro s' hs'
  rw [List.mem_singleton] at hs'
  subst hs'
  refine ⟨_, List.mem_singleton.2 rfl, rfl, ?_⟩
  intro ev hev
  simp [Slice.events] at hev ⊢
  exact .inr hev

/-! ### Where it fails -/

/-- C104, refuted for times. The aging query `ts < 1.5s` deletes the event at 1.7 s: the index counts in seconds, and
    nobody looks at the event again. -/
theorem C104_time_refuted : ∃ part, build (fun _ => false) conns = some part ∧
    (let e : Expr Kind := .pred ⟨.field (str "ts"), .less, .data (.time 1500000000)⟩
     (remaining (hits e (requests noRegex kinds indexAnswer part e)) conns).map (·.2.1) = [] ∧
     ((stored conns).filter fun x => !sat noRegex kinds x.1 x.2.2 e).map (·.2) =
       [(8, [.time 1700000000, .address (.v4 10 0 0 2), .none])]) :=
  ⟨_, rfl, by decide +kernel, by rfl⟩

/-- C104, refuted for negated comparisons with several columns: the event of `b` has a field that is 7, and `:count != 7`
    does not hold for it, but it is deleted. -/
theorem C104_negation_refuted : ∃ part, build (fun _ => false) two = some part ∧
    (let e : Expr Unit := .pred ⟨.type (), .notEqual, .data (.count 7)⟩
     (remaining (hits e (requests noRegex types (fun _ => indexAnswer .count) part e)) two).map (·.2.1) = [] ∧
     ((stored two).filter fun x => !sat noRegex types x.1 x.2.2 e).map (·.2) = [(5, [.count 2, .count 7])]) :=
  ⟨_, rfl, by decide +kernel, by rfl⟩

end Verif.Partition
