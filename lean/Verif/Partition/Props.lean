import Verif.Partition.Answer

/-! # C102: A partition finds its events -/

namespace Verif.Partition
open Verif.Data Verif.Expr Verif.Evaluator Verif.Partition.Spec
open Verif.Evaluator.Spec (Has Sat SatAll SatAny InResults)
open Verif.MetaIndex (Field)

variable {τ : Type} [DecidableEq τ]

/-- C102: every event of the partition that satisfies the query is among the hits, in whichever order the indexers reply.
    Partial: `Covered` needs complete indexes of the columns in question, no `skip` attribute there, extractors with
    literals, times for `:timestamp`, and names of layouts that are no prefixes of names of columns of other layouts if
    the query has a negated `#field` predicate. Without these it fails, see below. -/
theorem C102_found_partial (R : Regex) (T : TypeSys τ) (answer : τ → List (Nat × Data) → RelOp → Data → Option Ids)
    (skip : τ → Bool) (slices : List (Slice τ)) (part : Part τ) (hb : build skip slices = some part)
    (hq : Qualified slices) (ho : OwnIds slices) (e : Expr τ) (hn : e.noNeg) (he : e.noEmpty) (hnil : e.noNil)
    (hc : ∀ p ∈ e.preds, Covered R T answer skip slices part p)
    (order : List (Position × Option Ids)) (horder : order.Perm (requests R T answer part e))
    (s : Slice τ) (hs : s ∈ slices) (i : Nat) (row : Row) (hi : (i, row) ∈ s.events) (hsat : sat R T s.layout row e = true) :
    Has (hits e order) i := by
  have h := holds_build hb
  rw [has_hits hn he horder]
  refine sat_of_eval (satPred R T s.layout row) _ e [0] hn (fun o p hf hp => ?_) hsat
  have hall := allResolve T part e fun p hp => (hc p hp).plain
  obtain ⟨qs, h1, q, h2, ids, h3, h4⟩ := reply_complete h hq ho (hc p (follow_preds e o p hf)) hs hi hp
  exact ⟨ids, (mem_requests hnil hall _ _).2 ⟨rfl, p, qs, q, by rw [List.singleton_append, at_follow]; exact hf, h1, h2, h3⟩, h4⟩

/-- C102: the hits are only events of the partition that satisfy the query. Partial: `Tight` needs indexes that find
    nothing else, one column per layout for negated operators, and names of layouts that are no prefixes of names of
    columns of other layouts for `#field`. Without these, the store has to check the candidates (C25). -/
theorem C102_only_partial (R : Regex) (T : TypeSys τ) (answer : τ → List (Nat × Data) → RelOp → Data → Option Ids)
    (skip : τ → Bool) (slices : List (Slice τ)) (part : Part τ) (hb : build skip slices = some part)
    (hq : Qualified slices) (ho : OwnIds slices) (e : Expr τ) (hn : e.noNeg) (he : e.noEmpty) (hnil : e.noNil)
    (hc : ∀ p ∈ e.preds, Tight R T answer slices part p)
    (order : List (Position × Option Ids)) (horder : order.Perm (requests R T answer part e))
    (s : Slice τ) (hs : s ∈ slices) (i : Nat) (row : Row) (hi : (i, row) ∈ s.events) (hhit : Has (hits e order) i) :
    sat R T s.layout row e = true := by
  have h := holds_build hb
  rw [has_hits hn he horder] at hhit
  refine eval_of_sat (satPred R T s.layout row) _ e [0] hn (fun o p hf hp => ?_) hhit
  have hall := allResolve T part e fun p hp => (hc p hp).plain
  obtain ⟨ids, hm, hids⟩ := hp
  rw [mem_requests hnil hall] at hm
  obtain ⟨_, p', qs, q, h1, h2, h3, h4⟩ := hm
  rw [List.singleton_append, at_follow, hf] at h1
  cases h1
  obtain ⟨s', hs', row', hi', hsat⟩ := reply_sound h hq ho (hc p (follow_preds e o p hf)) h2 h3 h4 hids
  obtain ⟨hl, rfl⟩ := ho s hs s' hs' i row row' hi hi'
  rw [hl]
  exact hsat

/-! ### Both hold for indexes that look at all values -/

/-- The index that looks at all its values. -/
def scan (R : Regex) (values : List (Nat × Data)) (op : RelOp) (d : Data) : Ids :=
  (List.range ((values.map (·.1)).foldr max 0 + 1)).map fun i => values.any fun x => x.1 == i && Data.evaluate R x.2 op d

theorem le_foldr_max : ∀ (xs : List Nat) (i : Nat), i ∈ xs → i ≤ xs.foldr max 0
  | [], _, h => by cases h
  | x :: xs, i, h => by
    rw [List.foldr_cons]
    rcases List.mem_cons.1 h with rfl | h
    · exact Nat.le_max_left ..
    · exact Nat.le_trans (le_foldr_max xs i h) (Nat.le_max_right ..)

theorem has_scan (R : Regex) (values : List (Nat × Data)) (op : RelOp) (d : Data) (i : Nat) :
    Has (scan R values op d) i ↔ ∃ v, (i, v) ∈ values ∧ Data.evaluate R v op d = true := by
  rw [Has, scan, List.getElem?_map]
  constructor
  · intro h
    rw [Option.map_eq_some_iff] at h
    obtain ⟨j, hj, h⟩ := h
    rw [List.any_eq_true] at h
    obtain ⟨x, hx, h⟩ := h
    rw [Bool.and_eq_true, beq_iff_eq] at h
    have hij : i = j := by
      rw [List.getElem?_eq_some_iff] at hj
      obtain ⟨_, hj⟩ := hj
      simpa using hj
    exact ⟨x.2, by rw [hij, ← h.1]; exact hx, h.2⟩
  · rintro ⟨v, hv, he⟩
    have : i < (values.map (·.1)).foldr max 0 + 1 := Nat.lt_succ_of_le (le_foldr_max _ i (List.mem_map.2 ⟨_, hv, rfl⟩))
    rw [List.getElem?_range this, Option.map_some]
    refine congrArg some (List.any_eq_true.2 ⟨(i, v), hv, ?_⟩)
    simp [he]

theorem scan_complete (R : Regex) (t : τ) (values : List (Nat × Data)) (op : RelOp) (d : Data) :
    Complete R (fun _ v o x => some (scan R v o x)) t values op d :=
  ⟨_, rfl, fun i v hv he => (has_scan ..).2 ⟨v, hv, he⟩⟩

theorem scan_sound (R : Regex) (t : τ) (values : List (Nat × Data)) (op : RelOp) (d : Data) :
    Sound R (fun _ v o x => some (scan R v o x)) t values op d := by
  rintro ids h i hi
  cases h
  exact (has_scan ..).1 hi

/-! ### Examples -/

/-- Field extractors select by suffix, all columns have the same type. -/
def types : TypeSys Unit where
  compatible _ _ _ := true
  congruent _ _ := true
  named _ _ _ _ := false
  timestamp _ := false
  suffix k n := endsWith n k

/-- No regular expressions. -/
def noRegex : Regex := ⟨fun _ _ => false, fun _ _ => false⟩

/-- Two slices of different layouts: `a` with the field `x` and `b` with the fields `x` and `y`. -/
def two : List (Slice Unit) :=
  [⟨⟨str "a", [⟨str "a.x", ()⟩]⟩, [[.count 1], [.count 2]], 3⟩,
    ⟨⟨str "b", [⟨str "b.x", ()⟩, ⟨str "b.y", ()⟩]⟩, [[.count 2, .count 7]], 5⟩]

/-- `x == 2 || #field == "y" && y == 8` -/
def query : Expr Unit := .disj [.pred ⟨.field (str "x"), .equal, .data (.count 2)⟩,
  .conj [.pred ⟨.metaField, .equal, .data (.string (str "y"))⟩, .pred ⟨.field (str "y"), .equal, .data (.count 8)⟩]]

theorem endsWith_dot {n k : Str} (h : endsWith n k = true) : endsWith (46 :: n) k = true := by
  rw [endsWith, List.isSuffixOf_iff_suffix] at *
  exact h.trans (List.suffix_cons _ _)

theorem two_ids : OwnIds two := by
  intro s hs s' hs' i row row' h h'
  rw [mem_events] at h h'
  simp only [two, List.mem_cons, List.not_mem_nil, or_false] at hs hs'
  rcases hs with rfl | rfl <;> rcases hs' with rfl | rfl
  · exact ⟨rfl, Option.some.inj (h.2.symm.trans h'.2)⟩
  · have h1 := (List.getElem?_eq_some_iff.1 h.2).1
    simp at h1
    have := h'.1
    simp at this
    omega
  · have h1 := (List.getElem?_eq_some_iff.1 h'.2).1
    simp at h1
    have := h.1
    simp at this
    omega
  · exact ⟨rfl, Option.some.inj (h.2.symm.trans h'.2)⟩

theorem two_qualified : Qualified two := by
  intro s hs c hc
  simp only [two, List.mem_cons, List.not_mem_nil, or_false] at hs
  rcases hs with rfl | rfl <;> simp only [List.mem_cons, List.not_mem_nil, or_false] at hc
  · subst hc; decide
  · rcases hc with rfl | rfl <;> decide

theorem two_names : OwnNames two := by
  intro s hs s' hs' c hc h
  simp only [two, List.mem_cons, List.not_mem_nil, or_false] at hs hs'
  rcases hs with rfl | rfl <;> rcases hs' with rfl | rfl
  · exact ⟨c, hc, rfl⟩
  · simp only [List.mem_cons, List.not_mem_nil, or_false] at hc
    rcases hc with rfl | rfl <;> exact absurd h (by decide)
  · simp only [List.mem_cons, List.not_mem_nil, or_false] at hc
    subst hc; exact absurd h (by decide)
  · exact ⟨c, hc, rfl⟩

/-- The example meets the hypotheses of `C102_found_partial` and, but for the leading dot, of `C102_only_partial`: the hits
    are the events 4 and 5, also if the replies arrive in reverse. -/
example : ∃ part, build (fun _ => false) two = some part ∧ Qualified two ∧ OwnIds two ∧ query.noNeg ∧ query.noEmpty ∧ query.noNil ∧
    (∀ p ∈ query.preds, Covered noRegex types (fun _ v o x => some (scan noRegex v o x)) (fun _ => false) two part p) ∧
    (requests noRegex types (fun _ v o x => some (scan noRegex v o x)) part query).map (·.1) = [[0, 0], [0, 0], [0, 1, 0], [0, 1, 1]] ∧
    hits query (requests noRegex types (fun _ v o x => some (scan noRegex v o x)) part query).reverse =
      [false, false, false, false, true, true] := by
  refine ⟨_, rfl, two_qualified, two_ids, by simp [query, Expr.noNeg, Expr.noNegAll], by simp [query, Expr.noEmpty, Expr.noEmptyAll],
    by simp [query, Expr.noNil, Expr.noNilAll], fun p hp => ?_, by decide +kernel, by decide +kernel⟩
  have hpl : Plain p := by
    simp only [query, Expr.preds, Expr.predsAll, List.mem_append, List.mem_singleton, List.not_mem_nil, or_false] at hp
    rcases hp with rfl | rfl | rfl
    all_goals exact ⟨⟨_, rfl⟩, (by rintro t i ⟨⟩), (by rintro ⟨⟩)⟩
  exact ⟨hpl, fun k _ n h => endsWith_dot h, fun d _ f _ _ => ⟨rfl, scan_complete ..⟩, fun _ _ => two_names⟩

example : ∃ part, build (fun _ => false) two = some part ∧
    ∀ p ∈ (Expr.pred ⟨.type (), .equal, .data (.count 2)⟩ : Expr Unit).preds,
      Tight noRegex types (fun _ v o x => some (scan noRegex v o x)) two part p := by
  refine ⟨_, rfl, fun p hp => ?_⟩
  simp only [Expr.preds, List.mem_singleton] at hp
  subst hp
  exact ⟨⟨⟨_, rfl⟩, (by rintro t i ⟨⟩), (by rintro ⟨⟩)⟩, (by rintro k ⟨⟩), fun d _ f _ _ => scan_sound _ _ _ _ _, (by rintro d _ ⟨⟩), (by rintro ⟨⟩)⟩

/-! ### Where it fails -/

/-- Two layouts, where the name of one is a prefix of the other, as `zeek.dns` and `zeek.dns_stats` would be. -/
def prefixed : List (Slice Unit) :=
  [⟨⟨str "a", [⟨str "a.x", ()⟩]⟩, [[.count 1]], 0⟩, ⟨⟨str "ab", [⟨str "ab.y", ()⟩]⟩, [[.count 2]], 1⟩]

/-- C102 fails for a negated `#field` predicate if the name of a layout is a prefix of the name of another: the event of
    the layout `a` has no field `y` and satisfies `#field != "y"`, but the partition takes the field `ab.y` for one of the
    layout `a`. -/
theorem C102_prefix_refuted : ∃ part, build (fun _ => false) prefixed = some part ∧
    (let e : Expr Unit := .pred ⟨.metaField, .notEqual, .data (.string (str "y"))⟩
     sat noRegex types ⟨str "a", [⟨str "a.x", ()⟩]⟩ [.count 1] e = true ∧
     hits e (requests noRegex types (fun _ v o x => some (scan noRegex v o x)) part e) = []) := by
  exact ⟨_, rfl, by decide +kernel, by decide +kernel⟩

/-- The same mistake finds events that do not satisfy `#field == "y"`. -/
theorem C102_prefix_extra_refuted : ∃ part, build (fun _ => false) prefixed = some part ∧
    (let e : Expr Unit := .pred ⟨.metaField, .equal, .data (.string (str "y"))⟩
     sat noRegex types ⟨str "a", [⟨str "a.x", ()⟩]⟩ [.count 1] e = false ∧
     hits e (requests noRegex types (fun _ v o x => some (scan noRegex v o x)) part e) = [true, true]) := by
  exact ⟨_, rfl, by decide +kernel, by decide +kernel⟩

/-- C102 fails for a query with `:timestamp` and a literal that is no time: the query cannot be resolved, and the
    partition answers that it has nothing, although an event satisfies `x == 2`. -/
theorem C102_error_refuted : ∃ part, build (fun _ => false) two = some part ∧
    (let e : Expr Unit := .disj [.pred ⟨.field (str "x"), .equal, .data (.count 2)⟩, .pred ⟨.typeName timestampName, .equal, .data (.count 5)⟩]
     sat noRegex types ⟨str "a", [⟨str "a.x", ()⟩]⟩ [.count 2] e = true ∧
     requests noRegex types (fun _ v o x => some (scan noRegex v o x)) part e = []) := by
  exact ⟨_, rfl, by decide +kernel, by decide +kernel⟩

/-- An index that fails for a predicate loses events, and nothing tells the user: the query still gets an answer. -/
theorem C102_failure_refuted : ∃ part, build (fun _ => false) two = some part ∧
    (let e : Expr Unit := .pred ⟨.field (str "x"), .equal, .data (.count 2)⟩
     sat noRegex types ⟨str "a", [⟨str "a.x", ()⟩]⟩ [.count 2] e = true ∧
     (requests noRegex types (fun _ _ _ _ => none) part e).map (·.1) = [[0], [0]] ∧
     hits e (requests noRegex types (fun _ _ _ _ => none) part e) = []) := by
  exact ⟨_, rfl, by decide +kernel, by decide +kernel, by decide +kernel⟩

/-- C102 fails for columns with the attribute `skip`: an event is not found by its value. -/
theorem C102_skip_refuted : ∃ part, build (fun _ => true) two = some part ∧
    (let e : Expr Unit := .pred ⟨.field (str "x"), .equal, .data (.count 2)⟩
     sat noRegex types ⟨str "a", [⟨str "a.x", ()⟩]⟩ [.count 2] e = true ∧
     hits e (requests noRegex types (fun _ v o x => some (scan noRegex v o x)) part e) = []) := by
  exact ⟨_, rfl, by decide +kernel, by decide +kernel⟩

/-- The hits are more than the events that satisfy a negated comparison with several columns: the predicate wants all
    columns to differ, the partition finds the events where one does. -/
theorem C102_negation_refuted : ∃ part, build (fun _ => false) two = some part ∧
    (let e : Expr Unit := .pred ⟨.type (), .notEqual, .data (.count 7)⟩
     sat noRegex types ⟨str "b", [⟨str "b.x", ()⟩, ⟨str "b.y", ()⟩]⟩ [.count 2, .count 7] e = false ∧
     hits e (requests noRegex types (fun _ v o x => some (scan noRegex v o x)) part e) = [false, false, false, true, true, true]) := by
  exact ⟨_, rfl, by decide +kernel, by decide +kernel⟩

/-- C102: a partition takes the slices in the order of their IDs; one with an ID below those of its layout violates an
    assertion. -/
theorem C102_order (skip : τ → Bool) (slices : List (Slice τ)) (s : Slice τ) (part : Part τ)
    (hb : build skip slices = some part) :
    build skip (slices ++ [s]) = none ↔
      ∃ ids, MetaIndex.find s.layout.name part.typeIds = some ids ∧ s.offset < ids.length := by
  rw [build, List.foldl_append, List.foldl_cons, List.foldl_nil]
  rw [build] at hb
  rw [hb, Option.bind_some, addSlice, Option.map_eq_none_iff, mark]
  cases MetaIndex.find s.layout.name part.typeIds with
  | none => simp
  | some ids => simp

end Verif.Partition
