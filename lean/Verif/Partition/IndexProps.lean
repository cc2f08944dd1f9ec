import Verif.Partition.Indexes
import Verif.Partition.QueryProps

/-! # C102 and C103 with the indexes of C11, C13 and C14 -/

namespace Verif.Partition
open Verif.Data Verif.Expr Verif.Evaluator Verif.Partition.Spec
open Verif.Evaluator.Spec (Has)
open Verif.MetaIndex (Field find find_mem)

variable {τ : Type} [DecidableEq τ]

namespace Spec

/-- What the slices and the query have to be like, for a partition with the indexes of C11, C13 and C14. `kind` is the
    index for a type. -/
structure Suited (R : Regex) (T : TypeSys τ) (kind : τ → Kind) (skip : τ → Bool) (slices : List (Slice τ)) (e : Expr τ) : Prop where
  qualified : Qualified slices
  ownIds : OwnIds slices
  ownColumns : OwnColumns slices
  plain : ∀ p ∈ e.preds, Plain p
  dot : ∀ p ∈ e.preds, ∀ k, p.lhs = .field k → ∀ n, T.suffix k (46 :: n) = T.suffix k n
  column : ∀ p ∈ e.preds, ∀ d, p.rhs = .data d → ∀ s ∈ slices, ∀ c ∈ s.layout.indexed,
    selects T p d c.1.name c.1.type = true → skip c.1.type = false ∧ Asks (kind c.1.type) p.op d ∧
      ∀ row ∈ s.rows, Fits (kind c.1.type) (row.getD c.2 .none) ∧
        (row.getD c.2 .none = .none → Data.evaluate R .none p.op d = decide (p.op = .notEqual))
  names : ∀ p ∈ e.preds, p.lhs = .metaField → OwnNames slices

end Spec

theorem mem_rows_of_events {s : Slice τ} {i : Nat} {row : Row} (h : (i, row) ∈ s.events) : row ∈ s.rows :=
  List.mem_of_getElem? ((mem_events s i row).1 h).2

/-- What `Suited` says about the values in an index of the partition. -/
theorem suited_field {R : Regex} {T : TypeSys τ} {kind : τ → Kind} {skip : τ → Bool} {slices : List (Slice τ)} {e : Expr τ}
    (hs : Suited R T kind skip slices e) {part : Part τ} (hb : build skip slices = some part) {p : Pred τ} (hp : p ∈ e.preds)
    {d : Data} (hd : p.rhs = .data d) {f : Field τ × List (Nat × Data)} (hf : f ∈ part.fields)
    (hsel : selects T p d f.1.fqn f.1.type = true) :
    skip f.1.type = false ∧ Asks (kind f.1.type) p.op d ∧ Increasing f.2 ∧ (∀ i v, (i, v) ∈ f.2 → Fits (kind f.1.type) v) ∧
      NullsAgree R f.2 p.op d := by
  have h := holds_build hb
  have hord := ordered_build hs.ownColumns hb
  obtain ⟨s, hs1, c, hc, hk⟩ := h.keys f hf
  have hcol := hs.column p hp d hd s hs1 c hc (by rw [hk] at hsel; exact hsel)
  refine ⟨by rw [hk]; exact hcol.1, by rw [hk]; exact hcol.2.1, (hord f hf).1, ?_, ?_⟩
  · intro i v hv
    obtain ⟨s, hs1, c, hc, hk, row, hr, he⟩ := h.valuesOnly f hf _ hv
    have hcol := hs.column p hp d hd s hs1 c hc (by rw [hk] at hsel; exact hsel)
    simp only at he
    rw [hk, he]
    exact (hcol.2.2 row (mem_rows_of_events hr)).1
  · intro i hv
    obtain ⟨s, hs1, c, hc, hk, row, hr, he⟩ := h.valuesOnly f hf _ hv
    have hcol := hs.column p hp d hd s hs1 c hc (by rw [hk] at hsel; exact hsel)
    exact (hcol.2.2 row (mem_rows_of_events hr)).2 he.symm

theorem suited_covered {R : Regex} {T : TypeSys τ} {kind : τ → Kind} {skip : τ → Bool} {slices : List (Slice τ)} {e : Expr τ}
    (hs : Suited R T kind skip slices e) {part : Part τ} (hb : build skip slices = some part) {p : Pred τ} (hp : p ∈ e.preds) :
    Covered R T (fun t => indexAnswer (kind t)) skip slices part p := by
  refine ⟨hs.plain p hp, fun k hk n h => by rw [hs.dot p hp k hk]; exact h, ?_, fun h _ => hs.names p hp h⟩
  intro d hd f hf hsel
  obtain ⟨h1, h2, h3, h4, h5⟩ := suited_field hs hb hp hd hf hsel
  refine ⟨h1, ?_⟩
  by_cases hk : kind f.1.type = .duration ∨ kind f.1.type = .time
  · obtain ⟨ids, g1, g2, _⟩ := time_index R (kind f.1.type) f.2 p.op d h3 hk h4 h2 h5
    exact ⟨ids, g1, g2⟩
  · obtain ⟨ids, g1, g2⟩ := exact_index R (kind f.1.type) f.2 p.op d h3 ⟨fun h => hk (.inl h), fun h => hk (.inr h)⟩ h4 h2 h5
    exact ⟨ids, g1, fun i v hv he => (g2 i).2 ⟨v, hv, he⟩⟩

theorem suited_within {R : Regex} {T : TypeSys τ} {kind : τ → Kind} {skip : τ → Bool} {slices : List (Slice τ)} {e : Expr τ}
    (hs : Suited R T kind skip slices e) {part : Part τ} (hb : build skip slices = some part) {p : Pred τ} (hp : p ∈ e.preds)
    {d : Data} (hd : p.rhs = .data d) {f : Field τ × List (Nat × Data)} (hf : f ∈ part.fields)
    (hsel : selects T p d f.1.fqn f.1.type = true) : Within (fun t => indexAnswer (kind t)) f.1.type f.2 p.op d := by
  obtain ⟨h1, h2, h3, h4, h5⟩ := suited_field hs hb hp hd hf hsel
  intro ids hids i hi
  by_cases hk : kind f.1.type = .duration ∨ kind f.1.type = .time
  · obtain ⟨ids', g1, _, g3⟩ := time_index R (kind f.1.type) f.2 p.op d h3 hk h4 h2 h5
    cases g1.symm.trans (show indexAnswer (kind f.1.type) f.2 p.op d = some ids from hids)
    exact g3 i hi
  · obtain ⟨ids', g1, g2⟩ := exact_index R (kind f.1.type) f.2 p.op d h3 ⟨fun h => hk (.inl h), fun h => hk (.inr h)⟩ h4 h2 h5
    cases g1.symm.trans (show indexAnswer (kind f.1.type) f.2 p.op d = some ids from hids)
    obtain ⟨v, hv, _⟩ := (g2 i).1 hi
    exact ⟨v, hv⟩

/-- C102 with the indexes of the code: every event that satisfies the query is among the hits. Partial: see `Suited`. -/
theorem C102_indexes_found_partial (R : Regex) (T : TypeSys τ) (kind : τ → Kind) (skip : τ → Bool) (slices : List (Slice τ))
    (part : Part τ) (hb : build skip slices = some part) (e : Expr τ) (hq : Query e) (hs : Suited R T kind skip slices e)
    (order : List (Position × Option Ids)) (horder : order.Perm (requests R T (fun t => indexAnswer (kind t)) part e))
    (s : Slice τ) (hs1 : s ∈ slices) (i : Nat) (row : Row) (hi : (i, row) ∈ s.events) (hsat : sat R T s.layout row e = true) :
    Has (hits e order) i :=
  C102_found_partial R T _ skip slices part hb hs.qualified hs.ownIds e hq.normal.noNegation hq.noEmpty hq.noNil
    (fun _ hp => suited_covered hs hb hp) order horder s hs1 i row hi hsat

/-- C102 with the indexes of the code: the hits are exactly the events that satisfy the query, unless a comparison is with
    a time or a duration, or a negated one is about several columns of a layout. -/
theorem C102_indexes_exact_partial (R : Regex) (T : TypeSys τ) (kind : τ → Kind) (skip : τ → Bool) (slices : List (Slice τ))
    (part : Part τ) (hb : build skip slices = some part) (e : Expr τ) (hq : Query e) (hs : Suited R T kind skip slices e)
    (hkind : ∀ p ∈ e.preds, ∀ d, p.rhs = .data d → (∀ x, d ≠ .time x) ∧ ∀ x, d ≠ .duration x)
    (hone : ∀ p ∈ e.preds, ∀ d, p.rhs = .data d → p.op.isNegated = true → ∀ s ∈ slices, AtMostOne T p d s.layout)
    (order : List (Position × Option Ids)) (horder : order.Perm (requests R T (fun t => indexAnswer (kind t)) part e))
    (s : Slice τ) (hs1 : s ∈ slices) (i : Nat) (row : Row) (hi : (i, row) ∈ s.events) :
    Has (hits e order) i ↔ sat R T s.layout row e = true := by
  constructor
  · refine C102_only_partial R T _ skip slices part hb hs.qualified hs.ownIds e hq.normal.noNegation hq.noEmpty hq.noNil ?_
      order horder s hs1 i row hi
    intro p hp
    refine ⟨hs.plain p hp, fun k hk n h => by rw [← hs.dot p hp k hk]; exact h, ?_, hone p hp, hs.names p hp⟩
    intro d hd f hf hsel
    obtain ⟨h1, h2, h3, h4, h5⟩ := suited_field hs hb hp hd hf hsel
    have hk : kind f.1.type ≠ .duration ∧ kind f.1.type ≠ .time := by
      obtain ⟨k1, k2⟩ := hkind p hp d hd
      constructor
      · intro hk
        rw [hk] at h2
        cases d <;> first | exact (False.elim h2) | exact k2 _ rfl
      · intro hk
        rw [hk] at h2
        cases d <;> first | exact (False.elim h2) | exact k1 _ rfl
    obtain ⟨ids, g1, g2⟩ := exact_index R (kind f.1.type) f.2 p.op d h3 hk h4 h2 h5
    intro ids' hids i hi
    have hids' : indexAnswer (kind f.1.type) f.2 p.op d = some ids' := hids
    rw [g1] at hids'; cases hids'
    exact (g2 i).1 hi
  · exact C102_indexes_found_partial R T kind skip slices part hb e hq hs order horder s hs1 i row hi

/-- C103 with the indexes of the code, for one partition: the store sends exactly the events that satisfy the query. -/
theorem C103_indexes_partial (R : Regex) (T : TypeSys τ) (kind : τ → Kind) (skip : τ → Bool) (slices : List (Slice τ))
    (part : Part τ) (hb : build skip slices = some part) (e : Expr τ) (hq : Query e) (hm : e.metaConjunctive)
    (hts : ∀ p ∈ e.preds, p.noTimestamp) (hs : Suited R T kind skip slices e)
    (hsafe : ∀ s ∈ slices, ∀ row ∈ s.rows, ∀ p ∈ e.preds, safeFor row p)
    (order : List (Position × Option Ids)) (horder : order.Perm (requests R T (fun t => indexAnswer (kind t)) part e)) :
    storeExtract R T e (hits e order) slices = some (matching R T e slices) := by
  refine C103_partition_partial R T _ skip slices part hb e hq hm hts ?_ order horder
  exact ⟨hs.qualified, hs.ownIds, fun _ hp => suited_covered hs hb hp,
    fun p hp k hk n h => by rw [← hs.dot p hp k hk]; exact h, fun p hp d hd f hf hsel => suited_within hs hb hp hd hf hsel,
    hs.names, hsafe⟩

/-! ### Examples -/

/-- Columns of all kinds: the type is the kind. Types fit literals of their kind, names select by suffix. -/
def kinds : TypeSys Kind where
  compatible t _ d := match t, d with
    | .bool, .bool _ | .integer, .int _ | .count, .count _ | .duration, .duration _ | .time, .time _ | .string, .string _
    | .address, .address _ | .address, .subnet _ | .subnet, .subnet _ => true
    | _, _ => false
  congruent t u := t == u
  named _ _ _ _ := false
  timestamp _ := false
  suffix k n := endsWith n k

/-- Two connections: a time, an address and a number of bytes, which the second lacks. -/
def conns : List (Slice Kind) :=
  [⟨⟨str "conn", [⟨str "conn.ts", .time⟩, ⟨str "conn.src", .address⟩, ⟨str "conn.bytes", .count⟩]⟩,
    [[.time 1200000000, .address (.v4 10 0 0 1), .count 100], [.time 1700000000, .address (.v4 10 0 0 2), .none]], 7⟩]

/-- `ts < 1.5s && (src in 10.0.0.0/8 || bytes != 100)` -/
def connQuery : Expr Kind := .conj [.pred ⟨.field (str "ts"), .less, .data (.time 1500000000)⟩,
  .disj [.pred ⟨.field (str "src"), .in_, .data (.subnet (Address.Subnet.make (.v4 10 0 0 0) 8))⟩,
    .pred ⟨.field (str "bytes"), .notEqual, .data (.count 100)⟩]]

theorem connQuery_preds {p : Pred Kind} (hp : p ∈ connQuery.preds) :
    p = ⟨.field (str "ts"), .less, .data (.time 1500000000)⟩ ∨
    p = ⟨.field (str "src"), .in_, .data (.subnet (Address.Subnet.make (.v4 10 0 0 0) 8))⟩ ∨
    p = ⟨.field (str "bytes"), .notEqual, .data (.count 100)⟩ := by
  simpa [connQuery, Expr.preds, Expr.predsAll] using hp

theorem conns_suited : Suited noRegex kinds id (fun _ => false) conns connQuery where
  qualified := by
    intro s hs c hc
    simp only [conns, List.mem_singleton] at hs
    subst hs
    simp only [List.mem_cons, List.not_mem_nil, or_false] at hc
    rcases hc with rfl | rfl | rfl <;> decide
  ownIds := by
    intro s hs s' hs' i row row' h h'
    simp only [conns, List.mem_singleton] at hs hs'
    subst hs hs'
    rw [mem_events] at h h'
    exact ⟨rfl, Option.some.inj (h.2.symm.trans h'.2)⟩
  ownColumns := by
    intro s hs
    simp only [conns, List.mem_singleton] at hs
    subst hs
    decide
  plain := by
    intro p hp
    rcases connQuery_preds hp with rfl | rfl | rfl <;> exact ⟨⟨_, rfl⟩, (by rintro t i ⟨⟩), (by rintro ⟨⟩)⟩
  dot := by
    intro p hp k hk n
    have h : k.head? ≠ some 46 := by
      rcases connQuery_preds hp with rfl | rfl | rfl <;> cases hk <;> decide
    rw [Bool.eq_iff_iff]
    exact ⟨endsWith_undot h, endsWith_dot⟩
  column := by
    intro p hp d hd s hs c hc hsel
    simp only [conns, List.mem_singleton] at hs
    subst hs
    simp only [Layout.indexed, List.zipIdx_cons, List.zipIdx_nil, List.mem_cons, List.not_mem_nil, or_false] at hc
    have hnet : Index.Spec.IsNet (Address.Subnet.make (.v4 10 0 0 0) 8) := ⟨_, _, by unfold Address.ValidPrefix; decide, rfl⟩
    rcases connQuery_preds hp with rfl | rfl | rfl <;> cases hd <;> rcases hc with rfl | rfl | rfl <;>
      first
      | exact absurd hsel (by decide)
      | skip
    · refine ⟨rfl, ⟨.inr (.inr (.inl rfl)), (by decide), by decide, by decide⟩, ?_⟩
      intro row hrow
      simp only [List.mem_cons, List.not_mem_nil, or_false] at hrow
      rcases hrow with rfl | rfl <;> exact ⟨⟨by decide, by decide⟩, (by rintro ⟨⟩)⟩
    · refine ⟨rfl, ⟨.inl rfl, hnet, by decide⟩, ?_⟩
      intro row hrow
      simp only [List.mem_cons, List.not_mem_nil, or_false] at hrow
      rcases hrow with rfl | rfl <;> exact ⟨trivial, (by rintro ⟨⟩)⟩
    · refine ⟨rfl, ⟨.inr (.inl rfl), by decide⟩, ?_⟩
      intro row hrow
      simp only [List.mem_cons, List.not_mem_nil, or_false] at hrow
      rcases hrow with rfl | rfl
      · exact ⟨by simp [Fits], (by rintro ⟨⟩)⟩
      · exact ⟨trivial, fun _ => rfl⟩
  names := by
    intro p hp
    rcases connQuery_preds hp with rfl | rfl | rfl <;> rintro ⟨⟩

theorem Spec.Suited.subset {R : Regex} {T : TypeSys τ} {kind : τ → Kind} {skip : τ → Bool} {slices : List (Slice τ)} {e e' : Expr τ}
    (h : Suited R T kind skip slices e) (hsub : ∀ p ∈ e'.preds, p ∈ e.preds) : Suited R T kind skip slices e' :=
  ⟨h.qualified, h.ownIds, h.ownColumns, fun p hp => h.plain p (hsub p hp), fun p hp => h.dot p (hsub p hp),
    fun p hp => h.column p (hsub p hp), fun p hp => h.names p (hsub p hp)⟩

theorem connQuery_query : Query connQuery where
  normal := by
    refine ⟨by simp [connQuery, Expr.noNeg, Expr.noNegAll], by simp [connQuery, Expr.noSingle, Expr.noSingleAll], ?_⟩
    intro p hp
    rcases connQuery_preds hp with rfl | rfl | rfl <;> simp [Pred.aligned, Operand.isExtractor]
  noEmpty := by simp [connQuery, Expr.noEmpty, Expr.noEmptyAll]
  noNil := by simp [connQuery, Expr.noNil, Expr.noNilAll]

/-- The example meets the hypotheses of `C102_indexes_found_partial` and `C103_indexes_partial`. The time index counts in
    seconds, so that the hits include the event at 1.7 s, which does not satisfy the query and which the store does not
    send. -/
example : ∃ part, build (fun _ => false) conns = some part ∧ Query connQuery ∧
    Suited noRegex kinds id (fun _ => false) conns connQuery ∧ connQuery.metaConjunctive ∧
    (∀ p ∈ connQuery.preds, p.noTimestamp) ∧ (∀ s ∈ conns, ∀ row ∈ s.rows, ∀ p ∈ connQuery.preds, safeFor row p) ∧
    hits connQuery (requests noRegex kinds indexAnswer part connQuery) =
      [false, false, false, false, false, false, false, true, true] ∧
    (matching noRegex kinds connQuery conns).map (·.2) = [[.time 1200000000, .address (.v4 10 0 0 1), .count 100]] := by
  refine ⟨_, rfl, connQuery_query, conns_suited, ?_, ?_, ?_, by decide +kernel, by rfl⟩
  · simp [connQuery, Expr.metaConjunctive, Expr.metaConjunctiveAll, Expr.preds, Expr.predsAll, Pred.isMeta, Operand.isMeta]
  · intro p hp
    rcases connQuery_preds hp with rfl | rfl | rfl <;> simp [Pred.noTimestamp] <;> decide
  · intro s hs row hrow p hp _ d hd i
    simp only [conns, List.mem_singleton] at hs
    subst hs
    simp only [List.mem_cons, List.not_mem_nil, or_false] at hrow
    rcases connQuery_preds hp with rfl | rfl | rfl <;> cases hd <;> rcases hrow with rfl | rfl <;>
      rcases i with _ | _ | _ | i <;> rfl

/-- `bytes != 100` -/
def exactQuery : Expr Kind := .pred ⟨.field (str "bytes"), .notEqual, .data (.count 100)⟩

/-- The example meets the hypotheses of `C102_indexes_exact_partial`: the hit is the event without a number of bytes. -/
example : ∃ part, build (fun _ => false) conns = some part ∧ Query exactQuery ∧
    Suited noRegex kinds id (fun _ => false) conns exactQuery ∧
    (∀ p ∈ exactQuery.preds, ∀ d, p.rhs = .data d → (∀ x, d ≠ .time x) ∧ ∀ x, d ≠ .duration x) ∧
    (∀ p ∈ exactQuery.preds, ∀ d, p.rhs = .data d → p.op.isNegated = true → ∀ s ∈ conns, AtMostOne kinds p d s.layout) ∧
    hits exactQuery (requests noRegex kinds indexAnswer part exactQuery) =
      [false, false, false, false, false, false, false, false, true] := by
  have hsub : ∀ p ∈ exactQuery.preds, p ∈ connQuery.preds := by
    intro p hp
    simp only [exactQuery, Expr.preds, List.mem_singleton] at hp
    subst hp
    simp [connQuery, Expr.preds, Expr.predsAll]
  refine ⟨_, rfl, ⟨⟨by simp [exactQuery, Expr.noNeg], by simp [exactQuery, Expr.noSingle], ?_⟩, by simp [exactQuery, Expr.noEmpty],
    by simp [exactQuery, Expr.noNil]⟩, conns_suited.subset hsub, ?_, ?_, by decide +kernel⟩
  · intro p hp
    rcases connQuery_preds (hsub p hp) with rfl | rfl | rfl <;> simp [Pred.aligned, Operand.isExtractor]
  · intro p hp d hd
    simp only [exactQuery, Expr.preds, List.mem_singleton] at hp
    subst hp
    cases hd
    exact ⟨(by rintro x ⟨⟩), (by rintro x ⟨⟩)⟩
  · intro p hp d hd _ s hs c hc c' hc' h h'
    simp only [exactQuery, Expr.preds, List.mem_singleton] at hp
    subst hp
    cases hd
    simp only [conns, List.mem_singleton] at hs
    subst hs
    simp only [Layout.indexed, List.zipIdx_cons, List.zipIdx_nil, List.mem_cons, List.not_mem_nil, or_false] at hc hc'
    rcases hc with rfl | rfl | rfl <;> rcases hc' with rfl | rfl | rfl <;>
      first
      | rfl
      | exact absurd h (by decide)
      | exact absurd h' (by decide)

/-- C102 fails for nulls: `bytes < 1` holds for the event without a number of bytes, as the store and the evaluation of
    data see it, but the index does not find it. -/
theorem C102_null_refuted : ∃ part, build (fun _ => false) conns = some part ∧
    (let e : Expr Kind := .pred ⟨.field (str "bytes"), .less, .data (.count 1)⟩
     (matching noRegex kinds e conns).map (·.2) = [[.time 1700000000, .address (.v4 10 0 0 2), .none]] ∧
     hits e (requests noRegex kinds indexAnswer part e) = []) :=
  ⟨_, rfl, by rfl, by decide +kernel⟩

end Verif.Partition
