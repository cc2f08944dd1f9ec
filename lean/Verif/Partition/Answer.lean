import Verif.Partition.Lemmas

/-! # Lemmas about the replies to predicates -/

namespace Verif.Partition
open Verif.Data Verif.Expr Verif.Evaluator Verif.Partition.Spec
open Verif.Evaluator.Spec (Has Sat SatAll SatAny InResults)
open Verif.MetaIndex (Field find assign find_assign find_mem)
open Verif.Bitmap.Spec (pointwise)

set_option linter.unusedSectionVars false
variable {τ : Type} [DecidableEq τ]

/-! ### Resolution for the combined layout -/

omit [DecidableEq τ] in
theorem predsAll_map (f : Column τ × Nat → Pred τ) : ∀ l : List (Column τ × Nat),
    Expr.predsAll (l.map fun c => .pred (f c)) = l.map f
  | [] => rfl
  | c :: l => by rw [List.map_cons, Expr.predsAll, Expr.preds, predsAll_map f l]; rfl

omit [DecidableEq τ] in
theorem preds_connect (op : RelOp) (xs : List (Expr τ)) : (connect op xs).preds = Expr.predsAll xs := by
  match xs with
  | [] => rfl
  | [x] => simp [connect, Expr.predsAll]
  | x :: y :: zs =>
    rw [connect]
    · split <;> rw [Expr.preds]
    · intro h; cases h
    · intro x' h; cases h

theorem mem_resolveColumns (p : Part τ) (sel : Column τ → Bool) (op : RelOp) (d : Data) (q : Pred τ) :
    q ∈ (resolveColumns p.combined sel op d).preds ↔ ∃ (j : Nat) (f : Field τ × List (Nat × Data)), p.fields[j]? = some f ∧
      sel ⟨46 :: f.1.fqn, f.1.type⟩ = true ∧ q = ⟨.column f.1.type j, op, .data d⟩ := by
  rw [resolveColumns, preds_connect, predsAll_map (fun c => (⟨.column c.1.type c.2, op, .data d⟩ : Pred τ)), List.mem_map]
  constructor
  · rintro ⟨⟨c, j⟩, hc, rfl⟩
    rw [List.mem_filter, Layout.indexed, List.mem_zipIdx_iff_getElem?, Part.combined, List.getElem?_map, Option.map_eq_some_iff] at hc
    obtain ⟨⟨f, hf, hc⟩, hs⟩ := hc
    simp only at hc
    subst hc
    exact ⟨j, f, hf, hs, rfl⟩
  · rintro ⟨j, f, hf, hs, rfl⟩
    refine ⟨(⟨46 :: f.1.fqn, f.1.type⟩, j), ?_, rfl⟩
    rw [List.mem_filter, Layout.indexed, List.mem_zipIdx_iff_getElem?, Part.combined, List.getElem?_map, Option.map_eq_some_iff]
    exact ⟨⟨f, hf, rfl⟩, hs⟩

/-- The predicate is on columns, not on metadata. -/
def onColumns (p : Pred τ) : Bool := match p.lhs with
  | .field _ | .type _ | .typeName _ => true
  | _ => false

/-- A predicate on columns is sent to the indexers of the columns it selects. -/
theorem resolution_columns (T : TypeSys τ) (part : Part τ) (p : Pred τ) (d : Data) (hp : Plain p) (hd : p.rhs = .data d)
    (hc : onColumns p = true) : ∃ qs, resolution T part p = some qs ∧ ∀ q, q ∈ qs ↔
      ∃ (j : Nat) (f : Field τ × List (Nat × Data)), part.fields[j]? = some f ∧
        selects T p d (46 :: f.1.fqn) f.1.type = true ∧ q = ⟨.column f.1.type j, p.op, .data d⟩ := by
  obtain ⟨lhs, op, rhs⟩ := p
  simp only at hd
  subst hd
  cases lhs with
  | field k =>
    refine ⟨_, rfl, fun q => ?_⟩
    rw [mem_resolveColumns]; rfl
  | type t =>
    refine ⟨_, rfl, fun q => ?_⟩
    rw [mem_resolveColumns]; rfl
  | typeName n =>
    by_cases hn : n = timestampName
    · subst hn
      obtain ⟨t, ht⟩ := hp.time rfl
      simp only [Operand.data.injEq] at ht
      subst ht
      refine ⟨_, by simp [resolution, resolvePred, isTime]; rfl, fun q => ?_⟩
      simp only [Expr.preds, Expr.predsAll, List.append_nil, List.mem_append, mem_resolveColumns, selects]
      constructor
      · rintro (⟨j, f, h1, h2, h3⟩ | ⟨j, f, h1, h2, h3⟩)
        · exact ⟨j, f, h1, by simp [h2], h3⟩
        · exact ⟨j, f, h1, by simp [h2], h3⟩
      · rintro ⟨j, f, h1, h2, h3⟩
        simp only [Bool.or_eq_true, Bool.and_eq_true] at h2
        rcases h2 with h2 | h2
        · exact .inl ⟨j, f, h1, h2, h3⟩
        · exact .inr ⟨j, f, h1, h2.2, h3⟩
    · refine ⟨_, by simp [resolution, resolvePred, hn]; rfl, fun q => ?_⟩
      rw [mem_resolveColumns]
      simp [selects, hn]
  | metaType => cases hc
  | metaField => cases hc
  | column t i => cases hc
  | data x => cases hc

/-- A predicate on metadata stays as it is. -/
theorem resolution_meta (T : TypeSys τ) (part : Part τ) (p : Pred τ) (d : Data) (hd : p.rhs = .data d)
    (hc : onColumns p = false) : resolution T part p = some [p] := by
  obtain ⟨lhs, op, rhs⟩ := p
  simp only at hd
  subst hd
  cases lhs <;> first | rfl | cases hc

theorem allResolve (T : TypeSys τ) (part : Part τ) (e : Expr τ) (hp : ∀ p ∈ e.preds, Plain p) :
    AllResolve (resolution T part) e := by
  intro p hpe
  obtain ⟨d, hd⟩ := (hp p hpe).literal
  cases hc : onColumns p with
  | true =>
    obtain ⟨qs, h, _⟩ := resolution_columns T part p d (hp p hpe) hd hc
    rw [h]; rfl
  | false => rw [resolution_meta T part p d hd hc]; rfl

/-! ### When an event satisfies a predicate -/

omit [DecidableEq τ] in
theorem mem_indexed (l : Layout τ) (c : Column τ × Nat) (h : c ∈ l.indexed) : c.1 ∈ l.columns := by
  rw [Layout.indexed] at h
  exact List.fst_mem_of_mem_zipIdx h

omit [DecidableEq τ] in
/-- A predicate that holds, holds for one of the columns it selects. -/
theorem columnsSatisfy_some (R : Regex) (l : Layout τ) (row : Row) (sel : Column τ → Bool) (op : RelOp) (d : Data)
    (h : columnsSatisfy R l row sel op d = true) :
    ∃ c ∈ l.indexed, sel c.1 = true ∧ Data.evaluate R (row.getD c.2 .none) op d = true := by
  rw [columnsSatisfy] at h
  simp only [Bool.and_eq_true, Bool.not_eq_true', List.isEmpty_eq_false_iff] at h
  obtain ⟨hne, hv⟩ := h
  split at hv
  · obtain ⟨v, hm⟩ := List.exists_mem_of_ne_nil _ hne
    have := List.all_eq_true.1 hv v hm
    obtain ⟨c, hc, rfl⟩ := List.mem_map.1 hm
    rw [List.mem_filter] at hc
    exact ⟨c, hc.1, hc.2, this⟩
  · obtain ⟨v, hm, hv⟩ := List.any_eq_true.1 hv
    obtain ⟨c, hc, rfl⟩ := List.mem_map.1 hm
    rw [List.mem_filter] at hc
    exact ⟨c, hc.1, hc.2, hv⟩

omit [DecidableEq τ] in
theorem columnsSatisfy_of (R : Regex) (l : Layout τ) (row : Row) (sel : Column τ → Bool) (op : RelOp) (d : Data)
    (c : Column τ × Nat) (hc : c ∈ l.indexed) (hs : sel c.1 = true) (hv : Data.evaluate R (row.getD c.2 .none) op d = true)
    (hone : op.isNegated = true → ∀ c' ∈ l.indexed, sel c'.1 = true → c' = c) :
    columnsSatisfy R l row sel op d = true := by
  have hm : row.getD c.2 .none ∈ (l.indexed.filter fun c => sel c.1).map fun c => row.getD c.2 .none :=
    List.mem_map.2 ⟨c, List.mem_filter.2 ⟨hc, hs⟩, rfl⟩
  rw [columnsSatisfy]
  simp only [Bool.and_eq_true, Bool.not_eq_true', List.isEmpty_eq_false_iff]
  refine ⟨List.ne_nil_of_mem hm, ?_⟩
  split
  · rename_i hn
    rw [List.all_eq_true]
    intro v hv'
    obtain ⟨c', hc', rfl⟩ := List.mem_map.1 hv'
    rw [List.mem_filter] at hc'
    rw [hone hn c' hc'.1 hc'.2]
    exact hv
  · exact List.any_eq_true.2 ⟨_, hm, hv⟩

/-- A predicate on columns that holds for an event holds for the value of a selected column. -/
theorem satPred_columns (R : Regex) (T : TypeSys τ) (l : Layout τ) (row : Row) (p : Pred τ) (d : Data) (hd : p.rhs = .data d)
    (hc : onColumns p = true) (h : satPred R T l row p = true) :
    ∃ c ∈ l.indexed, selects T p d c.1.name c.1.type = true ∧ Data.evaluate R (row.getD c.2 .none) p.op d = true := by
  obtain ⟨lhs, op, rhs⟩ := p
  simp only at hd
  subst hd
  cases lhs with
  | field k => exact columnsSatisfy_some R l row (fun c => T.suffix k c.name && T.compatible c.type op d) op d h
  | type t => exact columnsSatisfy_some R l row (fun c => T.congruent c.type t) op d h
  | typeName n =>
    simp only [satPred, Bool.or_eq_true, Bool.and_eq_true] at h
    rcases h with h | ⟨hn, h⟩
    · obtain ⟨c, h1, h2, h3⟩ := columnsSatisfy_some R l row _ op d h
      exact ⟨c, h1, by simp [selects, h2], h3⟩
    · obtain ⟨c, h1, h2, h3⟩ := columnsSatisfy_some R l row _ op d h
      exact ⟨c, h1, by rw [selects]; simp only [hn, h2]; simp, h3⟩
  | metaType => cases hc
  | metaField => cases hc
  | column t i => cases hc
  | data x => cases hc

/-- The converse, if for a negated operator the column is the only one. -/
theorem satPred_of (R : Regex) (T : TypeSys τ) (l : Layout τ) (row : Row) (p : Pred τ) (d : Data) (hd : p.rhs = .data d)
    (hone : p.op.isNegated = true → AtMostOne T p d l) (c : Column τ × Nat) (h1 : c ∈ l.indexed)
    (h2 : selects T p d c.1.name c.1.type = true) (h3 : Data.evaluate R (row.getD c.2 .none) p.op d = true) :
    satPred R T l row p = true := by
  obtain ⟨lhs, op, rhs⟩ := p
  simp only at hd
  subst hd
  cases lhs with
  | field k => exact columnsSatisfy_of R l row (fun c => T.suffix k c.name && T.compatible c.type op d) op d c h1 h2 h3 fun hn c' hc' hs => hone hn c' hc' c h1 hs h2
  | type t => exact columnsSatisfy_of R l row (fun c => T.congruent c.type t) op d c h1 h2 h3 fun hn c' hc' hs => hone hn c' hc' c h1 hs h2
  | typeName n =>
    have h2' := h2
    simp only [selects, Bool.or_eq_true, Bool.and_eq_true] at h2'
    simp only [satPred, Bool.or_eq_true, Bool.and_eq_true]
    rcases h2' with h | ⟨hn, h⟩
    · exact .inl (columnsSatisfy_of R l row _ op d c h1 h h3 fun hneg c' hc' hs =>
        hone hneg c' hc' c h1 (by simp [selects, hs]) h2)
    · exact .inr ⟨hn, columnsSatisfy_of R l row _ op d c h1 h h3 fun hneg c' hc' hs =>
        hone hneg c' hc' c h1 (by simp only [selects, hn, hs]; simp) h2⟩
  | metaType => cases h2
  | metaField => cases h2
  | column t i => cases h2
  | data x => cases h2

/-! ### Metadata -/

theorem has_typeHits (R : Regex) (p : Part τ) (op : RelOp) (d : Data) (i : Nat) :
    Has (typeHits R p op d) i ↔ ∃ t ∈ p.typeIds, Data.evaluate R (.string t.1) op d = true ∧ Has t.2 i := by
  rw [typeHits, has_union]
  constructor
  · rintro ⟨x, hx, hi⟩
    obtain ⟨t, ht, rfl⟩ := List.mem_map.1 hx
    rw [List.mem_filter] at ht
    exact ⟨t, ht.1, ht.2, hi⟩
  · rintro ⟨t, h1, h2, h3⟩
    exact ⟨t.2, List.mem_map.2 ⟨t, List.mem_filter.2 ⟨h1, h2⟩, rfl⟩, h3⟩

theorem has_fieldIds (p : Part τ) (s : Str) (i : Nat) :
    Has (fieldIds p s) i ↔ ∃ f ∈ p.fields, endsWith f.1.fqn s = true ∧ ∃ t ∈ p.typeIds, t.1 <+: f.1.fqn ∧ Has t.2 i := by
  rw [fieldIds, has_union]
  constructor
  · rintro ⟨x, hx, hi⟩
    obtain ⟨f, hf, hx⟩ := List.mem_flatMap.1 hx
    obtain ⟨t, ht, rfl⟩ := List.mem_map.1 hx
    rw [List.mem_filter] at ht hf
    exact ⟨f, hf.1, hf.2, t, ht.1, List.isPrefixOf_iff_prefix.1 ht.2, hi⟩
  · rintro ⟨f, h1, h2, t, h3, h4, h5⟩
    exact ⟨t.2, List.mem_flatMap.2 ⟨f, List.mem_filter.2 ⟨h1, h2⟩, List.mem_map.2 ⟨t, List.mem_filter.2
      ⟨h3, List.isPrefixOf_iff_prefix.2 h4⟩, rfl⟩⟩, h5⟩

theorem mem_indexed_of (l : Layout τ) (c : Column τ) (h : c ∈ l.columns) : ∃ j, (c, j) ∈ l.indexed := by
  obtain ⟨j, hj⟩ := List.mem_iff_getElem?.1 h
  exact ⟨j, by rw [Layout.indexed, List.mem_zipIdx_iff_getElem?]; exact hj⟩

/-- With IDs and names of their own, the events of the layouts with such a field are found exactly. -/
theorem has_fieldIds_iff {skip : τ → Bool} {slices : List (Slice τ)} {part : Part τ} (h : Holds skip slices part)
    (hq : Qualified slices) (ho : OwnIds slices) (hn : OwnNames slices) {s : Slice τ} (hs : s ∈ slices) {i : Nat} {row : Row}
    (hi : (i, row) ∈ s.events) (x : Str) :
    Has (fieldIds part x) i ↔ ∃ c ∈ s.layout.columns, endsWith c.name x = true := by
  rw [has_fieldIds]
  constructor
  · rintro ⟨f, hf, he, t, ht, hpre, hti⟩
    obtain ⟨s1, hs1, hn1, row1, hr1⟩ := h.idsOnly t ht i hti
    obtain ⟨s2, hs2, c, hc, hk⟩ := h.keys f hf
    have hl := (ho s hs s1 hs1 i row row1 hi hr1).1
    rw [hk] at he hpre
    rw [← hn1] at hpre
    obtain ⟨c', hc', hname⟩ := hn s1 hs1 s2 hs2 c.1 (mem_indexed _ _ hc) hpre
    exact ⟨c', hl ▸ hc', by rw [hname]; exact he⟩
  · rintro ⟨c, hc, he⟩
    obtain ⟨j, hj⟩ := mem_indexed_of _ c hc
    obtain ⟨hist, hf, _⟩ := h.values s hs _ hj
    obtain ⟨ids, ht, hids⟩ := h.ids s hs
    exact ⟨_, find_mem hf, he, _, find_mem ht, hq s hs c hc, hids i row hi⟩

/-! ### Replies -/

theorem getElem_of_mem {f : Field τ × List (Nat × Data)} {part : Part τ} (h : f ∈ part.fields) : ∃ j : Nat, part.fields[j]? = some f :=
  List.mem_iff_getElem?.1 h

theorem selects_dot {T : TypeSys τ} {p : Pred τ} {d : Data} {n : Str} {t : τ}
    (hdot : ∀ k, p.lhs = .field k → T.suffix k n = true → T.suffix k (46 :: n) = true) (h : selects T p d n t = true) :
    selects T p d (46 :: n) t = true := by
  obtain ⟨lhs, op, rhs⟩ := p
  cases lhs with
  | field k =>
    simp only [selects, Bool.and_eq_true] at h ⊢
    exact ⟨hdot k rfl h.1, h.2⟩
  | _ => exact h

/-- An event that satisfies a predicate is in one of the replies. -/
theorem reply_complete {R : Regex} {T : TypeSys τ} {answer : τ → List (Nat × Data) → RelOp → Data → Option Ids} {skip : τ → Bool}
    {slices : List (Slice τ)} {part : Part τ} (h : Holds skip slices part) (hq : Qualified slices) (ho : OwnIds slices)
    {p : Pred τ} (hp : Covered R T answer skip slices part p) {s : Slice τ} (hs : s ∈ slices) {i : Nat} {row : Row}
    (hi : (i, row) ∈ s.events) (hsat : satPred R T s.layout row p = true) :
    ∃ qs, resolution T part p = some qs ∧ ∃ q ∈ qs, ∃ ids, reply R answer part q = some (some ids) ∧ Has ids i := by
  obtain ⟨d, hd⟩ := hp.plain.literal
  cases hc : onColumns p with
  | true =>
    obtain ⟨qs, h1, h2⟩ := resolution_columns T part p d hp.plain hd hc
    obtain ⟨c, hc1, hc2, hc3⟩ := satPred_columns R T s.layout row p d hd hc hsat
    obtain ⟨hist, hf, hv⟩ := h.values s hs c hc1
    have hmem := find_mem hf
    obtain ⟨j, hj⟩ := getElem_of_mem hmem
    obtain ⟨hskip, ids, ha, hids⟩ := hp.index d hd _ hmem hc2
    refine ⟨qs, h1, _, (h2 _).2 ⟨j, _, hj, selects_dot (fun k hk => hp.dot k hk _) hc2, rfl⟩, ids, ?_, hids i _ (hv hskip i row hi) hc3⟩
    simp only [reply, hj, Option.map_some]
    exact congrArg some ha
  | false =>
    refine ⟨_, resolution_meta T part p d hd hc, p, List.mem_singleton.2 rfl, ?_⟩
    have hneg := hp.field
    obtain ⟨lhs, op, rhs⟩ := p
    simp only at hd
    subst hd
    cases lhs with
    | metaType =>
      refine ⟨_, rfl, (has_typeHits ..).2 ?_⟩
      obtain ⟨ids, h1, h2⟩ := h.ids s hs
      exact ⟨_, find_mem h1, hsat, h2 i row hi⟩
    | metaField =>
      cases d with
      | string x =>
        refine ⟨_, rfl, ?_⟩
        simp only [satPred] at hsat
        rw [fieldHits]
        obtain ⟨ids, hti, hids⟩ := h.ids s hs
        cases hop : op.isNegated with
        | true =>
          rw [hop, Bool.true_xor, Bool.not_eq_true', List.any_eq_false] at hsat
          rw [if_pos rfl, has_xor]
          refine .inl ⟨(has_union ..).2 ⟨ids, List.mem_map.2 ⟨_, find_mem hti, rfl⟩, hids i row hi⟩, ?_⟩
          rw [has_fieldIds_iff h hq ho (hneg rfl hop) hs hi]
          rintro ⟨c, hc1, hc2⟩
          exact hsat c hc1 hc2
        | false =>
          rw [hop, Bool.false_xor, List.any_eq_true] at hsat
          obtain ⟨c, hc1, hc2⟩ := hsat
          rw [if_neg (by simp), has_fieldIds]
          obtain ⟨j, hj⟩ := mem_indexed_of _ c hc1
          obtain ⟨hist, hf, _⟩ := h.values s hs _ hj
          exact ⟨_, find_mem hf, hc2, _, find_mem hti, hq s hs c hc1, hids i row hi⟩
      | _ => cases hsat
    | column t j => exact absurd rfl (hp.plain.extractor t j)
    | data x => cases hsat
    | field k => cases hc
    | type t => cases hc
    | typeName n => cases hc

theorem selects_undot {T : TypeSys τ} {p : Pred τ} {d : Data} {n : Str} {t : τ}
    (hdot : ∀ k, p.lhs = .field k → T.suffix k (46 :: n) = true → T.suffix k n = true) (h : selects T p d (46 :: n) t = true) :
    selects T p d n t = true := by
  obtain ⟨lhs, op, rhs⟩ := p
  cases lhs with
  | field k =>
    simp only [selects, Bool.and_eq_true] at h ⊢
    exact ⟨hdot k rfl h.1, h.2⟩
  | _ => exact h

/-- An ID in one of the replies is that of an event that satisfies the predicate. -/
theorem reply_sound {R : Regex} {T : TypeSys τ} {answer : τ → List (Nat × Data) → RelOp → Data → Option Ids} {skip : τ → Bool}
    {slices : List (Slice τ)} {part : Part τ} (h : Holds skip slices part) (hq : Qualified slices) (ho : OwnIds slices)
    {p : Pred τ} (hp : Tight R T answer slices part p) {qs : List (Pred τ)} (hr : resolution T part p = some qs) {q : Pred τ}
    (hmem : q ∈ qs) {ids : Ids} (hreply : reply R answer part q = some (some ids)) {i : Nat} (hi : Has ids i) :
    ∃ s ∈ slices, ∃ row, (i, row) ∈ s.events ∧ satPred R T s.layout row p = true := by
  obtain ⟨d, hd⟩ := hp.plain.literal
  cases hc : onColumns p with
  | true =>
    obtain ⟨qs', h1, h2⟩ := resolution_columns T part p d hp.plain hd hc
    rw [hr] at h1
    cases h1
    obtain ⟨j, f, hj, hsel, rfl⟩ := (h2 q).1 hmem
    have hf : f ∈ part.fields := List.mem_of_getElem? hj
    have hsel' := selects_undot (fun k hk => hp.dot k hk _) hsel
    simp only [reply, hj, Option.map_some, Option.some.injEq] at hreply
    obtain ⟨v, hv, hev⟩ := hp.index d hd f hf hsel' ids hreply i hi
    obtain ⟨s, hs, c, hc1, hk, row, he, hval⟩ := h.valuesOnly f hf _ hv
    refine ⟨s, hs, row, he, satPred_of R T s.layout row p d hd (fun hn => hp.one d hd hn s hs) c hc1 ?_ ?_⟩
    · rw [hk] at hsel'; exact hsel'
    · rw [← hval]; exact hev
  | false =>
    rw [resolution_meta T part p d hd hc] at hr
    cases hr
    rw [List.mem_singleton] at hmem
    subst hmem
    have hfield := hp.field
    have hext := hp.plain.extractor
    obtain ⟨lhs, op, rhs⟩ := q
    simp only at hd
    subst hd
    cases lhs with
    | metaType =>
      simp only [reply, Option.some.injEq] at hreply
      subst hreply
      obtain ⟨t, ht, he, hti⟩ := (has_typeHits ..).1 hi
      obtain ⟨s, hs, hn, row, hrow⟩ := h.idsOnly t ht i hti
      exact ⟨s, hs, row, hrow, by simp only [satPred, hn]; exact he⟩
    | metaField =>
      cases d with
      | string x =>
        simp only [reply, Option.some.injEq] at hreply
        subst hreply
        have hn := hfield rfl
        have hev : ∀ t ∈ part.typeIds, Has t.2 i → ∃ s ∈ slices, ∃ row, (i, row) ∈ s.events := by
          intro t ht hti
          obtain ⟨s, hs, _, row, hrow⟩ := h.idsOnly t ht i hti
          exact ⟨s, hs, row, hrow⟩
        rw [fieldHits] at hi
        cases hop : op.isNegated with
        | true =>
          rw [hop, if_pos rfl, has_xor] at hi
          rcases hi with ⟨h1, h2⟩ | ⟨h1, h2⟩
          · obtain ⟨y, hy, hyi⟩ := (has_union ..).1 h1
            obtain ⟨t, ht, rfl⟩ := List.mem_map.1 hy
            obtain ⟨s, hs, row, hrow⟩ := hev t ht hyi
            refine ⟨s, hs, row, hrow, ?_⟩
            rw [has_fieldIds_iff h hq ho hn hs hrow] at h2
            simp only [satPred, hop, Bool.true_xor, Bool.not_eq_true', List.any_eq_false]
            exact fun c hc1 hc2 => h2 ⟨c, hc1, hc2⟩
          · obtain ⟨f, hf, _, t, ht, _, hti⟩ := (has_fieldIds ..).1 h2
            exact absurd ((has_union ..).2 ⟨t.2, List.mem_map.2 ⟨t, ht, rfl⟩, hti⟩) h1
        | false =>
          rw [hop, if_neg (by simp)] at hi
          obtain ⟨f, hf, _, t, ht, _, hti⟩ := (has_fieldIds ..).1 hi
          obtain ⟨s, hs, row, hrow⟩ := hev t ht hti
          refine ⟨s, hs, row, hrow, ?_⟩
          rw [has_fieldIds_iff h hq ho hn hs hrow] at hi
          simp only [satPred, hop, Bool.false_xor, List.any_eq_true]
          exact hi
      | _ => cases hreply
    | column t j => exact absurd rfl (hext t j)
    | data x => cases hreply
    | field k => cases hc
    | type t => cases hc
    | typeName n => cases hc

/-! ### Expressions -/

mutual
theorem sat_of_eval (pv : Pred τ → Bool) (v : Position → Prop) : ∀ (e : Expr τ) (o : Position), e.noNeg →
    (∀ o' p, follow o' e = some (.pred p) → pv p = true → v (o ++ o')) → e.eval pv = true → Sat v o e
  | .none, o, _, _, h => by rw [Expr.eval] at h; cases h
  | .pred p, o, _, hv, h => by
    rw [Expr.eval] at h
    have := hv [] p rfl h
    rwa [List.append_nil] at this
  | .conj xs, o, hn, hv, h => by
    rw [Expr.eval] at h
    rw [Expr.noNeg] at hn
    exact satAll_of_eval pv v xs o 0 hn (fun j x o' p hx hf => hv ((0 + j) :: o') p (by
      rw [Nat.zero_add, follow, child, hx]; exact hf)) h
  | .disj xs, o, hn, hv, h => by
    rw [Expr.eval] at h
    rw [Expr.noNeg] at hn
    exact satAny_of_eval pv v xs o 0 hn (fun j x o' p hx hf => hv ((0 + j) :: o') p (by
      rw [Nat.zero_add, follow, child, hx]; exact hf)) h
  | .neg x, o, hn, _, _ => by rw [Expr.noNeg] at hn; exact hn.elim

theorem satAll_of_eval (pv : Pred τ → Bool) (v : Position → Prop) : ∀ (xs : List (Expr τ)) (o : Position) (k : Nat), Expr.noNegAll xs →
    (∀ (j : Nat) (x : Expr τ) o' p, xs[j]? = some x → follow o' x = some (.pred p) → pv p = true → v (o ++ (k + j) :: o')) →
    Expr.evalAll pv xs = true → SatAll v o k xs
  | [], o, k, _, _, _ => by rw [SatAll]; trivial
  | x :: xs, o, k, hn, hv, h => by
    rw [Expr.evalAll, Bool.and_eq_true] at h
    rw [Expr.noNegAll] at hn
    rw [SatAll]
    refine ⟨sat_of_eval pv v x _ hn.1 (fun o' p hf hp => ?_) h.1, satAll_of_eval pv v xs o (k + 1) hn.2 (fun j y o' p hj hf hp => ?_) h.2⟩
    · have := hv 0 x o' p rfl hf hp
      simpa using this
    · have := hv (j + 1) y o' p (by simpa using hj) hf hp
      rwa [show k + (j + 1) = k + 1 + j by omega] at this

theorem satAny_of_eval (pv : Pred τ → Bool) (v : Position → Prop) : ∀ (xs : List (Expr τ)) (o : Position) (k : Nat), Expr.noNegAll xs →
    (∀ (j : Nat) (x : Expr τ) o' p, xs[j]? = some x → follow o' x = some (.pred p) → pv p = true → v (o ++ (k + j) :: o')) →
    Expr.evalAny pv xs = true → SatAny v o k xs
  | [], o, k, _, _, h => by rw [Expr.evalAny] at h; cases h
  | x :: xs, o, k, hn, hv, h => by
    rw [Expr.evalAny, Bool.or_eq_true] at h
    rw [Expr.noNegAll] at hn
    rw [SatAny]
    rcases h with h | h
    · refine .inl (sat_of_eval pv v x _ hn.1 (fun o' p hf hp => ?_) h)
      have := hv 0 x o' p rfl hf hp
      simpa using this
    · refine .inr (satAny_of_eval pv v xs o (k + 1) hn.2 (fun j y o' p hj hf hp => ?_) h)
      have := hv (j + 1) y o' p (by simpa using hj) hf hp
      rwa [show k + (j + 1) = k + 1 + j by omega] at this
end

mutual
theorem eval_of_sat (pv : Pred τ → Bool) (v : Position → Prop) : ∀ (e : Expr τ) (o : Position), e.noNeg →
    (∀ o' p, follow o' e = some (.pred p) → v (o ++ o') → pv p = true) → Sat v o e → e.eval pv = true
  | .none, o, _, _, h => by rw [Sat] at h; exact h.elim
  | .pred p, o, _, hv, h => by
    rw [Sat] at h
    rw [Expr.eval]
    exact hv [] p rfl (by rwa [List.append_nil])
  | .conj xs, o, hn, hv, h => by
    rw [Sat] at h
    rw [Expr.noNeg] at hn
    rw [Expr.eval]
    exact eval_of_satAll pv v xs o 0 hn (fun j x o' p hx hf => hv ((0 + j) :: o') p (by
      rw [Nat.zero_add, follow, child, hx]; exact hf)) h
  | .disj xs, o, hn, hv, h => by
    rw [Sat] at h
    rw [Expr.noNeg] at hn
    rw [Expr.eval]
    exact eval_of_satAny pv v xs o 0 hn (fun j x o' p hx hf => hv ((0 + j) :: o') p (by
      rw [Nat.zero_add, follow, child, hx]; exact hf)) h
  | .neg x, o, hn, _, _ => by rw [Expr.noNeg] at hn; exact hn.elim

theorem eval_of_satAll (pv : Pred τ → Bool) (v : Position → Prop) : ∀ (xs : List (Expr τ)) (o : Position) (k : Nat), Expr.noNegAll xs →
    (∀ (j : Nat) (x : Expr τ) o' p, xs[j]? = some x → follow o' x = some (.pred p) → v (o ++ (k + j) :: o') → pv p = true) →
    SatAll v o k xs → Expr.evalAll pv xs = true
  | [], o, k, _, _, _ => by rw [Expr.evalAll]
  | x :: xs, o, k, hn, hv, h => by
    rw [SatAll] at h
    rw [Expr.noNegAll] at hn
    rw [Expr.evalAll, Bool.and_eq_true]
    refine ⟨eval_of_sat pv v x _ hn.1 (fun o' p hf hp => hv 0 x o' p rfl hf (by simpa using hp)) h.1,
      eval_of_satAll pv v xs o (k + 1) hn.2 (fun j y o' p hj hf hp => hv (j + 1) y o' p (by simpa using hj) hf (by
        rwa [show k + (j + 1) = k + 1 + j by omega])) h.2⟩

theorem eval_of_satAny (pv : Pred τ → Bool) (v : Position → Prop) : ∀ (xs : List (Expr τ)) (o : Position) (k : Nat), Expr.noNegAll xs →
    (∀ (j : Nat) (x : Expr τ) o' p, xs[j]? = some x → follow o' x = some (.pred p) → v (o ++ (k + j) :: o') → pv p = true) →
    SatAny v o k xs → Expr.evalAny pv xs = true
  | [], o, k, _, _, h => by rw [SatAny] at h; exact h.elim
  | x :: xs, o, k, hn, hv, h => by
    rw [SatAny] at h
    rw [Expr.noNegAll] at hn
    rw [Expr.evalAny, Bool.or_eq_true]
    rcases h with h | h
    · exact .inl (eval_of_sat pv v x _ hn.1 (fun o' p hf hp => hv 0 x o' p rfl hf (by simpa using hp)) h)
    · exact .inr (eval_of_satAny pv v xs o (k + 1) hn.2 (fun j y o' p hj hf hp => hv (j + 1) y o' p (by simpa using hj) hf (by
        rwa [show k + (j + 1) = k + 1 + j by omega])) h)
end

mutual
theorem follow_preds : ∀ (e : Expr τ) (o : Position) (p : Pred τ), follow o e = some (.pred p) → p ∈ e.preds
  | .none, o, p, h => by cases o <;> simp [follow, child] at h
  | .pred q, o, p, h => by
    cases o with
    | nil => cases h; simp [Expr.preds]
    | cons i o => simp [follow, child] at h
  | .conj xs, o, p, h => by
    cases o with
    | nil => cases h
    | cons i o =>
      rw [follow, child] at h
      rw [Expr.preds]
      cases hx : xs[i]? with
      | none => rw [hx] at h; cases h
      | some x => rw [hx] at h; exact follow_predsAll xs i x o p hx h
  | .disj xs, o, p, h => by
    cases o with
    | nil => cases h
    | cons i o =>
      rw [follow, child] at h
      rw [Expr.preds]
      cases hx : xs[i]? with
      | none => rw [hx] at h; cases h
      | some x => rw [hx] at h; exact follow_predsAll xs i x o p hx h
  | .neg x, o, p, h => by
    cases o with
    | nil => cases h
    | cons i o =>
      rw [follow, child] at h
      rw [Expr.preds]
      split at h
      · exact follow_preds x o p h
      · cases h

theorem follow_predsAll : ∀ (xs : List (Expr τ)) (i : Nat) (x : Expr τ) (o : Position) (p : Pred τ), xs[i]? = some x →
    follow o x = some (.pred p) → p ∈ Expr.predsAll xs
  | [], i, x, o, p, hx, _ => by simp at hx
  | y :: xs, i, x, o, p, hx, h => by
    rw [Expr.predsAll]
    cases i with
    | zero => cases hx; exact List.mem_append_left _ (follow_preds y o p h)
    | succ i => exact List.mem_append_right _ (follow_predsAll xs i x o p (by simpa using hx) h)
end

omit [DecidableEq τ] in
theorem at_follow (e : Expr τ) (o : Position) : at_ e (0 :: o) = follow o e := by
  cases o <;> simp [at_, follow]

theorem mem_requests {R : Regex} {T : TypeSys τ} {answer : τ → List (Nat × Data) → RelOp → Data → Option Ids} {part : Part τ}
    {e : Expr τ} (hnil : e.noNil) (hall : AllResolve (resolution T part) e) (o : Position) (r : Option Ids) :
    (o, r) ∈ requests R T answer part e ↔ o.head? = some 0 ∧ ∃ p qs q, at_ e o = some (.pred p) ∧ resolution T part p = some qs ∧
      q ∈ qs ∧ reply R answer part q = some r := by
  rw [requests, List.mem_filterMap]
  constructor
  · rintro ⟨⟨o', q⟩, hm, hr⟩
    rw [Option.map_eq_some_iff] at hr
    obtain ⟨r', hr', he⟩ := hr
    simp only [Prod.mk.injEq] at he
    obtain ⟨rfl, rfl⟩ := he
    rw [C37_positions _ _ hnil] at hm
    obtain ⟨_, h0, p, qs, h1, h2, h3⟩ := hm
    exact ⟨h0, p, qs, q, h1, h2, h3, hr'⟩
  · rintro ⟨h0, p, qs, q, h1, h2, h3, h4⟩
    exact ⟨(o, q), (C37_positions _ _ hnil _ _).2 ⟨hall, h0, p, qs, h1, h2, h3⟩, by simp [h4]⟩

mutual
theorem sat_false {v : Position → Prop} (hv : ∀ o, ¬ v o) : ∀ (e : Expr τ) (o : Position), e.noNeg → e.noEmpty → ¬ Sat v o e
  | .none, o, _, _ => by rw [Sat]; exact id
  | .pred p, o, _, _ => by rw [Sat]; exact hv o
  | .conj xs, o, hn, he => by
    rw [Sat]
    rw [Expr.noNeg] at hn
    rw [Expr.noEmpty] at he
    cases xs with
    | nil => exact absurd rfl he.1
    | cons x xs =>
      rw [SatAll]
      rw [Expr.noNegAll] at hn
      rw [Expr.noEmptyAll] at he
      exact fun h => sat_false hv x _ hn.1 he.2.1 h.1
  | .disj xs, o, hn, he => by
    rw [Sat]
    rw [Expr.noNeg] at hn
    rw [Expr.noEmpty] at he
    exact satAny_false hv xs o 0 hn he.2
  | .neg x, o, hn, _ => by rw [Expr.noNeg] at hn; exact hn.elim

theorem satAny_false {v : Position → Prop} (hv : ∀ o, ¬ v o) : ∀ (xs : List (Expr τ)) (o : Position) (k : Nat), Expr.noNegAll xs →
    Expr.noEmptyAll xs → ¬ SatAny v o k xs
  | [], o, k, _, _ => by rw [SatAny]; exact id
  | x :: xs, o, k, hn, he => by
    rw [SatAny]
    rw [Expr.noNegAll] at hn
    rw [Expr.noEmptyAll] at he
    rintro (h | h)
    · exact sat_false hv x _ hn.1 he.1 h
    · exact satAny_false hv xs o (k + 1) hn.2 he.2 h
end

/-- The hits are what the replies satisfy. -/
theorem has_hits {e : Expr τ} (hn : e.noNeg) (he : e.noEmpty) {reqs order : List (Position × Option Ids)} (hp : order.Perm reqs)
    (i : Nat) : Has (hits e order) i ↔ Sat (InResults reqs i) [0] e := by
  rw [hits]
  split
  · rename_i h
    have : order = [] := by simpa using h
    subst this
    have : reqs = [] := hp.nil_eq.symm
    subst this
    constructor
    · intro h; exact absurd h (has_nil i)
    · intro h; exact absurd h (sat_false (by simp [InResults]) e _ hn he)
  · rename_i h
    have hne : order ≠ [] := by simpa using h
    obtain ⟨result, h1, h2⟩ := C37_order_independent_partial e hn he order order hne (List.Perm.refl _)
    rw [h1]
    simp only [List.headD_cons]
    rw [h2]
    have : InResults order i = InResults reqs i := by
      funext o
      simp only [InResults, hp.mem_iff]
    rw [this]

end Verif.Partition
