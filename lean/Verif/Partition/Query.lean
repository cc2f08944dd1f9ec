import Verif.Partition.Answer
import Verif.Expr.StoreProps
import Verif.MetaIndex.Props

/-! # A query from the catalog to the client

The index asks the meta index for candidate partitions (index.cpp:860-905), sends the query to them in some order
(index.cpp:939-1001, C39), each partition finds its hits (C102) and hands them to its store (partition.cpp:876-890), and the
store sends the rows that pass its check (local_segment_store.cpp:36-91, C25). This file puts these together. -/

namespace Verif.Partition
open Verif.Data Verif.Expr Verif.Evaluator Verif.Partition.Spec
open Verif.Evaluator.Spec (Has Sat SatAll SatAny InResults)
open Verif.MetaIndex (Field find find_mem)

set_option linter.unusedSectionVars false
variable {τ : Type} [DecidableEq τ]

/-- The ID set as a test. -/
def hint (h : Ids) (i : Nat) : Bool := h[i]? == some true

/-- local_segment_store.cpp:36-91 with segment.cpp:100-120: what the store of a partition sends for the hits of an extract
    query. It looks at the slices with an event among the hits only. `none` is an error. -/
def storeExtract (R : Regex) (T : TypeSys τ) (e : Expr τ) (h : Ids) : List (Slice τ) → Option (List (Layout τ × Row))
  | [] => some []
  | s :: rest =>
    if s.events.any fun ev => hint h ev.1 then
      (extract R T e (some (hint h)) s).bind fun rows => (storeExtract R T e h rest).map fun more => rows.map (s.layout, ·) ++ more
    else storeExtract R T e h rest

/-- index.cpp:939-1001: the query is sent to partitions, one after the other. `replies` is, for each partition, the order in
    which its indexers reply. -/
def ask (R : Regex) (T : TypeSys τ) (e : Expr τ) (parts : List (Nat × List (Slice τ))) (replies : Nat → List (Position × Option Ids)) :
    List Nat → Option (List (Layout τ × Row))
  | [] => some []
  | id :: rest => (find id parts).bind fun slices => (storeExtract R T e (hits e (replies id)) slices).bind fun rows =>
      (ask R T e parts replies rest).map (rows ++ ·)

/-! ### Specification -/

namespace Spec

/-- The events of slices that satisfy the query. -/
def matching (R : Regex) (T : TypeSys τ) (e : Expr τ) (slices : List (Slice τ)) : List (Layout τ × Row) :=
  slices.flatMap fun s => (s.rows.filter fun row => sat R T s.layout row e).map (s.layout, ·)

/-- The index finds only positions it has values for. -/
def Within (answer : τ → List (Nat × Data) → RelOp → Data → Option Ids) (t : τ) (values : List (Nat × Data)) (op : RelOp) (d : Data) : Prop :=
  ∀ ids, answer t values op d = some ids → ∀ i, Has ids i → ∃ v, (i, v) ∈ values

/-- What a partition and its indexes have to be like. -/
structure Indexed (R : Regex) (T : TypeSys τ) (answer : τ → List (Nat × Data) → RelOp → Data → Option Ids) (skip : τ → Bool)
    (slices : List (Slice τ)) (part : Part τ) (e : Expr τ) : Prop where
  qualified : Qualified slices
  ownIds : OwnIds slices
  covered : ∀ p ∈ e.preds, Covered R T answer skip slices part p
  dot : ∀ p ∈ e.preds, ∀ k, p.lhs = .field k → ∀ n, T.suffix k (46 :: n) = true → T.suffix k n = true
  within : ∀ p ∈ e.preds, ∀ d, p.rhs = .data d → ∀ f ∈ part.fields, selects T p d f.1.fqn f.1.type = true →
    Within answer f.1.type f.2 p.op d
  names : ∀ p ∈ e.preds, p.lhs = .metaField → OwnNames slices
  safe : ∀ s ∈ slices, ∀ row ∈ s.rows, ∀ p ∈ e.preds, safeFor row p

end Spec

/-! ### What the hits say about the layout -/

/-- A weaker test: the layout has a column for the predicate. -/
def weak (R : Regex) (T : TypeSys τ) (l : Layout τ) (p : Pred τ) : Bool :=
  match p.rhs with
  | .data d => if onColumns p then l.indexed.any fun c => selects T p d c.1.name c.1.type else satPred R T l [] p
  | _ => false

theorem satPred_row (R : Regex) (T : TypeSys τ) (l : Layout τ) (row : Row) (p : Pred τ) (hp : Plain p) (hc : onColumns p = false) :
    satPred R T l row p = satPred R T l [] p := by
  have hx := hp.extractor
  obtain ⟨lhs, op, rhs⟩ := p
  cases lhs with
  | column t i => exact absurd rfl (hx t i)
  | field k => cases hc
  | type t => cases hc
  | typeName n => cases hc
  | _ => cases rhs with
    | data d => first | rfl | (cases d <;> rfl)
    | _ => rfl

/-- A reply with the ID of an event is about a column of its layout. -/
theorem reply_weak {R : Regex} {T : TypeSys τ} {answer : τ → List (Nat × Data) → RelOp → Data → Option Ids} {skip : τ → Bool}
    {slices : List (Slice τ)} {part : Part τ} {e : Expr τ} (h : Holds skip slices part) (hx : Indexed R T answer skip slices part e)
    {p : Pred τ} (hpe : p ∈ e.preds) {qs : List (Pred τ)} (hr : resolution T part p = some qs) {q : Pred τ}
    (hmem : q ∈ qs) {ids : Ids} (hreply : reply R answer part q = some (some ids)) {i : Nat} (hi : Has ids i)
    {s : Slice τ} (hs : s ∈ slices) {row : Row} (hev : (i, row) ∈ s.events) : weak R T s.layout p = true := by
  have hp := (hx.covered p hpe).plain
  obtain ⟨d, hd⟩ := hp.literal
  cases hc : onColumns p with
  | true =>
    obtain ⟨qs', h1, h2⟩ := resolution_columns T part p d hp hd hc
    rw [hr] at h1
    cases h1
    obtain ⟨j, f, hj, hsel, rfl⟩ := (h2 q).1 hmem
    have hf : f ∈ part.fields := List.mem_of_getElem? hj
    have hsel' := selects_undot (fun k hk => hx.dot p hpe k hk _) hsel
    simp only [reply, hj, Option.map_some, Option.some.injEq] at hreply
    obtain ⟨v, hv⟩ := hx.within p hpe d hd f hf hsel' ids hreply i hi
    obtain ⟨s', hs', c, hc1, hk, row', he, _⟩ := h.valuesOnly f hf _ hv
    rw [(hx.ownIds s hs s' hs' i row row' hev he).1]
    simp only [weak, hd, hc, if_true]
    refine List.any_eq_true.2 ⟨c, hc1, ?_⟩
    rw [hk] at hsel'; exact hsel'
  | false =>
    have ht : Tight R T answer slices part p → weak R T s.layout p = true := by
      intro ht
      obtain ⟨s', hs', row', he, hsat⟩ := reply_sound h hx.qualified hx.ownIds ht hr hmem hreply hi
      rw [(hx.ownIds s hs s' hs' i row row' hev he).1]
      simp only [weak, hd, hc]
      rw [satPred_row R T _ row' p hp hc] at hsat
      simpa using hsat
    have hsel : ∀ d n t, selects T p d n t = true → False := by
      intro d n t h
      obtain ⟨lhs, op, rhs⟩ := p
      cases lhs with
      | field k => cases hc
      | type t => cases hc
      | typeName n => cases hc
      | _ => cases h
    refine ht ⟨hp, hx.dot p hpe, fun d _ f _ h => (hsel _ _ _ h).elim, fun d _ _ s _ c _ c' _ h => (hsel _ _ _ h).elim, hx.names p hpe⟩

theorem hits_weak {R : Regex} {T : TypeSys τ} {answer : τ → List (Nat × Data) → RelOp → Data → Option Ids} {skip : τ → Bool}
    {slices : List (Slice τ)} {part : Part τ} {e : Expr τ} (hb : build skip slices = some part) (hx : Indexed R T answer skip slices part e)
    (hn : e.noNeg) (he : e.noEmpty) (hnil : e.noNil) {order : List (Position × Option Ids)}
    (horder : order.Perm (requests R T answer part e)) {s : Slice τ} (hs : s ∈ slices) {i : Nat} {row : Row} (hi : (i, row) ∈ s.events)
    (hhit : Has (hits e order) i) : e.eval (weak R T s.layout) = true := by
  rw [has_hits hn he horder] at hhit
  refine eval_of_sat (weak R T s.layout) _ e [0] hn (fun o p hf hp => ?_) hhit
  have hall := allResolve T part e fun p hp => (hx.covered p hp).plain
  obtain ⟨ids, hm, hids⟩ := hp
  rw [mem_requests hnil hall] at hm
  obtain ⟨_, p', qs, q, h1, h2, h3, h4⟩ := hm
  rw [List.singleton_append, at_follow, hf] at h1
  cases h1
  exact reply_weak (holds_build hb) hx (follow_preds e o p hf) h2 h3 h4 hids hs hi

/-! ### The check of the store succeeds -/

theorem connect_ne_none (op : RelOp) {α : Type} (f : α → Pred τ) (xs : List α) (h : xs ≠ []) :
    connect op (xs.map fun x => Expr.pred (f x)) ≠ .none := by
  match xs with
  | [] => exact absurd rfl h
  | [x] => simp [connect]
  | x :: y :: zs =>
    simp only [List.map_cons, connect]
    split <;> simp

theorem resolveColumns_ne_none (l : Layout τ) (sel : Column τ → Bool) (op : RelOp) (d : Data)
    (h : (l.indexed.any fun c => sel c.1) = true) : resolveColumns l sel op d ≠ .none := by
  rw [resolveColumns]
  refine connect_ne_none op (fun c : Column τ × Nat => ⟨.column c.1.type c.2, op, .data d⟩) _ ?_
  obtain ⟨c, hc, hs⟩ := List.any_eq_true.1 h
  exact List.ne_nil_of_mem (List.mem_filter.2 ⟨hc, hs⟩)

/-- A predicate can be resolved, and not to nil if the layout has a column for it. -/
theorem resolvePred_weak (R : Regex) (T : TypeSys τ) (l : Layout τ) (p : Pred τ) (hp : Plain p) :
    ∃ c, resolvePred T l p = some c ∧ (weak R T l p = true → c ≠ .none) := by
  obtain ⟨d, hd⟩ := hp.literal
  have htime := hp.time
  obtain ⟨lhs, op, rhs⟩ := p
  simp only at hd
  subst hd
  cases lhs with
  | metaType => exact ⟨_, rfl, by simp⟩
  | metaField => exact ⟨_, rfl, by simp⟩
  | column t i => exact ⟨_, rfl, by simp⟩
  | data x => exact ⟨_, rfl, by simp⟩
  | field k => exact ⟨_, rfl, fun h => resolveColumns_ne_none l (fun c => T.suffix k c.name && T.compatible c.type op d) op d h⟩
  | type t => exact ⟨_, rfl, fun h => resolveColumns_ne_none l (fun c => T.congruent c.type t) op d h⟩
  | typeName n =>
    by_cases hn : n = timestampName
    · subst hn
      obtain ⟨t, ht⟩ := htime rfl
      simp only [Operand.data.injEq] at ht
      subst ht
      refine ⟨_, by simp [resolvePred, isTime]; rfl, by simp⟩
    · refine ⟨_, by simp [resolvePred, hn]; rfl, fun h => ?_⟩
      apply resolveColumns_ne_none
      simpa [weak, onColumns, selects, hn] using h

theorem isNone_false {e : Expr τ} (h : e ≠ .none) : e.isNone = false := by
  cases e <;> simp_all [Expr.isNone]

theorem tailorCollapse_ne_none (mk : List (Expr τ) → Expr τ) (hmk : ∀ xs, mk xs ≠ .none) (xs : List (Expr τ)) (hne : xs ≠ [])
    (h : ∀ x ∈ xs, x ≠ .none) : tailorCollapse mk xs ≠ .none := by
  match xs with
  | [] => exact absurd rfl hne
  | [x] => exact h x (by simp)
  | x :: y :: zs => exact hmk _

mutual
theorem resolve_weak (R : Regex) (T : TypeSys τ) (l : Layout τ) : ∀ (e : Expr τ), e.noNeg → e.noEmpty → (∀ p ∈ e.preds, Plain p) →
    ∃ c, Expr.resolve T l e = some c ∧ (e.eval (weak R T l) = true → c ≠ .none)
  | .none, _, _, _ => ⟨.none, rfl, fun h => by rw [Expr.eval] at h; cases h⟩
  | .pred p, _, _, hp => by
    rw [Expr.resolve]
    simp only [Expr.eval]
    exact resolvePred_weak R T l p (hp p (by simp [Expr.preds]))
  | .conj xs, hn, he, hp => by
    rw [Expr.noNeg] at hn
    rw [Expr.noEmpty] at he
    rw [Expr.preds] at hp
    rw [Expr.resolve]
    have h := resolveConj_weak R T l xs hn he.2 hp
    cases hr : resolveConj T l xs with
    | error => exact absurd hr h.1
    | unresolved => exact ⟨_, rfl, fun hw => absurd hr (h.2 (by rwa [Expr.eval] at hw)).1⟩
    | ok ys =>
      refine ⟨_, rfl, fun hw => ?_⟩
      obtain ⟨_, h2⟩ := h.2 (by rwa [Expr.eval] at hw)
      obtain ⟨h3, h4⟩ := h2 ys hr
      refine tailorCollapse_ne_none _ (by simp) ys ?_ h4
      intro hy
      subst hy
      have : xs.length = 0 := by simpa using h3.symm
      exact he.1 (List.length_eq_zero_iff.1 this)
  | .disj xs, hn, he, hp => by
    rw [Expr.noNeg] at hn
    rw [Expr.noEmpty] at he
    rw [Expr.preds] at hp
    rw [Expr.resolve]
    obtain ⟨ys, h1, h2, h3⟩ := resolveDisj_weak R T l xs hn he.2 hp
    rw [h1]
    exact ⟨_, rfl, fun hw => tailorCollapse_ne_none _ (by simp) ys (h2 (by rwa [Expr.eval] at hw)) h3⟩
  | .neg x, hn, _, _ => by rw [Expr.noNeg] at hn; exact hn.elim

theorem resolveConj_weak (R : Regex) (T : TypeSys τ) (l : Layout τ) : ∀ (xs : List (Expr τ)), Expr.noNegAll xs → Expr.noEmptyAll xs →
    (∀ p ∈ Expr.predsAll xs, Plain p) → resolveConj T l xs ≠ .error ∧ (Expr.evalAll (weak R T l) xs = true →
      resolveConj T l xs ≠ .unresolved ∧ ∀ ys, resolveConj T l xs = .ok ys → ys.length = xs.length ∧ ∀ y ∈ ys, y ≠ .none)
  | [], _, _, _ => by
    rw [resolveConj]
    refine ⟨by simp, fun _ => ⟨by simp, ?_⟩⟩
    intro ys h; cases h; simp
  | x :: xs, hn, he, hp => by
    rw [Expr.noNegAll] at hn
    rw [Expr.noEmptyAll] at he
    rw [Expr.predsAll] at hp
    obtain ⟨y, hy, hw⟩ := resolve_weak R T l x hn.1 he.1 fun p h => hp p (List.mem_append_left _ h)
    obtain ⟨h1, h2⟩ := resolveConj_weak R T l xs hn.2 he.2 fun p h => hp p (List.mem_append_right _ h)
    rw [resolveConj, hy]
    dsimp only
    constructor
    · split
      · simp
      · cases hr : resolveConj T l xs with
        | error => exact absurd hr h1
        | unresolved => simp
        | ok ys => simp
    · intro hev
      rw [Expr.evalAll, Bool.and_eq_true] at hev
      rw [isNone_false (hw hev.1)]
      obtain ⟨h3, h4⟩ := h2 hev.2
      cases hr : resolveConj T l xs with
      | error => exact absurd hr h1
      | unresolved => exact absurd hr h3
      | ok ys =>
        simp only [Bool.false_eq_true, if_false, ne_eq, reduceCtorEq, not_false_eq_true, true_and, LoopResult.ok.injEq, forall_eq']
        obtain ⟨h5, h6⟩ := h4 ys hr
        refine ⟨by simp [h5], ?_⟩
        intro z hz
        rcases List.mem_cons.1 hz with rfl | hz
        · exact hw hev.1
        · exact h6 z hz

theorem resolveDisj_weak (R : Regex) (T : TypeSys τ) (l : Layout τ) : ∀ (xs : List (Expr τ)), Expr.noNegAll xs → Expr.noEmptyAll xs →
    (∀ p ∈ Expr.predsAll xs, Plain p) → ∃ ys, resolveDisj T l xs = some ys ∧
      (Expr.evalAny (weak R T l) xs = true → ys ≠ []) ∧ ∀ y ∈ ys, y ≠ .none
  | [], _, _, _ => ⟨[], rfl, (fun h => by cases h), by simp⟩
  | x :: xs, hn, he, hp => by
    rw [Expr.noNegAll] at hn
    rw [Expr.noEmptyAll] at he
    rw [Expr.predsAll] at hp
    obtain ⟨y, hy, hw⟩ := resolve_weak R T l x hn.1 he.1 fun p h => hp p (List.mem_append_left _ h)
    obtain ⟨ys, h1, h2, h3⟩ := resolveDisj_weak R T l xs hn.2 he.2 fun p h => hp p (List.mem_append_right _ h)
    rw [resolveDisj, hy, h1]
    dsimp only
    by_cases hnone : y = .none
    · subst hnone
      refine ⟨ys, by simp [Expr.isNone], fun hev => ?_, h3⟩
      rw [Expr.evalAny, Bool.or_eq_true] at hev
      rcases hev with hev | hev
      · exact absurd rfl (hw hev)
      · exact h2 hev
    · refine ⟨y :: ys, by simp [isNone_false hnone], fun _ => by simp, ?_⟩
      intro z hz
      rcases List.mem_cons.1 hz with rfl | hz
      · exact hnone
      · exact h3 z hz
end

mutual
/-- Metadata predicates that are conjuncts hold if the expression does. -/
theorem meta_conjuncts (pv : Pred τ → Bool) : ∀ (e : Expr τ), e.noNeg → e.metaConjunctive → e.eval pv = true →
    ∀ p ∈ e.preds, p.isMeta = true → pv p = true
  | .none, _, _, h, p, hp, _ => by rw [Expr.eval] at h; cases h
  | .pred q, _, _, h, p, hp, _ => by
    rw [Expr.preds, List.mem_singleton] at hp
    subst hp
    rwa [Expr.eval] at h
  | .conj xs, hn, hm, h, p, hp, hmeta => by
    rw [Expr.noNeg] at hn
    rw [Expr.metaConjunctive] at hm
    rw [Expr.eval] at h
    rw [Expr.preds] at hp
    exact meta_conjunctsAll pv xs hn hm h p hp hmeta
  | .disj xs, _, hm, _, p, hp, hmeta => by
    rw [Expr.metaConjunctive] at hm
    rw [Expr.preds] at hp
    rw [hm p hp] at hmeta
    cases hmeta
  | .neg x, hn, _, _, _, _, _ => by rw [Expr.noNeg] at hn; exact hn.elim

theorem meta_conjunctsAll (pv : Pred τ → Bool) : ∀ (xs : List (Expr τ)), Expr.noNegAll xs → Expr.metaConjunctiveAll xs →
    Expr.evalAll pv xs = true → ∀ p ∈ Expr.predsAll xs, p.isMeta = true → pv p = true
  | [], _, _, _, p, hp, _ => by rw [Expr.predsAll] at hp; cases hp
  | x :: xs, hn, hm, h, p, hp, hmeta => by
    rw [Expr.noNegAll] at hn
    rw [Expr.metaConjunctiveAll] at hm
    rw [Expr.evalAll, Bool.and_eq_true] at h
    rw [Expr.predsAll, List.mem_append] at hp
    rcases hp with hp | hp
    · exact meta_conjuncts pv x hn.1 hm.1 h.1 p hp hmeta
    · exact meta_conjunctsAll pv xs hn.2 hm.2 h.2 p hp hmeta
end

theorem isMeta_onColumns {p : Pred τ} (hp : Plain p) (h : p.isMeta = true) : onColumns p = false := by
  obtain ⟨d, hd⟩ := hp.literal
  obtain ⟨lhs, op, rhs⟩ := p
  simp only at hd
  subst hd
  cases lhs <;> first | rfl | simp [Pred.isMeta, Operand.isMeta] at h

theorem weak_meta {R : Regex} {T : TypeSys τ} {l : Layout τ} {row : Row} {p : Pred τ} (hp : Plain p) (h : p.isMeta = true)
    (hw : weak R T l p = true) : satPred R T l row p = true := by
  have hc := isMeta_onColumns hp h
  obtain ⟨d, hd⟩ := hp.literal
  rw [satPred_row R T l row p hp hc]
  simpa [weak, hd, hc] using hw

/-! ### One partition -/

theorem hint_iff (h : Ids) (i : Nat) : hint h i = true ↔ Has h i := by
  simp [hint, Has]

theorem events_rows (s : Slice τ) {i : Nat} {row : Row} (h : (i, row) ∈ s.events) : row ∈ s.rows := by
  rw [mem_events] at h
  exact List.mem_of_getElem? h.2

theorem map_filter_events (s : Slice τ) (f : Row → Bool) : ((s.events.filter fun ev => f ev.2).map (·.2)) = s.rows.filter f := by
  have : s.rows = s.events.map (·.2) := by
    rw [Slice.events, List.map_map]
    show s.rows = s.rows.zipIdx.map fun x => x.1
    rw [List.zipIdx_map_fst]
  rw [this, List.filter_map]
  rfl

/-- The store sends exactly the events of the partition that satisfy the query, if the hits contain them and are about
    layouts with columns for the query. -/
theorem storeExtract_exact (R : Regex) (T : TypeSys τ) (e : Expr τ) (h : Ids) (hq : Query e) (hm : e.metaConjunctive)
    (hts : ∀ p ∈ e.preds, p.noTimestamp) (hp : ∀ p ∈ e.preds, Plain p) : ∀ (slices : List (Slice τ)),
    (∀ s ∈ slices, ∀ row ∈ s.rows, ∀ p ∈ e.preds, safeFor row p) →
    (∀ s ∈ slices, ∀ i row, (i, row) ∈ s.events → sat R T s.layout row e = true → Has h i) →
    (∀ s ∈ slices, ∀ i row, (i, row) ∈ s.events → Has h i → e.eval (weak R T s.layout) = true) →
    storeExtract R T e h slices = some (matching R T e slices)
  | [], _, _, _ => rfl
  | s :: rest, hsafe, hfound, hweak => by
    have ih := storeExtract_exact R T e h hq hm hts hp rest (fun s' hs' => hsafe s' (List.mem_cons_of_mem _ hs'))
      (fun s' hs' => hfound s' (List.mem_cons_of_mem _ hs')) (fun s' hs' => hweak s' (List.mem_cons_of_mem _ hs'))
    have hmatch : matching R T e (s :: rest) =
        (s.rows.filter fun row => sat R T s.layout row e).map (s.layout, ·) ++ matching R T e rest := rfl
    rw [storeExtract, ih, hmatch]
    split
    · rename_i hany
      obtain ⟨⟨i, row⟩, hev, hi⟩ := List.any_eq_true.1 hany
      have hw := hweak s List.mem_cons_self i row hev ((hint_iff ..).1 hi)
      obtain ⟨c, hc, hne⟩ := resolve_weak R T s.layout e hq.normal.noNegation hq.noEmpty hp
      have ht : tailor T s.layout e = some c := by
        rw [tailor, isNone_of_noNil hq.noNil]
        simpa using hc
      rw [C25_exact_partial R T e c (some (hint h)) s hq hm hts (hsafe s List.mem_cons_self) ht (hne hw) (fun ev hev' hh p hpe hmeta => by
        have := hweak s List.mem_cons_self ev.1 ev.2 hev' ((hint_iff ..).1 hh)
        exact weak_meta (hp p hpe) hmeta (meta_conjuncts _ e hq.normal.noNegation hm this p hpe hmeta))]
      simp only [Option.bind_some, Option.map_some]
      congr 2
      rw [← map_filter_events, Expr.answer]
      congr 2
      apply List.filter_congr
      intro ev hev'
      cases hs : sat R T s.layout ev.2 e with
      | false => simp
      | true =>
        simp only [hinted, Bool.and_true]
        exact (hint_iff ..).2 (hfound s List.mem_cons_self ev.1 ev.2 hev' hs)
    · rename_i hany
      have : (s.rows.filter fun row => sat R T s.layout row e) = [] := by
        rw [← map_filter_events, List.map_eq_nil_iff, List.filter_eq_nil_iff]
        intro ev hev' hs
        exact hany (List.any_eq_true.2 ⟨ev, hev', (hint_iff ..).2 (hfound s List.mem_cons_self ev.1 ev.2 hev' hs)⟩)
      rw [this]
      rfl

end Verif.Partition
