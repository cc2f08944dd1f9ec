import Verif.Expr.StoreLemmas
import Verif.Expr.Props
/-
C25: the candidate check of the stores returns, of the events the index hands
it, exactly those that satisfy the query.
-/
namespace Verif.Expr
open Verif.Data

variable {τ : Type}

/-- A hint set, as seen from a single ID. -/
def hinted (hints : Option (Nat → Bool)) (id : Nat) : Bool :=
  match hints with
  | none => true
  | some h => h id

/-- The events of a slice that are hinted and satisfy the query: what a store
should return. -/
def answer (R : Regex) (T : TypeSys τ) (e : Expr τ) (hints : Option (Nat → Bool))
    (s : Slice τ) : List (Nat × Row) :=
  s.events.filter fun ev => hinted hints ev.1 && sat R T s.layout ev.2 e

/-- **C25.** Tailoring a query to a layout is exact: whenever it succeeds, the
tailored expression is true of a row if and only if the row satisfies the
query. In particular a query that names no column of the layout is false of
all its rows. -/
theorem C25_tailor (R : Regex) (T : TypeSys τ) (l : Layout τ) (row : Row) (e c : Expr τ)
    (hq : Query e) (hs : ∀ p ∈ e.preds, safeFor row p) (ht : tailor T l e = some c) :
    c.eval (rowPred R l row) = sat R T l row e := by
  unfold tailor at ht
  split at ht
  · simp at ht
  · exact eval_resolve R T l row e c hq.normal.noNegation hq.noEmpty
      (fun p hp => ⟨hq.normal.aligned p hp, hs p hp⟩) ht

theorem isNone_of_noNil {e : Expr τ} (h : e.noNil) : e.isNone = false := by
  cases e <;> simp_all [Expr.noNil, Expr.isNone]

theorem tailor_resolve {T : TypeSys τ} {l : Layout τ} {e c : Expr τ}
    (ht : tailor T l e = some c) : resolve T l e = some c := by
  unfold tailor at ht
  split at ht
  · simp at ht
  · exact ht

theorem filter_sublist_filter {α : Type} {p q : α → Bool} {xs : List α}
    (h : ∀ x ∈ xs, p x = true → q x = true) : List.Sublist (xs.filter p) (xs.filter q) := by
  induction xs with
  | nil => simp
  | cons x xs ih =>
    have ih := ih fun y hy => h y (by simp [hy])
    have hx := h x (by simp)
    rw [List.filter_cons, List.filter_cons]
    split
    · next hp => rw [if_pos (hx hp)]; exact ih.cons_cons x
    · split
      · exact ih.cons x
      · exact ih

/-- **C25.** Pruning metadata predicates is exact for every expression that has none, negations
included. -/
theorem C25_prune (pv : Pred τ → Bool) (e : Expr τ) (he : e.noEmpty) (hn : e.noNil)
    (hp : ∀ p ∈ e.preds, p.isMeta = false) : (pruneMeta e).eval pv = e.eval pv :=
  (prune_same pv e he hn hp).2

/-- **C25.** A count query counts the rows an extract query would return. -/
theorem C25_count (R : Regex) (s : Slice τ) (e : Expr τ) (hints : Option (Nat → Bool)) :
    countMatching R s e hints = (filter R s e hints).length := by
  simp [countMatching, filter]

/-- **C25 (partial: no loss).** A store never drops an event that is hinted and
satisfies the query, provided metadata predicates (`#type`, `#field`) occur as
conjuncts only. Missing, and false: disjunctions with metadata predicates
(`C25_disjunction_refuted`) and the comparisons on which views disagree with
data (hypothesis `safeFor`, see `C25_match_refuted`). -/
theorem C25_no_loss_partial (R : Regex) (T : TypeSys τ) (e : Expr τ)
    (hints : Option (Nat → Bool)) (s : Slice τ) (hq : Query e) (hm : e.metaConjunctive)
    (hs : ∀ row ∈ s.rows, ∀ p ∈ e.preds, safeFor row p) (out : List Row)
    (ho : extract R T e hints s = some out) :
    List.Sublist ((answer R T e hints s).map (·.2)) out := by
  unfold extract at ho
  rw [if_neg (by simp [isNone_of_noNil hq.noNil])] at ho
  cases ht : tailor T s.layout e with
  | none => simp [ht] at ho
  | some c =>
    simp only [ht, Option.some.injEq] at ho
    subst ho
    unfold answer filter
    apply List.Sublist.map
    apply filter_sublist_filter
    intro ev hev
    have hrow : ev.2 ∈ s.rows := by
      unfold Slice.events at hev
      obtain ⟨⟨r, i⟩, h1, rfl⟩ := List.mem_map.1 hev
      exact (List.mem_zipIdx h1).2.2 ▸ List.getElem_mem _
    have heq := C25_tailor R T s.layout ev.2 e c hq (hs _ hrow) ht
    have hr := tailor_resolve ht
    have hn := built_noNeg.resolve T s.layout (by simp [Expr.noNeg]) e c hq.normal.noNegation
      (by simp [Expr.noNeg]) hr
    have he := built_noEmpty.resolve T s.layout (by simp [Expr.noEmpty]) e c hq.normal.noNegation
      (by simp [Expr.noEmpty]) hr
    have hc := resolve_metaConjunctive T s.layout e c hq.normal.noNegation hm hr
    intro h
    simp only [Bool.and_eq_true] at h
    rw [← heq] at h
    have := prune_weaken _ c hn he hc h.2
    simp only [Bool.and_eq_true, Bool.or_eq_true]
    exact ⟨h.1, this⟩

/-- **C25 (partial: exactness).** A store returns exactly the hinted events
that satisfy the query, in order, if the query names at least one column of
the layout (the tailored expression is not nil), the hinted events satisfy its
metadata predicates, these occur as conjuncts only and the legacy `:timestamp`
is not used. Missing, and false: see `C25_disjunction_refuted`,
`C25_unresolved_refuted` and `C25_match_refuted`. -/
theorem C25_exact_partial (R : Regex) (T : TypeSys τ) (e c : Expr τ)
    (hints : Option (Nat → Bool)) (s : Slice τ) (hq : Query e) (hm : e.metaConjunctive)
    (hts : ∀ p ∈ e.preds, p.noTimestamp)
    (hs : ∀ row ∈ s.rows, ∀ p ∈ e.preds, safeFor row p)
    (ht : tailor T s.layout e = some c) (hres : c ≠ .none)
    (hmeta : ∀ ev ∈ s.events, hinted hints ev.1 = true → ∀ p ∈ e.preds, p.isMeta = true →
      satPred R T s.layout ev.2 p = true) :
    extract R T e hints s = some ((answer R T e hints s).map (·.2)) := by
  unfold extract
  rw [if_neg (by simp [isNone_of_noNil hq.noNil])]
  simp only [ht, Option.some.injEq]
  unfold answer filter
  congr 1
  apply List.filter_congr
  intro ev hev
  have hrow : ev.2 ∈ s.rows := by
    unfold Slice.events at hev
    obtain ⟨⟨r, i⟩, h1, rfl⟩ := List.mem_map.1 hev
    exact (List.mem_zipIdx h1).2.2 ▸ List.getElem_mem _
  have heq := C25_tailor R T s.layout ev.2 e c hq (hs _ hrow) ht
  have hr := tailor_resolve ht
  have hn := built_noNeg.resolve T s.layout (by simp [Expr.noNeg]) e c hq.normal.noNegation
    (by simp [Expr.noNeg]) hr
  have he := built_noEmpty.resolve T s.layout (by simp [Expr.noEmpty]) e c hq.normal.noNegation
    (by simp [Expr.noEmpty]) hr
  have hc := resolve_metaConjunctive T s.layout e c hq.normal.noNegation hm hr
  have hcl : c.noNil := by
    rcases resolve_clean T s.layout e c hq.normal.noNegation hq.noNil hts hr with h | h
    · exact absurd h hres
    · exact h
  show (hinted hints ev.1 && _) = _
  cases hh : hinted hints ev.1 with
  | false => simp
  | true =>
    simp only [Bool.true_and]
    rw [← heq]
    have hpm : ∀ p ∈ c.preds, p.isMeta = true → rowPred R s.layout ev.2 p = true := by
      intro p hp hmt
      rcases resolve_preds T s.layout e c hq.normal.noNegation hr p hp with h | h
      · have h1 := hmeta ev hev hh p h hmt
        have := eval_resolvePred R T s.layout ev.2 p (.pred p) (hq.normal.aligned p h)
          (hs _ hrow p h) (by
            obtain ⟨lhs, op, rhs⟩ := p
            cases lhs <;> cases rhs <;> simp [Pred.isMeta, Operand.isMeta] at hmt <;>
              simp [resolvePred])
        rw [Expr.eval] at this
        rw [this, h1]
      · simp [h] at hmt
    have := prune_exact _ c hn he hcl hpm hc
    cases hi : (pruneMeta c).isNone with
    | true => simp [this.1 hi]
    | false => simp [this.2 hi]

/-! ### Concrete cases -/

/-- One type, everything congruent and compatible, field names compared as
they are. -/
def plainTypes : TypeSys Unit where
  compatible := fun _ _ _ => true
  congruent := fun _ _ => true
  named := fun _ _ _ _ => false
  timestamp := fun _ => false
  suffix := fun k n => k == n

/-- No pattern matches anything. -/
def noRegex : Regex := { fullMatch := fun _ _ => false, search := fun _ _ => false }

/-- Type `t`, columns `x` and `y`, two events with IDs 10 and 11. -/
def demo : Slice Unit where
  layout := ⟨str "t", [⟨str "x", ()⟩, ⟨str "y", ()⟩]⟩
  rows := [[.count 7, .count 1], [.count 3, .count 2]]
  offset := 10

/-- `#type == "t"`. -/
def isT : Expr Unit := .pred ⟨.metaType, .equal, .data (.string (str "t"))⟩

/-- `#type == "t" && x > 5`. -/
def demoQuery : Expr Unit := .conj [isT, fieldPred "x" .greater (.count 5)]

private theorem demoQuery_query : Query demoQuery where
  normal := by
    refine ⟨?_, ?_, ?_⟩
    · simp [demoQuery, isT, fieldPred, Expr.noNeg, Expr.noNegAll]
    · simp [demoQuery, isT, fieldPred, Expr.noSingle, Expr.noSingleAll]
    · intro p hp
      simp [demoQuery, isT, fieldPred, Expr.preds, Expr.predsAll] at hp
      rcases hp with rfl | rfl <;> simp [Pred.aligned, Operand.isExtractor]
  noEmpty := by simp [demoQuery, isT, fieldPred, Expr.noEmpty, Expr.noEmptyAll]
  noNil := by simp [demoQuery, isT, fieldPred, Expr.noNil, Expr.noNilAll]

/-- The exactness theorem applies to `#type == "t" && x > 5` and both events;
one of them is returned. -/
example : extract noRegex plainTypes demoQuery none demo
    = some ((answer noRegex plainTypes demoQuery none demo).map (·.2)) ∧
    (answer noRegex plainTypes demoQuery none demo).map (·.1) = [10] := by
  refine ⟨?_, by decide⟩
  refine C25_exact_partial noRegex plainTypes demoQuery
    (.conj [isT, .pred ⟨.column () 0, .greater, .data (.count 5)⟩]) none demo demoQuery_query
    ?_ ?_ ?_ ?_ (by simp) ?_
  · simp [demoQuery, isT, fieldPred, Expr.metaConjunctive, Expr.metaConjunctiveAll]
  · intro p hp
    simp [demoQuery, isT, fieldPred, Expr.preds, Expr.predsAll] at hp
    rcases hp with rfl | rfl <;> simp [Pred.noTimestamp]
  · intro row hr p hp
    simp [demoQuery, isT, fieldPred, Expr.preds, Expr.predsAll] at hp
    simp [demo] at hr
    rcases hp with rfl | rfl
    · intro h; simp [Pred.isMeta, Operand.isMeta] at h
    · intro _ d hd i
      simp at hd; subst hd
      rcases hr with rfl | rfl <;>
      · match i with
        | 0 => decide
        | 1 => decide
        | _ + 2 => rfl
  · simp [tailor, demoQuery, isT, fieldPred, Expr.isNone, resolve, resolveConj, resolvePred,
      resolveColumns, connect, Layout.indexed, demo, plainTypes, tailorCollapse, str]
  · intro ev hev _ p hp hmt
    simp [demoQuery, isT, fieldPred, Expr.preds, Expr.predsAll] at hp
    rcases hp with rfl | rfl
    · rfl
    · simp [Pred.isMeta, Operand.isMeta] at hmt

/-- **C25 (refuted: disjunction with metadata).** `#type == "t" || x > 5` is
true of every event of type `t`, but the store returns only those with
`x > 5`: the pruned metadata predicate counts as false. -/
theorem C25_disjunction_refuted :
    let e : Expr Unit := .disj [isT, fieldPred "x" .greater (.count 5)]
    (answer noRegex plainTypes e none demo).map (·.1) = [10, 11] ∧
    extract noRegex plainTypes e none demo = some [[.count 7, .count 1]] := by
  exact ⟨by decide, rfl⟩

/-- **C25 (refuted: preserve_ids with metadata only).** Both events satisfy
`#type == "t"`; a request that preserves IDs gets none of them. -/
theorem C25_preserve_ids_refuted :
    (answer noRegex plainTypes isT none demo).map (·.1) = [10, 11] ∧
    extractPreserveIds noRegex plainTypes isT (fun _ => true) demo = some [] := by
  exact ⟨by decide, rfl⟩

/-- **C25 (refuted: unresolved fields).** No event has a field `z`, yet the
store returns all hinted events for `z == 1`. -/
theorem C25_unresolved_refuted :
    let e := fieldPred "z" .equal (.count 1)
    answer noRegex plainTypes e none demo = [] ∧
    extract noRegex plainTypes e none demo = some demo.rows := by
  exact ⟨rfl, rfl⟩

/-- **C25 (refuted: pattern matching).** Even with a regular expression
matching every string, `s ~ /a/` returns no event. -/
theorem C25_match_refuted :
    let R : Regex := { fullMatch := fun _ _ => true, search := fun _ _ => true }
    let s : Slice Unit := ⟨⟨str "t", [⟨str "s", ()⟩]⟩, [[.string (str "a")]], 0⟩
    let e := fieldPred "s" .match_ (.pattern (str "a"))
    (answer R plainTypes e none s).map (·.1) = [0] ∧
    extract R plainTypes e none s = some [] := by
  exact ⟨by decide, rfl⟩

end Verif.Expr
