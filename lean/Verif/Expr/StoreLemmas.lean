import Verif.Expr.StoreSpec
import Verif.Expr.Lemmas
namespace Verif.Expr
open Verif.Data

variable {τ : Type}

theorem eval_connect (pv : Pred τ → Bool) (op : RelOp) (xs : List (Expr τ)) :
    (connect op xs).eval pv =
      (!xs.isEmpty && if op.isNegated then Expr.evalAll pv xs else Expr.evalAny pv xs) := by
  match xs with
  | [] => simp [connect, Expr.eval]
  | [x] => cases h : op.isNegated <;> simp [connect, Expr.evalAll, Expr.evalAny]
  | x :: y :: xs => cases h : op.isNegated <;> simp [connect, Expr.eval, h]

theorem evalAll_map_pred {α : Type} (pv : Pred τ → Bool) (f : α → Pred τ) (xs : List α) :
    Expr.evalAll pv (xs.map fun c => .pred (f c)) = xs.all fun c => pv (f c) := by
  induction xs with
  | nil => simp [Expr.evalAll]
  | cons x xs ih => simp [Expr.evalAll, Expr.eval, ih]

theorem evalAny_map_pred {α : Type} (pv : Pred τ → Bool) (f : α → Pred τ) (xs : List α) :
    Expr.evalAny pv (xs.map fun c => .pred (f c)) = xs.any fun c => pv (f c) := by
  induction xs with
  | nil => simp [Expr.evalAny]
  | cons x xs ih => simp [Expr.evalAny, Expr.eval, ih]

theorem eval_resolveColumns (R : Regex) (l : Layout τ) (row : Row) (sel : Column τ → Bool)
    (op : RelOp) (d : Data) (h : ∀ i, viewSafe (row.getD i .none) op d = true) :
    (resolveColumns l sel op d).eval (rowPred R l row) = columnsSatisfy R l row sel op d := by
  unfold resolveColumns columnsSatisfy
  have hp : ∀ c : Column τ × Nat, rowPred R l row ⟨.column c.1.type c.2, op, .data d⟩
      = evaluate R (row.getD c.2 .none) op d := by
    intro c
    simp only [rowPred]
    exact C54_view_agrees_partial R _ _ _ (h c.2)
  rw [eval_connect, evalAll_map_pred, evalAny_map_pred]
  simp only [hp]
  cases (l.indexed.filter fun c => sel c.1) <;>
    simp [List.all_map, List.any_map, Function.comp_def]

theorem eval_resolvePred (R : Regex) (T : TypeSys τ) (l : Layout τ) (row : Row) (p : Pred τ)
    (c : Expr τ) (ha : p.aligned) (hs : safeFor row p) (hr : resolvePred T l p = some c) :
    c.eval (rowPred R l row) = satPred R T l row p := by
  obtain ⟨lhs, op, rhs⟩ := p
  cases rhs with
  | data d =>
    cases lhs with
    | metaType => simp [resolvePred] at hr; subst hr; simp [Expr.eval, rowPred, satPred]
    | metaField =>
      simp [resolvePred] at hr; subst hr
      cases d <;> simp [Expr.eval, rowPred, satPred]
      cases op.isNegated <;> simp
    | field k =>
      simp [resolvePred] at hr; subst hr
      exact eval_resolveColumns R l row _ op d (hs rfl d rfl)
    | type t =>
      simp [resolvePred] at hr; subst hr
      exact eval_resolveColumns R l row _ op d (hs rfl d rfl)
    | typeName n =>
      simp only [resolvePred] at hr
      have hv := hs rfl d rfl
      by_cases hn : (n == timestampName) = true
      · rw [if_pos hn] at hr
        split at hr
        · simp at hr
        · simp at hr; subst hr
          simp [Expr.eval, Expr.evalAny, satPred, eval_resolveColumns R l row _ op d hv,
            beq_iff_eq.1 hn]
      · rw [if_neg hn] at hr
        simp at hr; subst hr
        simp only [satPred, eval_resolveColumns R l row _ op d hv]
        simp at hn
        simp [hn]
    | column t i =>
      simp [resolvePred] at hr; subst hr
      simp only [Expr.eval, rowPred, satPred]
      exact C54_view_agrees_partial R _ _ _ (hs rfl d rfl i)
    | data d' => simp [resolvePred] at hr; subst hr; simp [Expr.eval, rowPred, satPred]
  | _ =>
    cases lhs <;> first
      | (simp [resolvePred] at hr; subst hr; simp [Expr.eval, rowPred, satPred]; done)
      | (simp [Pred.aligned, Operand.isExtractor] at ha; done)

theorem eval_tailorCollapse_conj (pv : Pred τ → Bool) (xs : List (Expr τ)) (h : xs ≠ []) :
    (tailorCollapse .conj xs).eval pv = Expr.evalAll pv xs := by
  match xs, h with
  | [x], _ => simp [tailorCollapse, Expr.evalAll]
  | x :: y :: xs, _ => simp [tailorCollapse, Expr.eval]

theorem eval_tailorCollapse_disj (pv : Pred τ → Bool) (xs : List (Expr τ)) :
    (tailorCollapse .disj xs).eval pv = Expr.evalAny pv xs := by
  match xs with
  | [] => simp [tailorCollapse, Expr.eval, Expr.evalAny]
  | [x] => simp [tailorCollapse, Expr.evalAny]
  | x :: y :: xs => simp [tailorCollapse, Expr.eval]

theorem isNone_iff (e : Expr τ) : e.isNone = true ↔ e = .none := by
  cases e <;> simp [Expr.isNone]

theorem preds_cons_all {Q : Pred τ → Prop} {x : Expr τ} {xs : List (Expr τ)}
    (h : ∀ p ∈ Expr.predsAll (x :: xs), Q p) :
    (∀ p ∈ x.preds, Q p) ∧ (∀ p ∈ Expr.predsAll xs, Q p) := by
  simp only [Expr.predsAll, List.mem_append] at h
  exact ⟨fun p hp => h p (.inl hp), fun p hp => h p (.inr hp)⟩

mutual
theorem eval_resolve (R : Regex) (T : TypeSys τ) (l : Layout τ) (row : Row) :
    ∀ (e c : Expr τ), e.noNeg → e.noEmpty →
      (∀ p ∈ e.preds, p.aligned ∧ safeFor row p) → resolve T l e = some c →
      c.eval (rowPred R l row) = sat R T l row e
  | .none, c, _, _, _, hr => by
    simp [resolve] at hr; subst hr; simp [sat, Expr.eval]
  | .pred p, c, _, _, hp, hr => by
    have := hp p (by simp [Expr.preds])
    rw [resolve] at hr
    rw [sat, Expr.eval]
    exact eval_resolvePred R T l row p c this.1 this.2 hr
  | .conj xs, c, hn, he, hp, hr => by
    simp only [Expr.noNeg] at hn
    simp only [Expr.noEmpty] at he
    simp only [Expr.preds] at hp
    have := eval_resolveConj R T l row xs hn he.2 hp
    rw [resolve] at hr
    rw [sat, Expr.eval]
    revert this hr
    cases hc : resolveConj T l xs with
    | error => simp
    | unresolved =>
      intro h2 h1
      simp at h2; subst h2
      simp only [Expr.eval]
      exact h1.symm
    | ok ys =>
      intro h2 h1
      simp at h2; subst h2
      have hne : ys ≠ [] := by
        intro h0
        have := h1.2
        rw [h0] at this
        exact he.1 (List.eq_nil_of_length_eq_zero (by simpa using this.symm))
      rw [eval_tailorCollapse_conj _ _ hne]
      exact h1.1
  | .disj xs, c, hn, he, hp, hr => by
    simp only [Expr.noNeg] at hn
    simp only [Expr.noEmpty] at he
    simp only [Expr.preds] at hp
    rw [resolve] at hr
    rw [sat, Expr.eval]
    revert hr
    cases hc : resolveDisj T l xs with
    | none => simp
    | some ys =>
      intro h2
      simp at h2; subst h2
      rw [eval_tailorCollapse_disj]
      exact eval_resolveDisj R T l row xs ys hn he.2 hp hc
  | .neg x, c, hn, _, _, _ => by simp [Expr.noNeg] at hn

theorem eval_resolveConj (R : Regex) (T : TypeSys τ) (l : Layout τ) (row : Row) :
    ∀ (xs : List (Expr τ)), Expr.noNegAll xs → Expr.noEmptyAll xs →
      (∀ p ∈ Expr.predsAll xs, p.aligned ∧ safeFor row p) →
      match resolveConj T l xs with
      | .error => True
      | .unresolved => Expr.evalAll (satPred R T l row) xs = false
      | .ok ys => Expr.evalAll (rowPred R l row) ys = Expr.evalAll (satPred R T l row) xs
          ∧ ys.length = xs.length
  | [], _, _, _ => by simp [resolveConj, Expr.evalAll]
  | x :: xs, hn, he, hp => by
    simp only [Expr.noNegAll] at hn
    simp only [Expr.noEmptyAll] at he
    have hp' := preds_cons_all hp
    rw [resolveConj]
    cases hc : resolve T l x with
    | none => simp
    | some y =>
      have hx := eval_resolve R T l row x y hn.1 he.1 hp'.1 hc
      simp only [sat] at hx
      by_cases hy : y.isNone = true
      · simp only [hy, if_true]
        rw [(isNone_iff y).1 hy] at hx
        simp [Expr.evalAll, ← hx, Expr.eval]
      · have ih := eval_resolveConj R T l row xs hn.2 he.2 hp'.2
        simp only [hy]
        cases hxs : resolveConj T l xs with
        | error => simp
        | unresolved => simp [hxs] at ih; simp [Expr.evalAll, ih]
        | ok ys => simp [hxs] at ih; simp [Expr.evalAll, hx, ih]

theorem eval_resolveDisj (R : Regex) (T : TypeSys τ) (l : Layout τ) (row : Row) :
    ∀ (xs ys : List (Expr τ)), Expr.noNegAll xs → Expr.noEmptyAll xs →
      (∀ p ∈ Expr.predsAll xs, p.aligned ∧ safeFor row p) →
      resolveDisj T l xs = some ys →
      Expr.evalAny (rowPred R l row) ys = Expr.evalAny (satPred R T l row) xs
  | [], ys, _, _, _, hr => by simp [resolveDisj] at hr; subst hr; simp [Expr.evalAny]
  | x :: xs, ys, hn, he, hp, hr => by
    simp only [Expr.noNegAll] at hn
    simp only [Expr.noEmptyAll] at he
    have hp' := preds_cons_all hp
    rw [resolveDisj] at hr
    cases hc : resolve T l x with
    | none => simp [hc] at hr
    | some y =>
      have hx := eval_resolve R T l row x y hn.1 he.1 hp'.1 hc
      simp only [sat] at hx
      cases hxs : resolveDisj T l xs with
      | none => simp [hc, hxs] at hr
      | some zs =>
        have ih := eval_resolveDisj R T l row xs zs hn.2 he.2 hp'.2 hxs
        simp only [hc, hxs] at hr
        by_cases hy : y.isNone = true
        · simp [hy] at hr; subst hr
          rw [(isNone_iff y).1 hy] at hx
          simp [Expr.evalAny, ← hx, Expr.eval, ih]
        · simp [hy] at hr; subst hr
          simp [Expr.evalAny, hx, ih]
end

/-! ### What resolution preserves -/

/-- Properties `resolve` establishes: `P` holds of nil, of connectives whose
operands have it, and of the results for predicates. -/
structure Built (P : Expr τ → Prop) : Prop where
  none : P .none
  conj : ∀ xs, xs ≠ [] → (∀ x ∈ xs, P x) → P (.conj xs)
  disj : ∀ xs, xs ≠ [] → (∀ x ∈ xs, P x) → P (.disj xs)

theorem Built.tailorCollapse {P : Expr τ → Prop} (h : Built P) {mk : List (Expr τ) → Expr τ}
    (hmk : ∀ xs, xs ≠ [] → (∀ x ∈ xs, P x) → P (mk xs)) (xs : List (Expr τ))
    (hx : ∀ x ∈ xs, P x) : P (tailorCollapse mk xs) := by
  match xs with
  | [] => exact h.none
  | [x] => exact hx x (by simp)
  | x :: y :: xs => exact hmk _ (by simp) hx

theorem Built.connect {P : Expr τ → Prop} (h : Built P) (op : RelOp) (xs : List (Expr τ))
    (hx : ∀ x ∈ xs, P x) : P (connect op xs) := by
  match xs with
  | [] => exact h.none
  | [x] => exact hx x (by simp)
  | x :: y :: xs =>
    simp only [Verif.Expr.connect]
    split
    · exact h.conj _ (by simp) hx
    · exact h.disj _ (by simp) hx

theorem Built.resolveColumns {P : Expr τ → Prop} (h : Built P) (l : Layout τ)
    (hcol : ∀ t i op d, P (.pred ⟨.column t i, op, .data d⟩))
    (sel : Column τ → Bool) (op : RelOp) (d : Data) :
    P (resolveColumns l sel op d) := by
  apply h.connect
  intro x hx
  obtain ⟨c, _, rfl⟩ := List.mem_map.1 hx
  exact hcol _ _ _ _

theorem Built.resolvePred {P : Expr τ → Prop} (h : Built P) (T : TypeSys τ) (l : Layout τ)
    (hcol : ∀ t i op d, P (.pred ⟨.column t i, op, .data d⟩)) (p : Pred τ) (hp : P (.pred p))
    (c : Expr τ) (hr : resolvePred T l p = some c) : P c := by
  have hc := h.resolveColumns l hcol
  have hd : ∀ a b : Expr τ, P a → P b → P (.disj [a, b]) := by
    intro a b ha hb
    exact h.disj _ (by simp) (by intro x hx; simp at hx; rcases hx with rfl | rfl <;> assumption)
  obtain ⟨lhs, op, rhs⟩ := p
  have hname : ∀ n d, (if n == timestampName then
      if !isTime d then Option.none
      else some (Expr.disj [Verif.Expr.resolveColumns l (fun c => T.named n c.type op d) op d,
        Verif.Expr.resolveColumns l (fun c => T.timestamp c.type) op d])
    else some (Verif.Expr.resolveColumns l (fun c => T.named n c.type op d) op d)) = some c →
      P c := by
    intro n d hr
    split at hr
    · split at hr
      · simp at hr
      · simp at hr; subst hr; exact hd _ _ (hc _ _ _) (hc _ _ _)
    · simp at hr; subst hr; exact hc _ _ _
  cases lhs <;> cases rhs <;>
    simp only [Verif.Expr.resolvePred, Option.some.injEq] at hr <;>
    first
      | (subst hr; exact hc _ _ _)
      | (subst hr; exact hp)
      | exact hname _ _ hr

mutual
theorem Built.resolve {P : Expr τ → Prop} (h : Built P) (T : TypeSys τ) (l : Layout τ)
    (hcol : ∀ t i op d, P (.pred ⟨.column t i, op, .data d⟩)) :
    ∀ (e c : Expr τ), e.noNeg → (∀ p ∈ e.preds, P (.pred p)) → resolve T l e = some c → P c
  | .none, c, _, _, hr => by simp [Verif.Expr.resolve] at hr; subst hr; exact h.none
  | .pred p, c, _, hp, hr => by
    rw [Verif.Expr.resolve] at hr
    exact h.resolvePred T l hcol p (hp p (by simp [Expr.preds])) c hr
  | .conj xs, c, hn, hp, hr => by
    simp only [Expr.noNeg] at hn
    simp only [Expr.preds] at hp
    rw [Verif.Expr.resolve] at hr
    have := Built.resolveConj h T l hcol xs hn hp
    revert hr
    cases hc : Verif.Expr.resolveConj T l xs with
    | error => simp
    | unresolved => intro h2; simp at h2; subst h2; exact h.none
    | ok ys =>
      intro h2; simp at h2; subst h2
      exact h.tailorCollapse h.conj ys (this ys hc)
  | .disj xs, c, hn, hp, hr => by
    simp only [Expr.noNeg] at hn
    simp only [Expr.preds] at hp
    rw [Verif.Expr.resolve] at hr
    have := Built.resolveDisj h T l hcol xs hn hp
    revert hr
    cases hc : Verif.Expr.resolveDisj T l xs with
    | none => simp
    | some ys =>
      intro h2; simp at h2; subst h2
      exact h.tailorCollapse h.disj ys (this ys hc)
  | .neg x, c, hn, _, _ => by simp [Expr.noNeg] at hn

theorem Built.resolveConj {P : Expr τ → Prop} (h : Built P) (T : TypeSys τ) (l : Layout τ)
    (hcol : ∀ t i op d, P (.pred ⟨.column t i, op, .data d⟩)) :
    ∀ (xs : List (Expr τ)), Expr.noNegAll xs → (∀ p ∈ Expr.predsAll xs, P (.pred p)) →
      ∀ ys, resolveConj T l xs = .ok ys → ∀ y ∈ ys, P y
  | [], _, _, ys, hr => by simp [Verif.Expr.resolveConj] at hr; subst hr; simp
  | x :: xs, hn, hp, ys, hr => by
    simp only [Expr.noNegAll] at hn
    have hp' := preds_cons_all hp
    rw [Verif.Expr.resolveConj] at hr
    cases hc : Verif.Expr.resolve T l x with
    | none => simp [hc] at hr
    | some y =>
      simp only [hc] at hr
      split at hr
      · simp at hr
      · cases hxs : Verif.Expr.resolveConj T l xs with
        | error => simp [hxs] at hr
        | unresolved => simp [hxs] at hr
        | ok zs =>
          simp [hxs] at hr; subst hr
          intro z hz
          rcases List.mem_cons.1 hz with rfl | hz
          · exact Built.resolve h T l hcol x z hn.1 hp'.1 hc
          · exact Built.resolveConj h T l hcol xs hn.2 hp'.2 zs hxs z hz

theorem Built.resolveDisj {P : Expr τ → Prop} (h : Built P) (T : TypeSys τ) (l : Layout τ)
    (hcol : ∀ t i op d, P (.pred ⟨.column t i, op, .data d⟩)) :
    ∀ (xs : List (Expr τ)), Expr.noNegAll xs → (∀ p ∈ Expr.predsAll xs, P (.pred p)) →
      ∀ ys, resolveDisj T l xs = some ys → ∀ y ∈ ys, P y
  | [], _, _, ys, hr => by simp [Verif.Expr.resolveDisj] at hr; subst hr; simp
  | x :: xs, hn, hp, ys, hr => by
    simp only [Expr.noNegAll] at hn
    have hp' := preds_cons_all hp
    rw [Verif.Expr.resolveDisj] at hr
    cases hc : Verif.Expr.resolve T l x with
    | none => simp [hc] at hr
    | some y =>
      cases hxs : Verif.Expr.resolveDisj T l xs with
      | none => simp [hc, hxs] at hr
      | some zs =>
        simp only [hc, hxs] at hr
        have hy := Built.resolve h T l hcol x y hn.1 hp'.1 hc
        have hz := Built.resolveDisj h T l hcol xs hn.2 hp'.2 zs hxs
        split at hr
        · simp at hr; subst hr; exact hz
        · simp at hr; subst hr
          intro z hm
          rcases List.mem_cons.1 hm with rfl | hm
          · exact hy
          · exact hz z hm
end

theorem built_noNeg : Built (Expr.noNeg (τ := τ)) where
  none := by simp [Expr.noNeg]
  conj xs _ h := by rw [Expr.noNeg, noNegAll_iff]; exact h
  disj xs _ h := by rw [Expr.noNeg, noNegAll_iff]; exact h

theorem built_noEmpty : Built (Expr.noEmpty (τ := τ)) where
  none := by simp [Expr.noEmpty]
  conj xs h0 h := by rw [Expr.noEmpty, noEmptyAll_iff]; exact ⟨h0, h⟩
  disj xs h0 h := by rw [Expr.noEmpty, noEmptyAll_iff]; exact ⟨h0, h⟩

theorem built_allPreds (Q : Pred τ → Prop) : Built (AllPreds Q) where
  none := by simp [AllPreds, Expr.preds]
  conj xs _ h := ((local_allPreds Q).conj xs).2 h
  disj xs _ h := ((local_allPreds Q).disj xs).2 h

theorem metaConjunctiveAll_iff (xs : List (Expr τ)) :
    Expr.metaConjunctiveAll xs ↔ ∀ x ∈ xs, x.metaConjunctive := by
  induction xs with
  | nil => simp [Expr.metaConjunctiveAll]
  | cons x xs ih => simp [Expr.metaConjunctiveAll, ih]

/-- The predicates of a tailored expression are column predicates or
predicates of the original. -/
theorem resolve_preds (T : TypeSys τ) (l : Layout τ) (e c : Expr τ) (hn : e.noNeg)
    (hr : resolve T l e = some c) (p : Pred τ) (hp : p ∈ c.preds) :
    p ∈ e.preds ∨ p.isMeta = false := by
  have := (built_allPreds (fun p => p ∈ e.preds ∨ p.isMeta = false)).resolve T l
    (by intro t i op d q hq; simp [Expr.preds] at hq; subst hq; right; rfl) e c hn
    (by intro q hq r hr; simp [Expr.preds] at hr; subst hr; exact .inl hq) hr
  exact this p hp

/-- A connective built from meta-free parts is meta-free, so conjunctive. -/
theorem metaFree_conjunctive : ∀ (e : Expr τ), (∀ p ∈ e.preds, p.isMeta = false) →
    e.metaConjunctive := fun e => by
  have hl : ∀ xs : List (Expr τ), (∀ x ∈ xs, (∀ p ∈ x.preds, p.isMeta = false) → x.metaConjunctive) →
      (∀ p ∈ Expr.predsAll xs, p.isMeta = false) → Expr.metaConjunctiveAll xs := by
    intro xs ih hp
    rw [metaConjunctiveAll_iff]
    intro x hx
    exact ih x hx (fun p hp' => hp p ((mem_predsAll p xs).2 ⟨x, hx, hp'⟩))
  match e with
  | .none => intro _; simp [Expr.metaConjunctive]
  | .pred p => intro _; simp [Expr.metaConjunctive]
  | .conj xs =>
    intro hp
    rw [Expr.metaConjunctive]
    exact hl xs (fun x _ => metaFree_conjunctive x) (by simpa [Expr.preds] using hp)
  | .disj xs => intro hp; rw [Expr.metaConjunctive]; simpa [Expr.preds] using hp
  | .neg x => intro hp; rw [Expr.metaConjunctive]; simpa [Expr.preds] using hp
termination_by e => sizeOf e

mutual
theorem resolve_metaConjunctive (T : TypeSys τ) (l : Layout τ) : ∀ (e c : Expr τ), e.noNeg →
    e.metaConjunctive → resolve T l e = some c → c.metaConjunctive
  | .none, c, _, _, hr => by simp [resolve] at hr; subst hr; simp [Expr.metaConjunctive]
  | .pred p, c, hn, _, hr => by
    by_cases hp : p.isMeta = true
    · obtain ⟨lhs, op, rhs⟩ := p
      rw [resolve] at hr
      cases lhs <;> cases rhs <;> simp [Pred.isMeta, Operand.isMeta] at hp <;>
        simp [resolvePred] at hr <;> subst hr <;> simp [Expr.metaConjunctive]
    · apply metaFree_conjunctive
      intro q hq
      rcases resolve_preds T l _ c hn hr q hq with h | h
      · simp [Expr.preds] at h; subst h; simpa using hp
      · exact h
  | .conj xs, c, hn, hm, hr => by
    simp only [Expr.noNeg] at hn
    simp only [Expr.metaConjunctive] at hm
    rw [resolve] at hr
    have := resolveConj_metaConjunctive T l xs hn hm
    revert hr
    cases hc : resolveConj T l xs with
    | error => simp
    | unresolved => intro h2; simp at h2; subst h2; simp [Expr.metaConjunctive]
    | ok ys =>
      intro h2; simp at h2; subst h2
      have hy := this ys hc
      match ys with
      | [] => simp [tailorCollapse, Expr.metaConjunctive]
      | [y] => simpa [tailorCollapse] using hy
      | y :: z :: ys =>
        simp only [tailorCollapse, Expr.metaConjunctive]
        exact (metaConjunctiveAll_iff _).2 hy
  | .disj xs, c, hn, hm, hr => by
    apply metaFree_conjunctive
    intro q hq
    rcases resolve_preds T l _ c hn hr q hq with h | h
    · simp only [Expr.metaConjunctive] at hm
      exact hm q (by simpa [Expr.preds] using h)
    · exact h
  | .neg x, c, hn, _, _ => by simp [Expr.noNeg] at hn

theorem resolveConj_metaConjunctive (T : TypeSys τ) (l : Layout τ) :
    ∀ (xs : List (Expr τ)), Expr.noNegAll xs → Expr.metaConjunctiveAll xs →
      ∀ ys, resolveConj T l xs = .ok ys → ∀ y ∈ ys, y.metaConjunctive
  | [], _, _, ys, hr => by simp [resolveConj] at hr; subst hr; simp
  | x :: xs, hn, hm, ys, hr => by
    simp only [Expr.noNegAll] at hn
    simp only [Expr.metaConjunctiveAll] at hm
    rw [resolveConj] at hr
    cases hc : resolve T l x with
    | none => simp [hc] at hr
    | some y =>
      simp only [hc] at hr
      split at hr
      · simp at hr
      · cases hxs : resolveConj T l xs with
        | error => simp [hxs] at hr
        | unresolved => simp [hxs] at hr
        | ok zs =>
          simp [hxs] at hr; subst hr
          intro z hz
          rcases List.mem_cons.1 hz with rfl | hz
          · exact resolve_metaConjunctive T l x z hn.1 hm.1 hc
          · exact resolveConj_metaConjunctive T l xs hn.2 hm.2 zs hxs z hz
end

/-- Nil, or free of nil nodes. -/
def nilOrClean (e : Expr τ) : Prop := e = .none ∨ e.noNil

theorem resolveColumns_clean (l : Layout τ) (sel : Column τ → Bool) (op : RelOp) (d : Data) :
    nilOrClean (resolveColumns l sel op d) := by
  unfold resolveColumns
  generalize (l.indexed.filter fun c => sel c.1) = cs
  match cs with
  | [] => left; rfl
  | [c] => right; simp [connect, Expr.noNil]
  | c :: c' :: cs =>
    right
    simp only [connect, List.map_cons]
    split <;> simp only [Expr.noNil, Expr.noNilAll, true_and] <;>
    · rw [noNilAll_iff]; intro x hx; obtain ⟨c, _, rfl⟩ := List.mem_map.1 hx; simp [Expr.noNil]

/-- Predicates that do not use the legacy name `:timestamp`. -/
def Pred.noTimestamp (p : Pred τ) : Prop :=
  p.lhs ≠ .typeName timestampName ∧ p.rhs ≠ .typeName timestampName

mutual
theorem resolve_clean (T : TypeSys τ) (l : Layout τ) : ∀ (e c : Expr τ), e.noNeg → e.noNil →
    (∀ p ∈ e.preds, p.noTimestamp) → resolve T l e = some c → nilOrClean c
  | .none, c, _, hn, _, _ => by simp [Expr.noNil] at hn
  | .pred p, c, _, _, hp, hr => by
    have ht := hp p (by simp [Expr.preds])
    obtain ⟨lhs, op, rhs⟩ := p
    rw [resolve] at hr
    have hname : ∀ n d, n ≠ timestampName → (if n == timestampName then
      if !isTime d then none
      else some (.disj [resolveColumns l (fun c => T.named n c.type op d) op d,
        resolveColumns l (fun c => T.timestamp c.type) op d])
      else some (resolveColumns l (fun c => T.named n c.type op d) op d)) = some c →
      nilOrClean c := by
      intro n d hn hr
      rw [if_neg (by simpa using hn)] at hr
      simp at hr; subst hr; exact resolveColumns_clean _ _ _ _
    cases lhs <;> cases rhs <;>
      simp only [resolvePred, Option.some.injEq] at hr <;>
      first
        | (subst hr; exact resolveColumns_clean _ _ _ _)
        | (subst hr; right; simp [Expr.noNil])
        | (refine hname _ _ ?_ hr
           intro h0
           simp [Pred.noTimestamp, h0] at ht)
  | .conj xs, c, hg, hn, hp, hr => by
    simp only [Expr.noNeg] at hg
    simp only [Expr.noNil] at hn
    simp only [Expr.preds] at hp
    rw [resolve] at hr
    have := resolveConj_clean T l xs hg hn hp
    revert hr
    cases hc : resolveConj T l xs with
    | error => simp
    | unresolved => intro h2; simp at h2; subst h2; left; rfl
    | ok ys =>
      intro h2; simp at h2; subst h2
      have hy := this ys hc
      match ys with
      | [] => left; rfl
      | [y] => right; simpa [tailorCollapse] using hy
      | y :: z :: ys =>
        right; simp only [tailorCollapse, Expr.noNil]
        exact (noNilAll_iff _).2 hy
  | .disj xs, c, hg, hn, hp, hr => by
    simp only [Expr.noNeg] at hg
    simp only [Expr.noNil] at hn
    simp only [Expr.preds] at hp
    rw [resolve] at hr
    have := resolveDisj_clean T l xs hg hn hp
    revert hr
    cases hc : resolveDisj T l xs with
    | none => simp
    | some ys =>
      intro h2; simp at h2; subst h2
      have hy := this ys hc
      match ys with
      | [] => left; rfl
      | [y] => right; simpa [tailorCollapse] using hy
      | y :: z :: ys =>
        right; simp only [tailorCollapse, Expr.noNil]
        exact (noNilAll_iff _).2 hy
  | .neg x, c, hn, _, _, _ => by simp [Expr.noNeg] at hn

theorem resolveConj_clean (T : TypeSys τ) (l : Layout τ) : ∀ (xs : List (Expr τ)),
    Expr.noNegAll xs → Expr.noNilAll xs → (∀ p ∈ Expr.predsAll xs, p.noTimestamp) →
      ∀ ys, resolveConj T l xs = .ok ys → ∀ y ∈ ys, y.noNil
  | [], _, _, _, ys, hr => by simp [resolveConj] at hr; subst hr; simp
  | x :: xs, hg, hn, hp, ys, hr => by
    simp only [Expr.noNegAll] at hg
    simp only [Expr.noNilAll] at hn
    have hp' := preds_cons_all hp
    rw [resolveConj] at hr
    cases hc : resolve T l x with
    | none => simp [hc] at hr
    | some y =>
      simp only [hc] at hr
      split at hr
      · simp at hr
      · next hyn =>
        cases hxs : resolveConj T l xs with
        | error => simp [hxs] at hr
        | unresolved => simp [hxs] at hr
        | ok zs =>
          simp [hxs] at hr; subst hr
          intro z hz
          rcases List.mem_cons.1 hz with rfl | hz
          · rcases resolve_clean T l x z hg.1 hn.1 hp'.1 hc with h | h
            · subst h; simp [Expr.isNone] at hyn
            · exact h
          · exact resolveConj_clean T l xs hg.2 hn.2 hp'.2 zs hxs z hz

theorem resolveDisj_clean (T : TypeSys τ) (l : Layout τ) : ∀ (xs : List (Expr τ)),
    Expr.noNegAll xs → Expr.noNilAll xs → (∀ p ∈ Expr.predsAll xs, p.noTimestamp) →
      ∀ ys, resolveDisj T l xs = some ys → ∀ y ∈ ys, y.noNil
  | [], _, _, _, ys, hr => by simp [resolveDisj] at hr; subst hr; simp
  | x :: xs, hg, hn, hp, ys, hr => by
    simp only [Expr.noNegAll] at hg
    simp only [Expr.noNilAll] at hn
    have hp' := preds_cons_all hp
    rw [resolveDisj] at hr
    cases hc : resolve T l x with
    | none => simp [hc] at hr
    | some y =>
      cases hxs : resolveDisj T l xs with
      | none => simp [hc, hxs] at hr
      | some zs =>
        simp only [hc, hxs] at hr
        have hz := resolveDisj_clean T l xs hg.2 hn.2 hp'.2 zs hxs
        split at hr
        · simp at hr; subst hr; exact hz
        · next hyn =>
          simp at hr; subst hr
          intro z hm
          rcases List.mem_cons.1 hm with rfl | hm
          · rcases resolve_clean T l x z hg.1 hn.1 hp'.1 hc with h | h
            · subst h; simp [Expr.isNone] at hyn
            · exact h
          · exact hz z hm
end

/-! ### Pruning of metadata predicates -/

theorem pruneCollapse_eval_conj (pv : Pred τ → Bool) (xs : List (Expr τ)) (h : xs ≠ []) :
    (pruneCollapse .conj xs).eval pv = Expr.evalAll pv xs := by
  match xs, h with
  | [x], _ => simp [pruneCollapse, Expr.evalAll]
  | x :: y :: xs, _ => simp [pruneCollapse, Expr.eval]

theorem pruneCollapse_eval_disj (pv : Pred τ → Bool) (xs : List (Expr τ)) (h : xs ≠ []) :
    (pruneCollapse .disj xs).eval pv = Expr.evalAny pv xs := by
  match xs, h with
  | [x], _ => simp [pruneCollapse, Expr.evalAny]
  | x :: y :: xs, _ => simp [pruneCollapse, Expr.eval]

theorem pruneMetaAll_isNone (xs : List (Expr τ)) : ∀ x ∈ pruneMetaAll xs, x.isNone = false := by
  induction xs with
  | nil => simp [pruneMetaAll]
  | cons x xs ih =>
    rw [pruneMetaAll]
    split
    · exact ih
    · next h =>
      intro y hy
      rcases List.mem_cons.1 hy with rfl | hy
      · simpa using h
      · exact ih y hy

theorem pruneCollapse_isNone (mk : List (Expr τ) → Expr τ) (hmk : ∀ xs, (mk xs).isNone = false)
    (xs : List (Expr τ)) (h : ∀ x ∈ xs, x.isNone = false) :
    (pruneCollapse mk xs).isNone = xs.isEmpty := by
  match xs with
  | [] => rfl
  | [x] => simpa [pruneCollapse] using h
  | x :: y :: xs => simp [pruneCollapse, hmk]

theorem pruneMeta_conj_isNone (xs : List (Expr τ)) :
    (pruneMeta (.conj xs)).isNone = (pruneMetaAll xs).isEmpty := by
  rw [pruneMeta]; exact pruneCollapse_isNone _ (fun _ => rfl) _ (pruneMetaAll_isNone xs)

theorem pruneMeta_disj_isNone (xs : List (Expr τ)) :
    (pruneMeta (.disj xs)).isNone = (pruneMetaAll xs).isEmpty := by
  rw [pruneMeta]; exact pruneCollapse_isNone _ (fun _ => rfl) _ (pruneMetaAll_isNone xs)

mutual
/-- Without metadata predicates, pruning keeps what was true. -/
theorem prune_free (pv : Pred τ → Bool) : ∀ e : Expr τ, e.noNeg → e.noEmpty →
    (∀ p ∈ e.preds, p.isMeta = false) → e.eval pv = true →
    (pruneMeta e).isNone = false ∧ (pruneMeta e).eval pv = true
  | .none, _, _, _, h => by simp [Expr.eval] at h
  | .pred p, _, _, hp, h => by
    have := hp p (by simp [Expr.preds])
    rw [Pred.isMeta] at this
    rw [pruneMeta, if_neg (by simp [this])]
    exact ⟨rfl, h⟩
  | .conj xs, hg, he, hp, h => by
    simp only [Expr.noNeg] at hg
    simp only [Expr.noEmpty] at he
    simp only [Expr.preds] at hp
    simp only [Expr.eval] at h
    have := (prune_freeAll pv xs hg he.2 hp).1 h
    have hne := this.2 he.1
    rw [pruneMeta_conj_isNone, pruneMeta, pruneCollapse_eval_conj _ _ hne]
    exact ⟨by simpa using hne, this.1⟩
  | .disj xs, hg, he, hp, h => by
    simp only [Expr.noNeg] at hg
    simp only [Expr.noEmpty] at he
    simp only [Expr.preds] at hp
    simp only [Expr.eval] at h
    have := (prune_freeAll pv xs hg he.2 hp).2 h
    have hne : pruneMetaAll xs ≠ [] := by intro h0; rw [h0] at this; simp [Expr.evalAny] at this
    rw [pruneMeta_disj_isNone, pruneMeta, pruneCollapse_eval_disj _ _ hne]
    exact ⟨by simpa using hne, this⟩
  | .neg x, hg, _, _, _ => by simp [Expr.noNeg] at hg

theorem prune_freeAll (pv : Pred τ → Bool) : ∀ xs : List (Expr τ), Expr.noNegAll xs →
    Expr.noEmptyAll xs → (∀ p ∈ Expr.predsAll xs, p.isMeta = false) →
    (Expr.evalAll pv xs = true → Expr.evalAll pv (pruneMetaAll xs) = true ∧
      (xs ≠ [] → pruneMetaAll xs ≠ [])) ∧
    (Expr.evalAny pv xs = true → Expr.evalAny pv (pruneMetaAll xs) = true)
  | [], _, _, _ => by simp [pruneMetaAll, Expr.evalAll, Expr.evalAny]
  | x :: xs, hg, he, hp => by
    simp only [Expr.noNegAll] at hg
    simp only [Expr.noEmptyAll] at he
    have hp' := preds_cons_all hp
    have ih := prune_freeAll pv xs hg.2 he.2 hp'.2
    have hx := prune_free pv x hg.1 he.1 hp'.1
    constructor
    · intro h
      simp only [Expr.evalAll, Bool.and_eq_true] at h
      obtain ⟨h1, h2⟩ := hx h.1
      rw [pruneMetaAll, if_neg (by simp [h1])]
      simp [Expr.evalAll, h2, (ih.1 h.2).1]
    · intro h
      simp only [Expr.evalAny, Bool.or_eq_true] at h
      rw [pruneMetaAll]
      split
      · next hn =>
        rcases h with h | h
        · have := (hx h).1; rw [this] at hn; simp at hn
        · exact ih.2 h
      · simp only [Expr.evalAny, Bool.or_eq_true]
        rcases h with h | h
        · exact .inl (hx h).2
        · exact .inr (ih.2 h)
end

mutual
/-- If metadata predicates are conjuncts only, pruning weakens. -/
theorem prune_weaken (pv : Pred τ → Bool) : ∀ e : Expr τ, e.noNeg → e.noEmpty →
    e.metaConjunctive → e.eval pv = true →
    (pruneMeta e).isNone = true ∨ (pruneMeta e).eval pv = true
  | .none, _, _, _, h => by simp [Expr.eval] at h
  | .pred p, _, _, _, h => by
    rw [pruneMeta]
    split
    · left; rfl
    · right; exact h
  | .conj xs, hg, he, hm, h => by
    simp only [Expr.noNeg] at hg
    simp only [Expr.noEmpty] at he
    simp only [Expr.metaConjunctive] at hm
    simp only [Expr.eval] at h
    have := prune_weakenAll pv xs hg he.2 hm h
    rw [pruneMeta_conj_isNone]
    by_cases hne : pruneMetaAll xs = []
    · left; simp [hne]
    · right; rw [pruneMeta, pruneCollapse_eval_conj _ _ hne]; exact this
  | .disj xs, hg, he, hm, h => by
    simp only [Expr.metaConjunctive] at hm
    right
    exact (prune_free pv (.disj xs) hg he (by simpa [Expr.preds] using hm) h).2
  | .neg x, hg, _, _, _ => by simp [Expr.noNeg] at hg

theorem prune_weakenAll (pv : Pred τ → Bool) : ∀ xs : List (Expr τ), Expr.noNegAll xs →
    Expr.noEmptyAll xs → Expr.metaConjunctiveAll xs → Expr.evalAll pv xs = true →
    Expr.evalAll pv (pruneMetaAll xs) = true
  | [], _, _, _, _ => by simp [pruneMetaAll, Expr.evalAll]
  | x :: xs, hg, he, hm, h => by
    simp only [Expr.noNegAll] at hg
    simp only [Expr.noEmptyAll] at he
    simp only [Expr.metaConjunctiveAll] at hm
    simp only [Expr.evalAll, Bool.and_eq_true] at h
    have ih := prune_weakenAll pv xs hg.2 he.2 hm.2 h.2
    rw [pruneMetaAll]
    split
    · exact ih
    · next hn =>
      rcases prune_weaken pv x hg.1 he.1 hm.1 h.1 with h1 | h1
      · exact absurd h1 hn
      · simp [Expr.evalAll, h1, ih]
end

mutual
/-- Without nil nodes and metadata predicates, pruning changes nothing. -/
theorem prune_same (pv : Pred τ → Bool) : ∀ e : Expr τ, e.noEmpty → e.noNil →
    (∀ p ∈ e.preds, p.isMeta = false) →
    (pruneMeta e).isNone = false ∧ (pruneMeta e).eval pv = e.eval pv
  | .none, _, h, _ => by simp [Expr.noNil] at h
  | .pred p, _, _, hp => by
    have := hp p (by simp [Expr.preds])
    rw [Pred.isMeta] at this
    rw [pruneMeta, if_neg (by simp [this])]
    exact ⟨rfl, rfl⟩
  | .conj xs, he, hn, hp => by
    simp only [Expr.noEmpty] at he
    simp only [Expr.noNil] at hn
    simp only [Expr.preds] at hp
    obtain ⟨h1, h2, h3⟩ := prune_sameAll pv xs he.2 hn hp
    have hne := h1 he.1
    rw [pruneMeta_conj_isNone, pruneMeta, pruneCollapse_eval_conj _ _ hne, Expr.eval]
    exact ⟨by simpa using hne, h2⟩
  | .disj xs, he, hn, hp => by
    simp only [Expr.noEmpty] at he
    simp only [Expr.noNil] at hn
    simp only [Expr.preds] at hp
    obtain ⟨h1, h2, h3⟩ := prune_sameAll pv xs he.2 hn hp
    have hne := h1 he.1
    rw [pruneMeta_disj_isNone, pruneMeta, pruneCollapse_eval_disj _ _ hne, Expr.eval]
    exact ⟨by simpa using hne, h3⟩
  | .neg x, he, hn, hp => by
    simp only [Expr.noEmpty] at he
    simp only [Expr.noNil] at hn
    simp only [Expr.preds] at hp
    obtain ⟨h1, h2⟩ := prune_same pv x he hn hp
    rw [pruneMeta, if_neg (by simp [h1])]
    exact ⟨rfl, by rw [Expr.eval, Expr.eval, h2]⟩

theorem prune_sameAll (pv : Pred τ → Bool) : ∀ xs : List (Expr τ),
    Expr.noEmptyAll xs → Expr.noNilAll xs → (∀ p ∈ Expr.predsAll xs, p.isMeta = false) →
    (xs ≠ [] → pruneMetaAll xs ≠ []) ∧
    Expr.evalAll pv (pruneMetaAll xs) = Expr.evalAll pv xs ∧
    Expr.evalAny pv (pruneMetaAll xs) = Expr.evalAny pv xs
  | [], _, _, _ => by simp [pruneMetaAll]
  | x :: xs, he, hn, hp => by
    simp only [Expr.noEmptyAll] at he
    simp only [Expr.noNilAll] at hn
    have hp' := preds_cons_all hp
    obtain ⟨_, i2, i3⟩ := prune_sameAll pv xs he.2 hn.2 hp'.2
    obtain ⟨h1, h2⟩ := prune_same pv x he.1 hn.1 hp'.1
    rw [pruneMetaAll, if_neg (by simp [h1])]
    simp [Expr.evalAll, Expr.evalAny, h2, i2, i3]
end

mutual
/-- Without nil nodes, metadata predicates that all hold can be pruned. -/
theorem prune_exact (pv : Pred τ → Bool) : ∀ e : Expr τ, e.noNeg → e.noEmpty → e.noNil →
    (∀ p ∈ e.preds, p.isMeta = true → pv p = true) → e.metaConjunctive →
    ((pruneMeta e).isNone = true → e.eval pv = true) ∧
    ((pruneMeta e).isNone = false → (pruneMeta e).eval pv = e.eval pv)
  | .none, _, _, h, _, _ => by simp [Expr.noNil] at h
  | .pred p, _, _, _, hp, _ => by
    have := hp p (by simp [Expr.preds])
    rw [pruneMeta]
    rw [Pred.isMeta] at this
    split
    · next h => exact ⟨fun _ => this h, fun h0 => by simp [Expr.isNone] at h0⟩
    · exact ⟨fun h0 => by simp [Expr.isNone] at h0, fun _ => rfl⟩
  | .conj xs, hg, he, hn, hp, hm => by
    simp only [Expr.noNeg] at hg
    simp only [Expr.noEmpty] at he
    simp only [Expr.noNil] at hn
    simp only [Expr.preds] at hp
    simp only [Expr.metaConjunctive] at hm
    have := prune_exactAll pv xs hg he.2 hn hp hm
    rw [pruneMeta_conj_isNone, Expr.eval]
    by_cases hne : pruneMetaAll xs = []
    · rw [hne] at this
      simp [hne]
      simpa [Expr.evalAll] using this.symm
    · rw [pruneMeta, pruneCollapse_eval_conj _ _ hne]
      exact ⟨fun h => by simp [hne] at h, fun _ => this⟩
  | .disj xs, hg, he, hn, hp, hm => by
    simp only [Expr.metaConjunctive] at hm
    obtain ⟨h1, h2⟩ := prune_same pv (.disj xs) he hn (by simpa [Expr.preds] using hm)
    exact ⟨fun h => by simp [h1] at h, fun _ => h2⟩
  | .neg x, hg, _, _, _, _ => by simp [Expr.noNeg] at hg

theorem prune_exactAll (pv : Pred τ → Bool) : ∀ xs : List (Expr τ), Expr.noNegAll xs →
    Expr.noEmptyAll xs → Expr.noNilAll xs →
    (∀ p ∈ Expr.predsAll xs, p.isMeta = true → pv p = true) → Expr.metaConjunctiveAll xs →
    Expr.evalAll pv (pruneMetaAll xs) = Expr.evalAll pv xs
  | [], _, _, _, _, _ => by simp [pruneMetaAll]
  | x :: xs, hg, he, hn, hp, hm => by
    simp only [Expr.noNegAll] at hg
    simp only [Expr.noEmptyAll] at he
    simp only [Expr.noNilAll] at hn
    simp only [Expr.metaConjunctiveAll] at hm
    have hp' := preds_cons_all hp
    have ih := prune_exactAll pv xs hg.2 he.2 hn.2 hp'.2 hm.2
    have hx := prune_exact pv x hg.1 he.1 hn.1 hp'.1 hm.1
    rw [pruneMetaAll]
    split
    · next h => simp [Expr.evalAll, hx.1 h, ih]
    · next h => simp [Expr.evalAll, hx.2 (by simpa using h), ih]
end

end Verif.Expr
