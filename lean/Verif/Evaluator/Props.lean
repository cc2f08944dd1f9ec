import Verif.Evaluator.Model
import Verif.Expr.Lemmas

/-! # C37: Partition evaluation is independent of reply order -/

namespace Verif.Evaluator
open Verif.Expr
open Verif.Bitmap.Spec (pointwise)

variable {τ : Type}

namespace Spec

/-- An ID is in a set. -/
def Has (ids : Ids) (i : Nat) : Prop := ids[i]? = some true

mutual
/-- What an expression means, given what holds at the positions of its predicates. The children of the expression at a
    position `o` are at `o ++ [0]`, `o ++ [1]`, ... -/
def Sat (v : Position → Prop) (o : Position) : Expr τ → Prop
  | .none => False
  | .pred _ => v o
  | .conj xs => SatAll v o 0 xs
  | .disj xs => SatAny v o 0 xs
  | .neg x => ¬ Sat v (o ++ [0]) x

def SatAll (v : Position → Prop) (o : Position) : Nat → List (Expr τ) → Prop
  | _, [] => True
  | i, x :: xs => Sat v (o ++ [i]) x ∧ SatAll v o (i + 1) xs

def SatAny (v : Position → Prop) (o : Position) : Nat → List (Expr τ) → Prop
  | _, [] => False
  | i, x :: xs => Sat v (o ++ [i]) x ∨ SatAny v o (i + 1) xs
end

/-- The ID is in one of the results for the predicate at that position. -/
def InResults (replies : List (Position × Option Ids)) (i : Nat) (o : Position) : Prop :=
  ∃ ids, (o, some ids) ∈ replies ∧ Has ids i

end Spec

open Spec

/-! ### Lemmas -/

theorem has_pointwise {f : Bool → Bool → Bool} (hf : f false false = false) (a b : Ids) (i : Nat) :
    Has (pointwise f a b) i ↔ f (a.getD i false) (b.getD i false) = true := by
  rw [Has, pointwise, List.getElem?_map]
  by_cases h : i < max a.length b.length
  · rw [List.getElem?_range h]; simp
  · have h1 : a.length ≤ i := by omega
    have h2 : b.length ≤ i := by omega
    simp [List.getElem?_eq_none h1, List.getElem?_eq_none h2, hf, h]

theorem has_getD (a : Ids) (i : Nat) : Has a i ↔ a.getD i false = true := by
  rw [Has, List.getD_eq_getElem?_getD]
  cases a[i]? with
  | none => simp
  | some b => simp

theorem has_or (a b : Ids) (i : Nat) : Has (pointwise (· || ·) a b) i ↔ Has a i ∨ Has b i := by
  rw [has_pointwise rfl, has_getD, has_getD, Bool.or_eq_true]

theorem has_and (a b : Ids) (i : Nat) : Has (pointwise (· && ·) a b) i ↔ Has a i ∧ Has b i := by
  rw [has_pointwise rfl, has_getD, has_getD, Bool.and_eq_true]

theorem has_diff (a b : Ids) (i : Nat) : Has (pointwise (fun a b => a && !b) a b) i ↔ Has a i ∧ ¬ Has b i := by
  rw [has_pointwise rfl, has_getD, has_getD, Bool.and_eq_true]
  simp

/-- The hits for a position -/
def hitsAt (hits : HitsMap) (i : Nat) (o : Position) : Prop := ∃ n ids, hits o = some (n, ids) ∧ Has ids i

mutual
theorem has_evalAt (hits : HitsMap) (i : Nat) : ∀ (e : Expr τ) (o : Position), e.noNeg → e.noEmpty →
    (Has (evalAt hits o e) i ↔ Sat (hitsAt hits i) o e)
  | .none, o, _, _ => by rw [evalAt, Sat]; simp [Has]
  | .pred p, o, _, _ => by
    rw [evalAt, Sat, hitsAt]
    cases hits o with
    | none => simp [Has]
    | some x =>
      obtain ⟨n, ids⟩ := x
      simp only [Option.some.injEq, Prod.mk.injEq]
      constructor
      · exact fun h => ⟨n, ids, ⟨rfl, rfl⟩, h⟩
      · rintro ⟨_, _, ⟨rfl, rfl⟩, h⟩; exact h
  | .conj xs, o, hn, he => by
    rw [Expr.noNeg] at hn
    rw [Expr.noEmpty] at he
    rw [evalAt, Sat]
    exact (has_evalFrom_and hits i xs o 0 hn he.2).2 he.1
  | .disj xs, o, hn, he => by
    rw [Expr.noNeg] at hn
    rw [Expr.noEmpty] at he
    rw [evalAt, Sat]
    exact (has_evalFrom_or hits i xs o 0 hn he.2).2 he.1
  | .neg x, o, hn, _ => by rw [Expr.noNeg] at hn; exact hn.elim

theorem has_evalFrom_and (hits : HitsMap) (i : Nat) : ∀ (xs : List (Expr τ)) (o : Position) (k : Nat), Expr.noNegAll xs → Expr.noEmptyAll xs →
    (∀ a, Has (evalFrom (· && ·) hits o k (some a) xs) i ↔ Has a i ∧ SatAll (hitsAt hits i) o k xs) ∧
    (xs ≠ [] → (Has (evalFrom (· && ·) hits o k none xs) i ↔ SatAll (hitsAt hits i) o k xs))
  | [], o, k, _, _ => ⟨fun a => by rw [evalFrom, SatAll]; simp, fun h => absurd rfl h⟩
  | x :: xs, o, k, hn, he => by
    rw [Expr.noNegAll] at hn
    rw [Expr.noEmptyAll] at he
    have hx := has_evalAt hits i x (o ++ [k]) hn.1 he.1
    have ih := (has_evalFrom_and hits i xs o (k + 1) hn.2 he.2).1
    constructor
    · intro a
      rw [evalFrom, SatAll, ih, has_and, hx, and_assoc]
    · intro _
      rw [evalFrom, SatAll, ih, hx]

theorem has_evalFrom_or (hits : HitsMap) (i : Nat) : ∀ (xs : List (Expr τ)) (o : Position) (k : Nat), Expr.noNegAll xs → Expr.noEmptyAll xs →
    (∀ a, Has (evalFrom (· || ·) hits o k (some a) xs) i ↔ Has a i ∨ SatAny (hitsAt hits i) o k xs) ∧
    (xs ≠ [] → (Has (evalFrom (· || ·) hits o k none xs) i ↔ SatAny (hitsAt hits i) o k xs))
  | [], o, k, _, _ => ⟨fun a => by rw [evalFrom, SatAny]; simp, fun h => absurd rfl h⟩
  | x :: xs, o, k, hn, he => by
    rw [Expr.noNegAll] at hn
    rw [Expr.noEmptyAll] at he
    have hx := has_evalAt hits i x (o ++ [k]) hn.1 he.1
    have ih := (has_evalFrom_or hits i xs o (k + 1) hn.2 he.2).1
    constructor
    · intro a
      rw [evalFrom, SatAny, ih, has_or, hx, or_assoc]
    · intro _
      rw [evalFrom, SatAny, ih, hx]
end

mutual
theorem Sat.mono {v w : Position → Prop} (h : ∀ o, v o → w o) : ∀ (e : Expr τ) (o : Position), e.noNeg → Sat v o e → Sat w o e
  | .none, o, _, hs => by rw [Sat] at hs; exact hs.elim
  | .pred p, o, _, hs => by rw [Sat] at hs ⊢; exact h o hs
  | .conj xs, o, hn, hs => by rw [Expr.noNeg] at hn; rw [Sat] at hs ⊢; exact SatAll.mono h xs o 0 hn hs
  | .disj xs, o, hn, hs => by rw [Expr.noNeg] at hn; rw [Sat] at hs ⊢; exact SatAny.mono h xs o 0 hn hs
  | .neg x, o, hn, _ => by rw [Expr.noNeg] at hn; exact hn.elim

theorem SatAll.mono {v w : Position → Prop} (h : ∀ o, v o → w o) : ∀ (xs : List (Expr τ)) (o : Position) (k : Nat), Expr.noNegAll xs →
    SatAll v o k xs → SatAll w o k xs
  | [], o, k, _, _ => by rw [SatAll]; trivial
  | x :: xs, o, k, hn, hs => by
    rw [Expr.noNegAll] at hn
    rw [SatAll] at hs ⊢
    exact ⟨Sat.mono h x _ hn.1 hs.1, SatAll.mono h xs o _ hn.2 hs.2⟩

theorem SatAny.mono {v w : Position → Prop} (h : ∀ o, v o → w o) : ∀ (xs : List (Expr τ)) (o : Position) (k : Nat), Expr.noNegAll xs →
    SatAny v o k xs → SatAny w o k xs
  | [], o, k, _, hs => by rw [SatAny] at hs; exact hs.elim
  | x :: xs, o, k, hn, hs => by
    rw [Expr.noNegAll] at hn
    rw [SatAny] at hs ⊢
    rcases hs with hs | hs
    · exact .inl (Sat.mono h x _ hn.1 hs)
    · exact .inr (SatAny.mono h xs o _ hn.2 hs)
end

theorem evaluate_expr (s : State τ) : (evaluate s).expr = s.expr ∧ (evaluate s).pending = s.pending ∧ (evaluate s).hits = s.hits ∧
    (evaluate s).delivered = s.delivered := by
  rw [evaluate]
  by_cases h : (delta s).any id = true
  · rw [if_pos h]; exact ⟨rfl, rfl, rfl, rfl⟩
  · rw [if_neg h]; exact ⟨rfl, rfl, rfl, rfl⟩

theorem has_evaluate (s : State τ) (i : Nat) : Has (evaluate s).result i ↔ Has s.result i ∨ Has (evalAt s.hits [0] s.expr) i := by
  have hd : Has (delta s) i ↔ Has (evalAt s.hits [0] s.expr) i ∧ ¬ Has s.result i := has_diff _ _ _
  rw [evaluate]
  by_cases h : (delta s).any id = true
  · rw [if_pos h]
    simp only [has_or, hd]
    constructor
    · rintro (h | h)
      · exact .inl h
      · exact .inr h.1
    · rintro (h | h)
      · exact .inl h
      · by_cases h' : Has s.result i
        · exact .inl h'
        · exact .inr ⟨h, h'⟩
  · rw [if_neg h]
    constructor
    · exact .inl
    · rintro (h' | h')
      · exact h'
      · apply Classical.byContradiction
        intro h''
        apply h
        rw [List.any_eq_true]
        exact ⟨true, List.mem_of_getElem? (hd.2 ⟨h', h''⟩), rfl⟩

/-- The invariant: `past` are the replies that have arrived, `rest` those that have not. -/
structure Inv (e : Expr τ) (past rest : List (Position × Option Ids)) (s : State τ) : Prop where
  expr : s.expr = e
  pending : s.pending = rest.length
  hits : ∀ o, (o ∈ (past ++ rest).map (·.1) → ∃ ids, s.hits o = some ((rest.map (·.1)).count o, ids) ∧
      ∀ i, Has ids i ↔ InResults past i o) ∧ (o ∉ (past ++ rest).map (·.1) → s.hits o = none)
  sound : ∀ i, Has s.result i → Sat (InResults past i) [0] e
  complete : past ≠ [] → rest = [] → ∀ i, Sat (InResults past i) [0] e → Has s.result i
  delivered : s.delivered = if rest = [] then [s.result] else []

theorem inv_start (e : Expr τ) (replies : List (Position × Option Ids)) :
    Inv e [] replies (start e (replies.map (·.1))) := by
  refine ⟨rfl, by simp [start], ?_, ?_, fun h => absurd rfl h, ?_⟩
  · intro o
    rw [List.nil_append]
    constructor
    · intro h
      refine ⟨[], ?_, ?_⟩
      · rw [start]
        simp only
        rw [if_neg]
        intro hc
        exact List.count_eq_zero.1 hc h
      · intro i
        simp [Has, InResults]
    · intro h
      rw [start]
      simp only
      rw [if_pos (List.count_eq_zero.2 h)]
  · intro i h
    simp [start, Has] at h
  · rw [start]
    cases replies <;> simp

theorem hitsAt_iff {e : Expr τ} {past rest : List (Position × Option Ids)} {hits : HitsMap}
    (h : ∀ o, (o ∈ (past ++ rest).map (·.1) → ∃ ids, hits o = some ((rest.map (·.1)).count o, ids) ∧
      ∀ i, Has ids i ↔ InResults past i o) ∧ (o ∉ (past ++ rest).map (·.1) → hits o = none)) (i : Nat) (o : Position) :
    hitsAt hits i o ↔ InResults past i o := by
  by_cases ho : o ∈ (past ++ rest).map (·.1)
  · obtain ⟨ids, h1, h2⟩ := (h o).1 ho
    rw [← h2 i, hitsAt]
    constructor
    · rintro ⟨n, ids', h3, h4⟩
      rw [h1] at h3; cases h3
      exact h4
    · exact fun h3 => ⟨_, ids, h1, h3⟩
  · have h1 := (h o).2 ho
    constructor
    · rintro ⟨n, ids', h3, h4⟩
      rw [h1] at h3; cases h3
    · rintro ⟨ids, h3, h4⟩
      exact absurd (List.mem_map.2 ⟨_, List.mem_append_left _ h3, rfl⟩) ho

theorem inResults_snoc (past : List (Position × Option Ids)) (o : Position) (r : Option Ids) (i : Nat) (p : Position) :
    InResults (past ++ [(o, r)]) i p ↔ InResults past i p ∨ (p = o ∧ ∃ ids, r = some ids ∧ Has ids i) := by
  constructor
  · rintro ⟨ids, h, h'⟩
    rw [List.mem_append, List.mem_singleton] at h
    rcases h with h | h
    · exact .inl ⟨ids, h, h'⟩
    · cases h; exact .inr ⟨rfl, ids, rfl, h'⟩
  · rintro (⟨ids, h, h'⟩ | ⟨rfl, ids, rfl, h'⟩)
    · exact ⟨ids, List.mem_append_left _ h, h'⟩
    · exact ⟨ids, List.mem_append_right _ (List.mem_singleton.2 rfl), h'⟩

theorem inv_step {e : Expr τ} (hn : e.noNeg) (he : e.noEmpty) {past rest : List (Position × Option Ids)} {o : Position} {r : Option Ids}
    {s : State τ} (h : Inv e past ((o, r) :: rest) s) : Inv e (past ++ [(o, r)]) rest (handle s o r) := by
  obtain ⟨ids, h1, h2⟩ := (h.hits o).1 (by simp)
  rw [handle, h1]
  simp only
  have hc : (List.map (fun x => x.1) ((o, r) :: rest)).count o - 1 = (rest.map (·.1)).count o := by
    rw [List.map_cons]; simp
  have hacc : ∀ p, (p ∈ ((past ++ [(o, r)]) ++ rest).map (·.1) → ∃ ids', (accumulate s o
        ((List.map (fun x => x.1) ((o, r) :: rest)).count o) ids r).hits p = some ((rest.map (·.1)).count p, ids') ∧
      ∀ i, Has ids' i ↔ InResults (past ++ [(o, r)]) i p) ∧
      (p ∉ ((past ++ [(o, r)]) ++ rest).map (·.1) → (accumulate s o
        ((List.map (fun x => x.1) ((o, r) :: rest)).count o) ids r).hits p = none) := by
    intro p
    rw [List.append_assoc, List.singleton_append]
    simp only [accumulate, hc]
    by_cases hp : p = o
    · subst hp
      refine ⟨fun _ => ?_, fun hp => absurd (by simp) hp⟩
      rw [if_pos rfl]
      refine ⟨_, rfl, fun i => ?_⟩
      rw [inResults_snoc, ← h2 i]
      cases r with
      | none => simp
      | some r => simp only [has_or]; simp
    · rw [if_neg hp]
      refine ⟨fun hm => ?_, (h.hits p).2⟩
      obtain ⟨ids', h3, h4⟩ := (h.hits p).1 hm
      refine ⟨ids', ?_, fun i => ?_⟩
      · rw [h3, List.map_cons, List.count_cons]
        simp [Ne.symm hp]
      · rw [inResults_snoc, h4 i]
        simp [hp]
  generalize hs' : accumulate s o ((List.map (fun x => x.1) ((o, r) :: rest)).count o) ids r = s' at hacc
  have he' : s'.expr = e := by rw [← hs']; exact h.expr
  have hp' : s'.pending = rest.length + 1 := by rw [← hs']; exact h.pending
  have hr' : s'.result = s.result := by rw [← hs']; rfl
  have hd' : s'.delivered = [] := by rw [← hs']; exact h.delivered
  have hsat : ∀ i, Sat (InResults past i) [0] e → Sat (InResults (past ++ [(o, r)]) i) [0] e :=
    fun i => Sat.mono (fun p hp => (inResults_snoc past o r i p).2 (.inl hp)) e _ hn
  have heval : ∀ i, Has (evalAt s'.hits [0] s'.expr) i ↔ Sat (InResults (past ++ [(o, r)]) i) [0] e := by
    intro i
    rw [he', has_evalAt s'.hits i e [0] hn he]
    constructor
    · exact Sat.mono (fun p hp => (hitsAt_iff (e := e) hacc i p).1 hp) e _ hn
    · exact Sat.mono (fun p hp => (hitsAt_iff (e := e) hacc i p).2 hp) e _ hn
  rw [hc]
  -- the state before `decrement_pending`
  obtain ⟨t, ht, q1, q2, q3, q4, q5, q6⟩ : ∃ t, (if (rest.map (·.1)).count o = 0 then evaluate s' else s') = t ∧ t.expr = e ∧
      t.pending = rest.length + 1 ∧ t.hits = s'.hits ∧ t.delivered = [] ∧
      (∀ i, Has t.result i → Sat (InResults (past ++ [(o, r)]) i) [0] e) ∧
      (rest = [] → ∀ i, Sat (InResults (past ++ [(o, r)]) i) [0] e → Has t.result i) := by
    refine ⟨_, rfl, ?_⟩
    by_cases h0 : (rest.map (·.1)).count o = 0
    · rw [if_pos h0]
      obtain ⟨e1, e2, e3, e4⟩ := evaluate_expr s'
      refine ⟨by rw [e1, he'], by rw [e2, hp'], e3, by rw [e4, hd'], fun i hi => ?_, fun _ i hi => ?_⟩
      · rw [has_evaluate, heval, hr'] at hi
        rcases hi with hi | hi
        · exact hsat i (h.sound i hi)
        · exact hi
      · rw [has_evaluate, heval]
        exact .inr hi
    · rw [if_neg h0]
      refine ⟨he', hp', rfl, hd', fun i hi => ?_, fun hr => ?_⟩
      · rw [hr'] at hi
        exact hsat i (h.sound i hi)
      · rw [hr] at h0; simp at h0
  rw [ht]
  have hdec : decrementPending t = { t with pending := rest.length, delivered := if rest = [] then [t.result] else [] } := by
    rw [decrementPending, q2, q4]
    cases rest <;> simp
  rw [hdec]
  refine ⟨q1, rfl, ?_, q5, fun _ => q6, rfl⟩
  simp only [q3]
  exact hacc

theorem inv_run {e : Expr τ} (hn : e.noNeg) (he : e.noEmpty) : ∀ (rest past : List (Position × Option Ids)) (s : State τ) (later),
    Inv e past (rest ++ later) s → Inv e (past ++ rest) later (run s rest)
  | [], past, s, later, h => by rw [List.append_nil]; exact h
  | (o, r) :: rest, past, s, later, h => by
    have := inv_run hn he rest (past ++ [(o, r)]) (handle s o r) later (inv_step hn he h)
    rw [List.append_assoc, List.singleton_append] at this
    exact this

theorem start_perm (e : Expr τ) {a b : List Position} (h : a.Perm b) : start e a = start e b := by
  have : ∀ o, a.count o = b.count o := fun o => h.count_eq o
  simp [start, this, h.length_eq]

/-! ### The property -/

/-- C37: when all replies have arrived, in whatever order, the evaluator has delivered exactly one result. It has exactly
    the IDs for which the expression holds, given all results for its predicates (where an error counts as an empty
    result). Expressions are normalized, that is, without negation (C22). -/
theorem C37_order_independent_partial (e : Expr τ) (hn : e.noNeg) (he : e.noEmpty) (requests order : List (Position × Option Ids))
    (hne : requests ≠ []) (hp : order.Perm requests) :
    ∃ result, (run (start e (requests.map (·.1))) order).delivered = [result] ∧
      ∀ i, Has result i ↔ Sat (InResults requests i) [0] e := by
  have h0 := inv_start e order
  rw [start_perm e (hp.map (·.1))] at h0
  have h := inv_run hn he order [] _ [] (by rw [List.append_nil]; exact h0)
  rw [List.nil_append] at h
  refine ⟨_, h.delivered, fun i => ?_⟩
  have hiff : ∀ o, InResults order i o ↔ InResults requests i o := by
    intro o
    simp only [InResults, hp.mem_iff]
  have hne' : order ≠ [] := by
    intro h
    subst h
    exact hne (List.nil_perm.1 hp)
  constructor
  · exact fun hi => Sat.mono (fun o ho => (hiff o).1 ho) e _ hn (h.sound i hi)
  · exact fun hi => h.complete hne' rfl i (Sat.mono (fun o ho => (hiff o).2 ho) e _ hn hi)

/-- C37: nothing is delivered before the last reply. -/
theorem C37_not_before (e : Expr τ) (hn : e.noNeg) (he : e.noEmpty) (arrived missing : List (Position × Option Ids)) (hm : missing ≠ []) :
    (run (start e ((arrived ++ missing).map (·.1))) arrived).delivered = [] := by
  have h := inv_run hn he arrived [] _ missing (inv_start e (arrived ++ missing))
  rw [h.delivered, if_neg hm]

/-- C37 fails for expressions with a negation: the result depends on the order. -/
theorem C37_negation_refuted : ∃ (e : Expr Nat) (requests order : List (Position × Option Ids)), order.Perm requests ∧
    (run (start e (requests.map (·.1))) requests).delivered = [[false, true]] ∧
    (run (start e (requests.map (·.1))) order).delivered = [[true, true]] :=
  ⟨.disj [.neg (.pred ⟨.metaType, .equal, .metaType⟩), .pred ⟨.metaType, .equal, .metaType⟩],
    [([0, 0, 0], some [false, false]), ([0, 0, 0], some [true, false]), ([0, 1], none)],
    [([0, 0, 0], some [false, false]), ([0, 1], none), ([0, 0, 0], some [true, false])],
    by decide, by decide, by decide⟩

/-- Four requests for two predicates, one of which fails. -/
def sample : Expr Nat := .disj [.pred ⟨.metaType, .equal, .metaType⟩, .conj [.pred ⟨.metaType, .equal, .metaType⟩, .pred ⟨.metaField, .equal, .metaType⟩]]

def sampleReplies : List (Position × Option Ids) :=
  [([0, 0], some [true]), ([0, 1, 0], some [false, true, true]), ([0, 1, 0], none), ([0, 1, 1], some [true, false, true])]

example : sample.noNeg ∧ sample.noEmpty ∧ (run (start sample (sampleReplies.map (·.1))) sampleReplies).delivered = [[true, false, true]] ∧
    (run (start sample (sampleReplies.map (·.1))) sampleReplies.reverse).delivered = [[true, false, true]] := by
  simp [sample, Expr.noNeg, Expr.noNegAll, Expr.noEmpty, Expr.noEmptyAll]
  decide

/-! ### Positions -/

/-- All predicates of the expression can be resolved. -/
def AllResolve (res : Pred τ → Option (List (Pred τ))) (e : Expr τ) : Prop := ∀ p ∈ e.preds, (res p).isSome = true

mutual
theorem resolveAt_some (res : Pred τ → Option (List (Pred τ))) : ∀ (e : Expr τ) (o : Position) (l : List (Position × Pred τ)),
    resolveAt res o e = some l → ∀ o' q, (o', q) ∈ l ↔ ∃ o'' p qs, o' = o ++ o'' ∧ follow o'' e = some (.pred p) ∧ res p = some qs ∧ q ∈ qs
  | .none, o, l, h, _, _ => by rw [resolveAt] at h; cases h
  | .pred p, o, l, h, o', q => by
    rw [resolveAt, Option.map_eq_some_iff] at h
    obtain ⟨qs, h1, rfl⟩ := h
    rw [List.mem_map]
    constructor
    · rintro ⟨q', hq, he⟩
      cases he
      exact ⟨[], p, qs, by simp, rfl, h1, hq⟩
    · rintro ⟨o'', p', qs', rfl, h2, h3, h4⟩
      cases o'' with
      | nil =>
        cases h2
        rw [h1] at h3; cases h3
        exact ⟨q, h4, by simp⟩
      | cons i o'' => simp [follow, child] at h2
  | .conj xs, o, l, h, o', q => by
    rw [resolveAt] at h
    rw [resolveFrom_some res xs o 0 l h o' q]
    constructor
    · rintro ⟨i, o'', p, qs, x, rfl, h1, h2, h3, h4⟩
      refine ⟨i :: o'', p, qs, by simp, ?_, h3, h4⟩
      rw [follow, child, h1]; exact h2
    · rintro ⟨o'', p, qs, rfl, h2, h3, h4⟩
      cases o'' with
      | nil => cases h2
      | cons i o'' =>
        rw [follow, child] at h2
        cases hx : xs[i]? with
        | none => rw [hx] at h2; cases h2
        | some x => rw [hx] at h2; exact ⟨i, o'', p, qs, x, by simp, hx, h2, h3, h4⟩
  | .disj xs, o, l, h, o', q => by
    rw [resolveAt] at h
    rw [resolveFrom_some res xs o 0 l h o' q]
    constructor
    · rintro ⟨i, o'', p, qs, x, rfl, h1, h2, h3, h4⟩
      refine ⟨i :: o'', p, qs, by simp, ?_, h3, h4⟩
      rw [follow, child, h1]; exact h2
    · rintro ⟨o'', p, qs, rfl, h2, h3, h4⟩
      cases o'' with
      | nil => cases h2
      | cons i o'' =>
        rw [follow, child] at h2
        cases hx : xs[i]? with
        | none => rw [hx] at h2; cases h2
        | some x => rw [hx] at h2; exact ⟨i, o'', p, qs, x, by simp, hx, h2, h3, h4⟩
  | .neg x, o, l, h, o', q => by
    rw [resolveAt] at h
    rw [resolveAt_some res x (o ++ [0]) l h o' q]
    constructor
    · rintro ⟨o'', p, qs, rfl, h2, h3, h4⟩
      refine ⟨0 :: o'', p, qs, by simp, ?_, h3, h4⟩
      rw [follow, child, if_pos rfl]; exact h2
    · rintro ⟨o'', p, qs, rfl, h2, h3, h4⟩
      cases o'' with
      | nil => cases h2
      | cons i o'' =>
        rw [follow, child] at h2
        by_cases hi : i = 0
        · subst hi
          rw [if_pos rfl] at h2
          exact ⟨o'', p, qs, by simp, h2, h3, h4⟩
        · rw [if_neg hi] at h2; cases h2

theorem resolveFrom_some (res : Pred τ → Option (List (Pred τ))) : ∀ (xs : List (Expr τ)) (o : Position) (k : Nat) (l : List (Position × Pred τ)),
    resolveFrom res o k xs = some l → ∀ o' q, (o', q) ∈ l ↔
      ∃ (i : Nat) (o'' : Position) (p : Pred τ) (qs : List (Pred τ)) (x : Expr τ), o' = o ++ (k + i) :: o'' ∧ xs[i]? = some x ∧
        follow o'' x = some (.pred p) ∧ res p = some qs ∧ q ∈ qs
  | [], o, k, l, h, o', q => by rw [resolveFrom] at h; cases h; simp
  | x :: xs, o, k, l, h, o', q => by
    rw [resolveFrom] at h
    cases hx : resolveAt res (o ++ [k]) x with
    | none => rw [hx] at h; cases h
    | some a =>
      rw [hx, Option.bind_some, Option.map_eq_some_iff] at h
      obtain ⟨b, hb, rfl⟩ := h
      rw [List.mem_append, resolveAt_some res x _ a hx, resolveFrom_some res xs o (k + 1) b hb]
      constructor
      · rintro (⟨o'', p, qs, rfl, h1, h2, h3⟩ | ⟨i, o'', p, qs, y, rfl, h0, h1, h2, h3⟩)
        · exact ⟨0, o'', p, qs, x, by simp, rfl, h1, h2, h3⟩
        · exact ⟨i + 1, o'', p, qs, y, by rw [show k + (i + 1) = k + 1 + i by omega], by simpa using h0, h1, h2, h3⟩
      · rintro ⟨i, o'', p, qs, y, rfl, h0, h1, h2, h3⟩
        cases i with
        | zero => cases h0; exact .inl ⟨o'', p, qs, by simp, h1, h2, h3⟩
        | succ i =>
          exact .inr ⟨i, o'', p, qs, y, by rw [show k + (i + 1) = k + 1 + i by omega], by simpa using h0, h1, h2, h3⟩
end

mutual
theorem resolveAt_isSome (res : Pred τ → Option (List (Pred τ))) : ∀ (e : Expr τ) (o : Position), e.noNil →
    ((resolveAt res o e).isSome = true ↔ AllResolve res e)
  | .none, o, h => by rw [Expr.noNil] at h; exact h.elim
  | .pred p, o, _ => by rw [resolveAt]; simp [AllResolve, Expr.preds]
  | .conj xs, o, h => by
    rw [Expr.noNil] at h
    rw [resolveAt, resolveFrom_isSome res xs o 0 h, AllResolve, Expr.preds]
  | .disj xs, o, h => by
    rw [Expr.noNil] at h
    rw [resolveAt, resolveFrom_isSome res xs o 0 h, AllResolve, Expr.preds]
  | .neg x, o, h => by
    rw [Expr.noNil] at h
    rw [resolveAt, resolveAt_isSome res x _ h, AllResolve, AllResolve, Expr.preds]

theorem resolveFrom_isSome (res : Pred τ → Option (List (Pred τ))) : ∀ (xs : List (Expr τ)) (o : Position) (k : Nat), Expr.noNilAll xs →
    ((resolveFrom res o k xs).isSome = true ↔ ∀ p ∈ Expr.predsAll xs, (res p).isSome = true)
  | [], o, k, _ => by rw [resolveFrom, Expr.predsAll]; simp
  | x :: xs, o, k, h => by
    rw [Expr.noNilAll] at h
    have h1 := resolveAt_isSome res x (o ++ [k]) h.1
    have h2 := resolveFrom_isSome res xs o (k + 1) h.2
    rw [resolveFrom, Expr.predsAll]
    rw [AllResolve] at h1
    cases hx : resolveAt res (o ++ [k]) x with
    | none =>
      rw [hx] at h1
      simp only [Option.isSome_none, Bool.false_eq_true, false_iff] at h1
      simp only [Option.bind_none, Option.isSome_none, Bool.false_eq_true, false_iff]
      exact fun h => h1 fun p hp => h p (List.mem_append_left _ hp)
    | some a =>
      rw [hx] at h1
      simp only [Option.isSome_some, true_iff] at h1
      rw [Option.bind_some, Option.isSome_map, h2]
      constructor
      · intro h p hp
        rcases List.mem_append.1 hp with hp | hp
        · exact h1 p hp
        · exact h p hp
      · exact fun h p hp => h p (List.mem_append_right _ hp)
end

/-- C37: the jobs of the evaluator are for the positions of the predicates that they come from; there are none if a
    predicate of the expression cannot be resolved for the partition. -/
theorem C37_positions (res : Pred τ → Option (List (Pred τ))) (e : Expr τ) (hn : e.noNil) (o : Position) (q : Pred τ) :
    (o, q) ∈ resolve res e ↔ AllResolve res e ∧ o.head? = some 0 ∧ ∃ p qs, at_ e o = some (.pred p) ∧ res p = some qs ∧ q ∈ qs := by
  have h1 := resolveAt_isSome res e [0] hn
  rw [resolve]
  cases h : resolveAt res [0] e with
  | none =>
    rw [h] at h1
    simp only [Option.isSome_none, Bool.false_eq_true, false_iff] at h1
    simp [h1]
  | some l =>
    rw [h] at h1
    simp only [Option.isSome_some, true_iff] at h1
    simp only [Option.getD_some, h1, true_and]
    rw [resolveAt_some res e [0] l h]
    constructor
    · rintro ⟨o'', p, qs, rfl, h2, h3, h4⟩
      refine ⟨rfl, p, qs, ?_, h3, h4⟩
      cases o'' with
      | nil => exact h2
      | cons i o'' => exact h2
    · rintro ⟨h0, p, qs, h2, h3, h4⟩
      cases o with
      | nil => cases h0
      | cons z o =>
        cases h0
        refine ⟨o, p, qs, rfl, ?_, h3, h4⟩
        cases o with
        | nil => exact h2
        | cons i o => exact h2

example : sample.noNil ∧ (resolve (fun p => some [p, p]) sample).map (·.1) =
    [[0, 0], [0, 0], [0, 1, 0], [0, 1, 0], [0, 1, 1], [0, 1, 1]] := by
  simp [sample, Expr.noNil, Expr.noNilAll]
  rfl

end Verif.Evaluator
