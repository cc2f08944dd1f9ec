import Verif.Taxonomy.Lemmas

/-! # C26: Concept resolution terminates and finds every field

C66: Resolving concepts and models keeps the meaning of a query. -/

namespace Verif.Taxonomy
open Verif.Expr
open Verif.Data (Data RelOp)
open Spec

/-! ### Lists of names -/

/-- C26: for every concept graph, also a cyclic one, with fewer than 100 concepts, resolving a list of names gives
    exactly what the names stand for. -/
theorem C26_resolve_concepts_partial (cs : Concepts) (hc : cs.length < 100) (names : List Name) (x : Name) :
    x ∈ resolveConcepts cs names ↔ ∃ n ∈ names, Resolves cs n x := by
  rw [resolveConcepts]
  have hu : uncached cs (⟨[], []⟩ : State).cache < maxRecursion := by
    have := List.length_filter_le (fun p : Name × Concept => decide (p.1 ∉ ([] : List Name))) cs
    exact Nat.lt_of_le_of_lt this hc
  obtain ⟨h1, h2⟩ := fold_step (tryResolve_step cs maxRecursion) names ⟨[], []⟩ hu
  constructor
  · intro h
    have fold : ∀ (l : List Name) (s : State), ∀ y ∈ (l.foldl (fun s y => tryResolve cs maxRecursion y s) s).out,
        y ∈ s.out ∨ ∃ m ∈ l, Resolves cs m y := by
      intro l
      induction l with
      | nil => intro s y h; exact .inl h
      | cons z l ih =>
        intro s y h
        rw [List.foldl_cons] at h
        rcases ih _ y h with h | ⟨m, hm, h⟩
        · rcases tryResolve_sound cs _ z s y h with h | h
          · exact .inl h
          · exact .inr ⟨z, List.mem_cons_self, h⟩
        · exact .inr ⟨m, List.mem_cons_of_mem _ hm, h⟩
    rcases fold names _ x h with h | h
    · cases h
    · exact h
  · rintro ⟨n, hn, hr⟩
    refine done_resolves (fun y hy => ?_) hr (h2 n hn)
    rcases h1.2 y hy with h | h
    · cases h
    · exact h

/-- C26: whatever the number of concepts, only names come out that the given names stand for. -/
theorem C26_resolve_concepts_sound (cs : Concepts) (names : List Name) (x : Name) (h : x ∈ resolveConcepts cs names) :
    ∃ n ∈ names, Resolves cs n x := by
  have fold : ∀ (l : List Name) (s : State), ∀ y ∈ (l.foldl (fun s y => tryResolve cs maxRecursion y s) s).out,
      y ∈ s.out ∨ ∃ m ∈ l, Resolves cs m y := by
    intro l
    induction l with
    | nil => intro s y h; exact .inl h
    | cons z l ih =>
      intro s y h
      rw [List.foldl_cons] at h
      rcases ih _ y h with h | ⟨m, hm, h⟩
      · rcases tryResolve_sound cs _ z s y h with h | h
        · exact .inl h
        · exact .inr ⟨z, List.mem_cons_self, h⟩
      · exact .inr ⟨m, List.mem_cons_of_mem _ hm, h⟩
  rcases fold names _ x h with h | h
  · cases h
  · exact h

/-- A chain of `n` concepts, the last of which has a field. -/
def chain (n : Nat) : Concepts :=
  (List.range n).map fun i =>
    ([UInt8.ofNat i], if i + 1 < n then ⟨[], [[UInt8.ofNat (i + 1)]]⟩ else ⟨[[200]], []⟩)

/-- C26 fails for long chains of concepts: the field of the 101st concept is not found. -/
theorem C26_resolve_concepts_refuted : Resolves (chain 101) [0] [200] ∧ [200] ∉ resolveConcepts (chain 101) [[0]] := by
  refine ⟨?_, by decide +kernel⟩
  have step : ∀ i : Fin 100, find (chain 101) [UInt8.ofNat i.val] = some ⟨[], [[UInt8.ofNat (i.val + 1)]]⟩ := by decide +kernel
  have last : find (chain 101) [UInt8.ofNat 100] = some ⟨[[200]], []⟩ := by decide +kernel
  have all : ∀ k, k ≤ 100 → Resolves (chain 101) [UInt8.ofNat (100 - k)] [200] := by
    intro k
    induction k with
    | zero => exact fun _ => .field last (by simp)
    | succ k ih =>
      intro h
      have := step ⟨100 - (k + 1), by omega⟩
      refine .nested this List.mem_cons_self ?_
      rw [show 100 - (k + 1) + 1 = 100 - k by omega]
      exact ih (by omega)
  exact all 100 (Nat.le_refl _)

/-- Two concepts that reference each other. -/
def cyclic : Concepts := [([1], ⟨[[10], [11]], [[2], [3]]⟩), ([2], ⟨[[12]], [[1], [4]]⟩)]

example : cyclic.length < 100 ∧ resolveConcepts cyclic [[2], [9]] = [[12], [10], [11], [3], [4], [9]] := by decide

/-! ### Concepts in predicates -/

/-- C26: for predicates on a concept, the fields are exactly those of the concept, also in a cyclic graph; they are
    found whenever the concepts that its referenced concepts reference are among those that it references itself. -/
theorem C26_target_fields_partial (cs : Concepts) (c : Concept)
    (h : ∀ m ∈ c.concepts, ∀ e, find cs m = some e → ∀ k ∈ e.concepts, k ∈ c.concepts) :
    ∃ fs, targetFields cs c = some fs ∧ ∀ x, x ∈ fs ↔ FieldOf cs c x := by
  obtain ⟨fs, hf⟩ := Option.isSome_iff_exists.1 (targetFields_some.2 h)
  exact ⟨fs, hf, mem_targetFields hf⟩

/-- C26 fails in all other cases: the loop runs over a container that it appends to. -/
theorem C26_target_fields_refuted (cs : Concepts) (c d : Concept) (m k : Name) (hm : m ∈ c.concepts)
    (hd : find cs m = some d) (hk : k ∈ d.concepts) (hn : k ∉ c.concepts) : targetFields cs c = none := by
  cases h : targetFields cs c with
  | none => rfl
  | some fs => exact absurd (targetFields_some.1 (by rw [h]; rfl) m hm d hd k hk) hn

/-- Two concepts that reference themselves and each other. -/
def cyclic' : Concepts := [([1], ⟨[[10], [11]], [[1], [2]]⟩), ([2], ⟨[[12]], [[1], [2]]⟩)]

example : targetFields cyclic' ⟨[[10], [11]], [[1], [2]]⟩ = some [[10], [11], [12]] ∧
    (∃ c, find cyclic [1] = some c ∧ targetFields cyclic c = none) := by
  refine ⟨by decide, ⟨[[10], [11]], [[2], [3]]⟩, by decide, by decide⟩

/-! ### The leaves of models -/

/-- C26: the leaves of a model are found from left to right, for models that are not recursive and not empty. -/
theorem C26_model_leaves_partial (models : Models) (hne : ∀ n d, find models n = some d → d ≠ []) (definition leaves : List Name)
    (hd : definition ≠ []) (h : Flat models definition leaves) :
    ∃ n, ∀ fuel, n ≤ fuel → modelLeaves models fuel definition = .ok leaves := by
  obtain ⟨n, hn⟩ := after_flat models hne h [] [] [] ⟨0, fun _ _ _ _ => rfl⟩
  refine ⟨n, fun fuel hf => ?_⟩
  have := hn fuel fuel hf hf
  simp only at this
  cases definition with
  | nil => exact absurd rfl hd
  | cons x xs =>
    rw [after, advance, List.append_nil] at this
    exact this

/-- C26 fails for recursive models: the walk never ends. -/
theorem C26_model_recursive_refuted (models : Models) (x : Name) (rest : List Name) (h : find models x = some (x :: rest)) (fuel : Nat) :
    modelLeaves models fuel (x :: rest) = .timeout := by
  have : ∀ fuel levels, descend models fuel ((x :: rest) :: levels) = .timeout := by
    intro fuel
    induction fuel with
    | zero => intro levels; rfl
    | succ n ih => intro levels; rw [descend]; simp only [h]; exact ih _
  rw [modelLeaves, this]; rfl

/-- C26 fails for empty models: the walk reads past the end of the definition. -/
theorem C26_model_empty_refuted (models : Models) (x : Name) (rest : List Name) (h : find models x = some []) (fuel : Nat) :
    modelLeaves models (fuel + 2) (x :: rest) = .ub := by
  rw [modelLeaves, descend, h]
  simp only
  rw [descend]
  · rfl
  · intro _ _ _ h; cases h

/-- A connection has two endpoints. -/
def connection : Models := [([1], [[10], [11]]), ([2], [[1], [12], [1]])]

example : Flat connection [[2], [13]] [[10], [11], [12], [10], [11], [13]] ∧
    modelLeaves connection 20 [[2], [13]] = .ok [[10], [11], [12], [10], [11], [13]] :=
  ⟨.node (ls := [[10], [11], [12], [10], [11]]) rfl
    (.node (ls := [[10], [11]]) rfl (.leaf rfl (.leaf rfl .nil)) (.leaf rfl (.node (ls := [[10], [11]]) rfl (.leaf rfl (.leaf rfl .nil)) .nil)))
    (.leaf rfl .nil), by decide⟩

/-! ### The meaning of predicates -/

variable {τ : Type}

theorem evalAny_pred (pv : Pred τ → Bool) (ps : List (Pred τ)) : Expr.evalAny pv (ps.map .pred) = ps.any pv := by
  induction ps with
  | nil => rfl
  | cons p ps ih => rw [List.map_cons, Expr.evalAny, Expr.eval, ih]; rfl

theorem eval_anyOf (pv : Pred τ → Bool) (p : Pred τ) (ps : List (Pred τ)) (h : ps ≠ []) : (anyOf p ps).eval pv = ps.any pv := by
  match ps, h with
  | [x], _ => simp [anyOf, Expr.eval]
  | x :: y :: ps, _ => exact evalAny_pred pv (x :: y :: ps)

theorem conceptExpr_spec (ctx : Context) (pv : Pred τ → Bool) (p : Pred τ) (name : Name) (op : RelOp) (d : Data)
    (mk : RelOp → Data → Name → Pred τ) (h : Resolvable ctx name op d) :
    ∃ e, conceptExpr ctx p name op d mk = .ok e ∧ (e.eval pv = true ↔ Holds ctx pv mk name op d) := by
  obtain ⟨c, hc, hclosed, x, hx, hk⟩ := h
  obtain ⟨fs, hf, hm⟩ := C26_target_fields_partial _ c hclosed
  rw [conceptExpr, hc]
  simp only [hf]
  refine ⟨_, rfl, ?_⟩
  rw [eval_anyOf]
  · rw [List.any_map, List.any_eq_true]
    constructor
    · rintro ⟨y, hy, hp⟩
      rw [List.mem_filter] at hy
      exact ⟨c, y, hc, (hm y).1 hy.1, hy.2, hp⟩
    · rintro ⟨c', y, hc', hy, hk', hp⟩
      rw [hc] at hc'; cases hc'
      exact ⟨y, List.mem_filter.2 ⟨(hm y).2 hy, hk'⟩, hp⟩
  · intro h
    have : x ∈ fs.filter (ctx.keep · op d) := List.mem_filter.2 ⟨(hm x).2 hx, hk⟩
    rw [List.map_eq_nil_iff] at h
    rw [h] at this; cases this

def predField (name : Name) (op : RelOp) (d : Data) : Pred τ := ⟨.field name, op, .data d⟩
def predData (name : Name) (op : RelOp) (d : Data) : Pred τ := ⟨.data d, op, .field name⟩

/-- C66: a predicate on a concept, for a value that is not a record, becomes an expression that holds iff the predicate
    holds for a field of the concept. The same for predicates with the value on the left. -/
theorem C66_concept_partial (ctx : Context) (fuel : Nat) (pv : Pred τ → Bool) (name : Name) (op : RelOp) (d : Data)
    (hd : ∀ ns vs, d ≠ .record ns vs) (h : Resolvable ctx name op d) :
    (∃ e, resolve ctx fuel (.pred (predField name op d)) = .ok e ∧
      (e.eval pv = true ↔ Holds ctx pv (fun op d x => predField x op d) name op d)) ∧
    (∃ e, resolve ctx fuel (.pred (predData name op d)) = .ok e ∧
      (e.eval pv = true ↔ Holds ctx pv (fun op d x => predData x op d) name op d)) := by
  have hm : ∀ p (mk : RelOp → Data → Name → Pred τ), modelExpr ctx fuel p name op d mk = conceptExpr ctx p name op d mk := by
    intro p mk
    cases d with
    | record ns vs => exact absurd rfl (hd ns vs)
    | _ => rfl
  constructor
  · obtain ⟨e, h1, h2⟩ := conceptExpr_spec ctx pv (predField name op d) name op d (fun op d x => predField x op d) h
    refine ⟨e, ?_, h2⟩
    rw [resolve, resolvePred]
    exact (hm _ _).trans h1
  · obtain ⟨e, h1, h2⟩ := conceptExpr_spec ctx pv (predData name op d) name op d (fun op d x => predData x op d) h
    refine ⟨e, ?_, h2⟩
    rw [resolve, resolvePred]
    exact (hm _ _).trans h1

/-- C66 fails for negations: a concept is not equal to a value if some field is not equal to it, so the negation of an
    equality, and the inequality that it is normalized to, resolve to different things. -/
theorem C66_negation_refuted : ∃ (ctx : Context) (name : Name) (d : Data) (a b : Expr Nat) (pv : Pred Nat → Bool),
    (∀ x, pv (predField x .notEqual d) = !pv (predField x .equal d)) ∧
    resolve ctx 0 (.neg (.pred (predField name .equal d))) = .ok a ∧
    resolve ctx 0 (.pred (predField name .notEqual d)) = .ok b ∧ a.eval pv = false ∧ b.eval pv = true :=
  ⟨⟨[([1], ⟨[[10], [11]], []⟩)], [], fun _ _ _ => true⟩, [1], .int 5, _, _,
    fun p => match p with
      | ⟨.field x, .equal, _⟩ => x == [10]
      | ⟨.field x, .notEqual, _⟩ => !(x == [10])
      | _ => false,
    fun x => rfl, rfl, rfl, by decide, by decide⟩

/-! ### The meaning of models -/

/-- The loops over the leaves -/
def loop (ctx : Context) (p : Pred τ) (op : RelOp) (mk : RelOp → Data → Name → Pred τ) : Values → Parts τ → Outcome (Parts τ)
  | [], acc => .ok acc
  | (x, none) :: vs, acc => (addMeta ctx p x acc).bind (loop ctx p op mk vs)
  | (x, some d) :: vs, acc => (addValue ctx p op mk x d acc).bind (loop ctx p op mk vs)

theorem namedLoop_eq (ctx : Context) (p : Pred τ) (op : RelOp) (mk : RelOp → Data → Name → Pred τ) (r : List (Name × Data)) :
    ∀ (ls : List Name) (acc : Parts τ), namedLoop ctx p op mk r ls acc = loop ctx p op mk (ls.map fun l => (l, find r l)) acc
  | [], acc => rfl
  | l :: ls, acc => by
    have ih : namedLoop ctx p op mk r ls = loop ctx p op mk (ls.map fun l => (l, find r l)) :=
      funext (namedLoop_eq ctx p op mk r ls)
    rw [namedLoop, List.map_cons, ih]
    cases hl : find r l <;> simp only [loop]

theorem unnamedLoop_eq (ctx : Context) (p : Pred τ) (op : RelOp) (mk : RelOp → Data → Name → Pred τ) :
    ∀ (r : List (Name × Data)) (ls : List Name) (acc : Parts τ), r.length = ls.length →
      unnamedLoop ctx p op mk r ls acc = loop ctx p op mk (ls.zip (r.map fun v => placeholder v.2)) acc
  | [], [], acc, _ => by rw [unnamedLoop]; rfl
  | [], _ :: _, acc, h => by cases h
  | _ :: _, [], acc, h => by cases h
  | (k, d) :: r, l :: ls, acc, h => by
    have ih : unnamedLoop ctx p op mk r ls = loop ctx p op mk (ls.zip (r.map fun v => placeholder v.2)) :=
      funext fun acc => unnamedLoop_eq ctx p op mk r ls acc (by simpa using h)
    rw [unnamedLoop, List.map_cons, List.zip_cons_cons, ih]
    cases placeholder d <;> simp only [loop]

theorem loop_spec (ctx : Context) (pv : Pred τ → Bool) (p : Pred τ) (op : RelOp) (mk : RelOp → Data → Name → Pred τ) :
    ∀ (vs : Values), (∀ l, (l, none) ∈ vs → Resolvable ctx l .equal .none) → (∀ l d, (l, some d) ∈ vs → Resolvable ctx l op d) →
      ∃ rs us, (∀ acc, loop ctx p op mk vs acc = .ok (acc.1 ++ rs, acc.2 ++ us)) ∧
        (rs = [] ↔ ∀ l d, (l, some d) ∉ vs) ∧
        (Expr.evalAll pv us = true ↔ ∀ l, (l, none) ∈ vs → Holds ctx pv metaField l .equal .none) ∧
        (Expr.evalAll pv rs = true ↔ ∀ l d, (l, some d) ∈ vs → Holds ctx pv mk l op d)
  | [], _, _ => ⟨[], [], fun acc => by simp [loop], by simp, by simp [Expr.evalAll], by simp [Expr.evalAll]⟩
  | (x, none) :: vs, h1, h2 => by
    obtain ⟨e, he, hv⟩ := conceptExpr_spec ctx pv p x .equal .none metaField (h1 x List.mem_cons_self)
    obtain ⟨rs, us, h3, h4, h5, h6⟩ := loop_spec ctx pv p op mk vs (fun l hl => h1 l (List.mem_cons_of_mem _ hl))
      (fun l d hl => h2 l d (List.mem_cons_of_mem _ hl))
    refine ⟨rs, e :: us, fun acc => ?_, by simpa using h4, ?_, by simpa using h6⟩
    · rw [loop, addMeta, he]
      simp [Outcome.bind, h3]
    · rw [Expr.evalAll, Bool.and_eq_true, hv, h5]
      simp only [List.mem_cons, Prod.mk.injEq, and_true]
      constructor
      · rintro ⟨ha, hb⟩ l (rfl | hl)
        · exact ha
        · exact hb l hl
      · intro h
        exact ⟨h x (.inl rfl), fun l hl => h l (.inr hl)⟩
  | (x, some d) :: vs, h1, h2 => by
    obtain ⟨e, he, hv⟩ := conceptExpr_spec ctx pv p x op d mk (h2 x d List.mem_cons_self)
    obtain ⟨rs, us, h3, h4, h5, h6⟩ := loop_spec ctx pv p op mk vs (fun l hl => h1 l (List.mem_cons_of_mem _ hl))
      (fun l d hl => h2 l d (List.mem_cons_of_mem _ hl))
    refine ⟨e :: rs, us, fun acc => ?_, ?_, by simpa using h5, ?_⟩
    · rw [loop, addValue, he]
      simp [Outcome.bind, h3]
    · simp only [reduceCtorEq, false_iff]
      intro h
      exact h x d List.mem_cons_self
    · rw [Expr.evalAll, Bool.and_eq_true, hv, h6]
      simp only [List.mem_cons, Prod.mk.injEq, Option.some.injEq]
      constructor
      · rintro ⟨ha, hb⟩ l d' (⟨rfl, rfl⟩ | hl)
        · exact ha
        · exact hb l d' hl
      · intro h
        exact ⟨h x d (.inl ⟨rfl, rfl⟩), fun l d' hl => h l d' (.inr hl)⟩

theorem eval_allOf (pv : Pred τ → Bool) (xs : List (Expr τ)) : (allOf xs).eval pv = Expr.evalAll pv xs := by
  match xs with
  | [] => rfl
  | [x] => simp [allOf, Expr.evalAll]
  | x :: y :: xs => rfl

theorem eval_combine (pv : Pred τ → Bool) (op : RelOp) (rs us : List (Expr τ)) :
    (combine op (rs, us)).eval pv = true ↔ Expr.evalAll pv us = true ∧
      (op.isNegated = false → Expr.evalAll pv rs = true) ∧ (op.isNegated = true → rs ≠ [] → Expr.evalAll pv rs = false) := by
  cases rs with
  | nil => simp [combine, Expr.eval, Expr.evalAll]
  | cons x xs =>
    cases us with
    | nil =>
      cases hn : op.isNegated <;> cases hx : x.eval pv <;> simp [combine, hn, Expr.eval, eval_allOf, Expr.evalAll, hx]
    | cons u us =>
      rw [combine, Expr.eval, evalAll_append]
      cases hn : op.isNegated <;> cases hx : x.eval pv <;> simp [Expr.eval, eval_allOf, Expr.evalAll, hx]

theorem loop_combine (ctx : Context) (pv : Pred τ → Bool) (p : Pred τ) (op : RelOp) (mk : RelOp → Data → Name → Pred τ)
    (vs : Values) (h : ModelResolvable ctx op vs) :
    ∃ parts, loop ctx p (if op.isNegated then op.negate else op) mk vs ([], []) = .ok parts ∧
      ((combine op parts).eval pv = true ↔ ModelHolds ctx pv mk op vs) := by
  obtain ⟨rs, us, h3, h4, h5, h6⟩ := loop_spec ctx pv p (if op.isNegated then op.negate else op) mk vs h.1 h.2
  refine ⟨_, h3 _, ?_⟩
  rw [List.nil_append, List.nil_append, eval_combine, h5, ModelHolds]
  cases hn : op.isNegated with
  | false =>
    rw [hn] at h6
    simp only [Bool.false_eq_true, if_false] at h6
    simp [h6]
  | true =>
    rw [hn] at h6
    simp only [if_true] at h6
    have h7 : rs ≠ [] ↔ ∃ l d, (l, some d) ∈ vs := by
      rw [ne_eq, h4]
      constructor
      · intro h
        apply Classical.byContradiction
        intro h'
        exact h fun l d hl => h' ⟨l, d, hl⟩
      · rintro ⟨l, d, hl⟩ h
        exact h l d hl
    have h8 : Expr.evalAll pv rs = false ↔ ∃ l d, (l, some d) ∈ vs ∧ ¬ Holds ctx pv mk l op.negate d := by
      rw [← Bool.not_eq_true, h6]
      constructor
      · intro h
        apply Classical.byContradiction
        intro h'
        apply h
        intro l d hl
        apply Classical.byContradiction
        intro h''
        exact h' ⟨l, d, hl, h''⟩
      · rintro ⟨l, d, hl, hh⟩ h
        exact hh (h l d hl)
    simp only [Bool.true_eq_false, false_implies, true_and, true_implies, h7, h8]

/-- C66: a predicate on a model with a record with names becomes an expression that holds iff for every leaf of the
    model the predicate holds for the value of that name or, if the record has none, a field of the leaf's concept
    exists. This is for models whose leaves are all concepts with fields. -/
theorem C66_model_named_partial (ctx : Context) (pv : Pred τ → Bool) (name : Name) (op : RelOp) (k : Name) (v : Data)
    (ns : List Name) (vs : List Data) (definition leaves : List Name)
    (hne : ∀ n d, find ctx.models n = some d → d ≠ []) (hm : find ctx.models name = some definition)
    (hf : Flat ctx.models definition leaves) (hk : k ≠ [])
    (hr : ModelResolvable ctx op (leaves.map fun l => (l, find ((k, v) :: ns.zip vs) l))) :
    ∃ n, ∀ fuel, n ≤ fuel → ∃ e, resolve ctx fuel (.pred (predField name op (.record (k :: ns) (v :: vs)))) = .ok e ∧
      (e.eval pv = true ↔
        ModelHolds ctx pv (fun op d x => predField x op d) op (leaves.map fun l => (l, find ((k, v) :: ns.zip vs) l))) := by
  obtain ⟨n, hn⟩ := C26_model_leaves_partial ctx.models hne definition leaves (hne name definition hm) hf
  refine ⟨n, fun fuel hfuel => ?_⟩
  obtain ⟨parts, h1, h2⟩ := loop_combine ctx pv (predField name op (.record (k :: ns) (v :: vs))) op
    (fun op d x => predField x op d) _ hr
  refine ⟨combine op parts, ?_, h2⟩
  rw [resolve, resolvePred, predField]
  simp only
  rw [modelExpr]
  simp only [List.zip_cons_cons, hm, hn fuel hfuel, if_pos hk, Outcome.bind]
  rw [namedLoop_eq]
  unfold predField at h1
  rw [h1]

/-- C66: a predicate on a model with a record without names: the values are those of the leaves, in order, and a null
    value is a placeholder. -/
theorem C66_model_unnamed_partial (ctx : Context) (pv : Pred τ → Bool) (name : Name) (op : RelOp) (v : Data)
    (ns : List Name) (vs : List Data) (definition leaves : List Name) (hlen : ns.length = vs.length)
    (hne : ∀ n d, find ctx.models n = some d → d ≠ []) (hm : find ctx.models name = some definition)
    (hf : Flat ctx.models definition leaves) (hl : (v :: vs).length = leaves.length)
    (hr : ModelResolvable ctx op (leaves.zip ((v :: vs).map placeholder))) :
    ∃ n, ∀ fuel, n ≤ fuel → ∃ e, resolve ctx fuel (.pred (predField name op (.record ([] :: ns) (v :: vs)))) = .ok e ∧
      (e.eval pv = true ↔
        ModelHolds ctx pv (fun op d x => predField x op d) op (leaves.zip ((v :: vs).map placeholder))) := by
  obtain ⟨n, hn⟩ := C26_model_leaves_partial ctx.models hne definition leaves (hne name definition hm) hf
  refine ⟨n, fun fuel hfuel => ?_⟩
  obtain ⟨parts, h1, h2⟩ := loop_combine ctx pv (predField name op (.record ([] :: ns) (v :: vs))) op
    (fun op d x => predField x op d) _ hr
  refine ⟨combine op parts, ?_, h2⟩
  rw [resolve, resolvePred, predField]
  simp only
  rw [modelExpr]
  have hz : (([] : Name), v) :: ns.zip vs = (([] :: ns).zip (v :: vs)) := rfl
  have hsnd : (([] :: ns).zip (v :: vs)).map (fun v => placeholder v.2) = (v :: vs).map placeholder := by
    have : (([] :: ns).zip (v :: vs)).map (·.2) = v :: vs := List.map_snd_zip (by simp [hlen])
    conv => rhs; rw [← this]
    rw [List.map_map]; rfl
  simp only [List.zip_cons_cons, hm, hn fuel hfuel, Outcome.bind, ne_eq, not_true_eq_false, if_false]
  rw [unnamedLoop_eq, hz, hsnd]
  · unfold predField at h1
    rw [h1]
  · rw [← hl]; simp [hlen]

theorem unnamedLoop_length (ctx : Context) (p : Pred τ) (op : RelOp) (mk : RelOp → Data → Name → Pred τ) :
    ∀ (r : List (Name × Data)) (ls : List Name) (acc parts : Parts τ), unnamedLoop ctx p op mk r ls acc = .ok parts → r.length = ls.length
  | [], [], _, _, _ => rfl
  | [], _ :: _, acc, parts, h => by rw [unnamedLoop] at h; cases h
  | _ :: _, [], acc, parts, h => by rw [unnamedLoop] at h; cases h
  | (k, d) :: r, l :: ls, acc, parts, h => by
    rw [unnamedLoop] at h
    have step : ∀ x : Outcome (Parts τ), x.bind (unnamedLoop ctx p op mk r ls) = .ok parts → r.length = ls.length := by
      intro x hx
      cases x with
      | ok a => exact unnamedLoop_length ctx p op mk r ls a parts hx
      | _ => cases hx
    simp [step _ h]

/-- C66: a record without names must have as many values as the model has leaves. -/
theorem C66_model_length (ctx : Context) (name : Name) (op : RelOp) (v : Data) (ns : List Name) (vs : List Data)
    (definition leaves : List Name) (hlen : ns.length = vs.length)
    (hne : ∀ n d, find ctx.models n = some d → d ≠ []) (hm : find ctx.models name = some definition)
    (hf : Flat ctx.models definition leaves) (hl : (v :: vs).length ≠ leaves.length) :
    ∃ n, ∀ fuel, n ≤ fuel → ∀ e : Expr τ, resolve ctx fuel (.pred (predField name op (.record ([] :: ns) (v :: vs)))) ≠ .ok e := by
  obtain ⟨n, hn⟩ := C26_model_leaves_partial ctx.models hne definition leaves (hne name definition hm) hf
  refine ⟨n, fun fuel hfuel e he => ?_⟩
  rw [resolve, resolvePred, predField] at he
  simp only at he
  rw [modelExpr] at he
  simp only [List.zip_cons_cons, hm, hn fuel hfuel, Outcome.bind, ne_eq, not_true_eq_false, if_false] at he
  cases hu : unnamedLoop ctx (⟨.field name, op, .data (.record ([] :: ns) (v :: vs))⟩ : Pred τ) (if op.isNegated then op.negate else op)
      (fun op d x => ⟨.field x, op, .data d⟩) (([], v) :: ns.zip vs) leaves ([], []) with
  | ok parts =>
    have := unnamedLoop_length _ _ _ _ _ _ _ _ hu
    rw [← List.zip_cons_cons, List.length_zip] at this
    simp [hlen] at this hl
    omega
  | _ => rw [hu] at he; cases he

/-- C66 fails for models with a leaf that is no concept: the predicate on the model itself stays in the expression. -/
theorem C66_model_field_refuted : ∃ (ctx : Context) (name leaf : Name) (d : Data), find ctx.models name = some [leaf] ∧
    resolve ctx 5 (.pred (predField name .equal (.record [leaf] [d]) : Pred Nat)) =
      .ok (.pred (predField name .equal (.record [leaf] [d]))) :=
  ⟨⟨[], [([1], [[10]])], fun _ _ _ => true⟩, [1], [10], .int 5, rfl, rfl⟩

/-- An endpoint is an address and a port. -/
def endpoints : Context :=
  ⟨[([10], ⟨[[20], [21]], []⟩), ([11], ⟨[[22]], [[10]]⟩)], [([1], [[10], [11]]), ([2], [[1], [10]])], fun _ _ _ => true⟩

example : (∀ n d, find endpoints.models n = some d → d ≠ []) ∧ Flat endpoints.models [[1], [10]] [[10], [11], [10]] ∧
    ModelResolvable endpoints .notEqual ([[10], [11], [10]].map fun l => (l, find [([10], Data.int 5)] l)) := by
  refine ⟨?_, .node (ls := [[10], [11]]) rfl (.leaf rfl (.leaf rfl .nil)) (.leaf rfl .nil), ?_, ?_⟩
  · intro n d h
    have := find_mem h
    simp [endpoints] at this
    rcases this with ⟨_, rfl⟩ | ⟨_, rfl⟩ <;> simp
  · intro l hl
    simp [find] at hl
    subst hl
    exact ⟨⟨[[22]], [[10]]⟩, rfl, by decide, [22], .field (by simp), rfl⟩
  · intro l d hl
    simp [find] at hl
    obtain ⟨rfl, _⟩ := hl
    exact ⟨⟨[[20], [21]], []⟩, rfl, by decide, [20], .field (by simp), rfl⟩

/-! ### Expressions -/

mutual
/-- C66: an expression is resolved by resolving its predicates. -/
theorem C66_expression (ctx : Context) (fuel : Nat) (pv : Pred τ → Bool) : ∀ (e e' : Expr τ), resolve ctx fuel e = .ok e' →
    e'.eval pv = e.eval fun p => match resolve ctx fuel (.pred p) with
      | .ok x => x.eval pv
      | _ => false
  | .none, e', h => by rw [resolve] at h; cases h; rfl
  | .pred p, e', h => by rw [Expr.eval, h]
  | .conj xs, e', h => by
    rw [resolve] at h
    cases hx : resolveAll ctx fuel xs with
    | ok ys => rw [hx] at h; cases h; rw [Expr.eval, Expr.eval]; exact (evalAll_resolve ctx fuel pv xs ys hx).1
    | _ => rw [hx] at h; cases h
  | .disj xs, e', h => by
    rw [resolve] at h
    cases hx : resolveAll ctx fuel xs with
    | ok ys => rw [hx] at h; cases h; rw [Expr.eval, Expr.eval]; exact (evalAll_resolve ctx fuel pv xs ys hx).2
    | _ => rw [hx] at h; cases h
  | .neg x, e', h => by
    rw [resolve] at h
    cases hx : resolve ctx fuel x with
    | ok y => rw [hx] at h; cases h; rw [Expr.eval, Expr.eval, C66_expression ctx fuel pv x y hx]
    | _ => rw [hx] at h; cases h

theorem evalAll_resolve (ctx : Context) (fuel : Nat) (pv : Pred τ → Bool) : ∀ (xs ys : List (Expr τ)), resolveAll ctx fuel xs = .ok ys →
    (Expr.evalAll pv ys = Expr.evalAll (fun p => match resolve ctx fuel (.pred p) with
      | .ok x => x.eval pv
      | _ => false) xs) ∧
    (Expr.evalAny pv ys = Expr.evalAny (fun p => match resolve ctx fuel (.pred p) with
      | .ok x => x.eval pv
      | _ => false) xs)
  | [], ys, h => by rw [resolveAll] at h; cases h; exact ⟨rfl, rfl⟩
  | x :: xs, ys, h => by
    rw [resolveAll] at h
    cases hx : resolve ctx fuel x with
    | ok y =>
      rw [hx] at h
      simp only [Outcome.bind] at h
      cases hxs : resolveAll ctx fuel xs with
      | ok zs =>
        rw [hxs] at h; cases h
        obtain ⟨h1, h2⟩ := evalAll_resolve ctx fuel pv xs zs hxs
        have h3 := C66_expression ctx fuel pv x y hx
        exact ⟨by rw [Expr.evalAll, Expr.evalAll, h1, h3], by rw [Expr.evalAny, Expr.evalAny, h2, h3]⟩
      | _ => rw [hxs] at h; cases h
    | _ => rw [hx] at h; cases h
end

/-- C66 fails for the negation of a predicate that cannot be resolved: the error is not checked. -/
theorem C66_negated_error_refuted (ctx : Context) (fuel : Nat) (x : Expr τ) (h : resolve ctx fuel x = .error) :
    resolve ctx fuel (.neg x) = .ub := by
  rw [resolve, h]

example : resolve endpoints 9 (.pred (predField [1] .equal (.record [[]] [.int 5])) : Expr Nat) = .error := rfl

/-! ### Pruning -/

variable {T : Type}

/-- Some layout of that name has the field. -/
def Occurs (seen : Seen T) (compat : T → Bool) (x : Name) : Prop :=
  ∃ n f layouts l t, x = n ++ 46 :: f ∧ find seen n = some layouts ∧ l ∈ layouts ∧ find l f = some t ∧ compat t = true

theorem containsFrom_sound (seen : Seen T) (compat : T → Bool) : ∀ (rest pre : Name), containsFrom seen compat pre rest = true →
    Occurs seen compat (pre ++ rest)
  | [], pre, h => by rw [containsFrom] at h; cases h
  | c :: rest, pre, h => by
    rw [containsFrom] at h
    by_cases hc : c = 46
    · rw [if_pos hc] at h
      subst hc
      cases hs : find seen pre with
      | none =>
        rw [hs] at h
        have := containsFrom_sound seen compat rest _ h
        rwa [List.append_assoc, List.singleton_append] at this
      | some layouts =>
        rw [hs] at h
        simp only [List.any_eq_true] at h
        obtain ⟨l, hl, ht⟩ := h
        cases hf : find l rest with
        | none => rw [hf] at ht; cases ht
        | some t => rw [hf] at ht; exact ⟨pre, rest, layouts, l, t, rfl, hs, hl, hf, ht⟩
    · rw [if_neg hc] at h
      have := containsFrom_sound seen compat rest _ h
      rwa [List.append_assoc, List.singleton_append] at this

theorem containsFrom_complete (seen : Seen T) (compat : T → Bool) (n f : Name) (layouts : List (List (Name × T)))
    (l : List (Name × T)) (t : T) (hs : find seen n = some layouts) (hl : l ∈ layouts) (hf : find l f = some t) (ht : compat t = true) :
    ∀ (rest pre : Name), pre ++ rest = n ++ 46 :: f → pre.length ≤ n.length →
      (∀ m g, n = m ++ 46 :: g → pre.length ≤ m.length → find seen m = none) → containsFrom seen compat pre rest = true
  | [], pre, he, hp, _ => by
    have := congrArg List.length he
    simp at this; omega
  | c :: rest, pre, he, hp, hu => by
    rw [containsFrom]
    by_cases hlen : pre.length = n.length
    · obtain ⟨rfl, h2⟩ := List.append_inj he hlen
      cases h2
      rw [if_pos rfl, hs]
      simp only [List.any_eq_true]
      exact ⟨l, hl, by rw [hf]; exact ht⟩
    · have hlt : pre.length < n.length := by omega
      obtain ⟨g, hg⟩ : ∃ g, n = pre ++ c :: g := by
        have h1 : pre <+: n ++ 46 :: f := ⟨c :: rest, he⟩
        have h2 : n <+: n ++ 46 :: f := List.prefix_append _ _
        obtain ⟨g', hg'⟩ := List.prefix_of_prefix_length_le h1 h2 hp
        cases g' with
        | nil => rw [List.append_nil] at hg'; rw [hg'] at hlt; omega
        | cons a g =>
          rw [← hg', List.append_assoc] at he
          have := List.append_cancel_left he
          cases this
          exact ⟨g, hg'.symm⟩
      have ih := containsFrom_complete seen compat n f layouts l t hs hl hf ht rest (pre ++ [c]) (by simpa using he)
        (by simp; omega) (fun m g hm hpm => hu m g hm (by simp at hpm; omega))
      by_cases hc : c = 46
      · subst hc
        rw [if_pos rfl, hu pre g hg (Nat.le_refl _)]
        exact ih
      · rw [if_neg hc]; exact ih

/-- C66: a field is kept only if it occurs in a layout. -/
theorem C66_pruning_sound (seen : Seen T) (compat : T → RelOp → Data → Bool) (x : Name) (op : RelOp) (d : Data)
    (h : contains seen compat x op d = true) : Occurs seen (fun t => compat t op d) x :=
  containsFrom_sound seen _ x [] h

/-- C66: a field is kept if it occurs in a layout, provided no layout's name is a dotted prefix of that layout's. -/
theorem C66_pruning_partial (seen : Seen T) (compat : T → RelOp → Data → Bool) (n f : Name) (layouts : List (List (Name × T)))
    (l : List (Name × T)) (t : T) (op : RelOp) (d : Data) (hs : find seen n = some layouts) (hl : l ∈ layouts)
    (hf : find l f = some t) (ht : compat t op d = true) (hu : ∀ m g, n = m ++ 46 :: g → find seen m = none) :
    contains seen compat (n ++ 46 :: f) op d = true :=
  containsFrom_complete seen _ n f layouts l t hs hl hf ht _ [] rfl (Nat.zero_le _) (fun m g hm _ => hu m g hm)

/-- C66 fails if a layout's name is a dotted prefix of another's: `a.b.c` is not found although the layout `a.b` has a
    field `c`, because there is a layout `a`. -/
theorem C66_pruning_refuted : ∃ (seen : Seen Nat) (x : Name), Occurs seen (fun _ => true) x ∧
    contains seen (fun _ _ _ => true) x .equal .none = false :=
  ⟨[([97], [[([100], 0)]]), ([97, 46, 98], [[([99], 0)]])], [97, 46, 98, 46, 99],
    ⟨[97, 46, 98], [99], [[([99], 0)]], [([99], 0)], 0, rfl, by decide, by simp, by decide, rfl⟩, by decide⟩

example : contains [([97, 46, 98], [[([99], 0)]])] (fun (_ : Nat) _ _ => true) [97, 46, 98, 46, 99] .equal .none = true := by
  decide

end Verif.Taxonomy
