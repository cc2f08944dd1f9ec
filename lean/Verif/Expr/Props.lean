import Verif.Expr.Lemmas
/-
C22 and C23: normalization of query expressions.
-/
namespace Verif.Expr
open Verif.Data

variable {τ : Type} [DecidableEq τ]

omit [DecidableEq τ] in
theorem predTruth_negate (R : Regex) (ρ : Operand τ → Data) (p : Pred τ) :
    predTruth R ρ ⟨p.lhs, p.op.negate, p.rhs⟩ = !predTruth R ρ p := by
  simp [predTruth, C24_negate]

omit [DecidableEq τ] in
theorem predTruth_align (R : Regex) (ρ : Operand τ → Data) (p : Pred τ)
    (h : p.op = .match_ ∨ p.op = .notMatch → p.aligned) :
    predTruth R ρ (alignPred p) = predTruth R ρ p := by
  by_cases ha : p.aligned
  · rw [alignPred_fix p ha]
  · have h1 : p.op ≠ .match_ := fun e => ha (h (.inl e))
    have h2 : p.op ≠ .notMatch := fun e => ha (h (.inr e))
    unfold alignPred
    split
    · rfl
    · simp only [predTruth]; rw [C24_flip_partial R _ _ p.op h1 h2]

/-- **C22 (partial).** Normalization keeps the truth value of every query
expression, for every event in which each extractor extracts one value.
Missing, and false: expressions with a nil node (`C22_nil_refuted`), `~`/`!~`
predicates with the extractor on the right (`C22_misaligned_match_refuted`),
and extractors that stand for several fields
(`C22_several_fields_refuted`). -/
theorem C22_normalize_partial (R : Regex) (ρ : Operand τ → Data) (e : Expr τ)
    (hnil : e.noNil)
    (hmatch : ∀ p ∈ e.preds, p.op = .match_ ∨ p.op = .notMatch → p.aligned) :
    truth R ρ (normalize e) = truth R ρ e := by
  unfold truth normalize
  have hpreds : AllPreds (fun p => p.op = .match_ ∨ p.op = .notMatch → p.aligned) (hoist e) :=
    hoist_local (local_allPreds _) e hmatch
  rw [eval_hoist, eval_dedup _ _ (denegate_noNeg _ _),
    eval_denegate _ (predTruth_negate R ρ) _ _
      (align_noNil _ (hoist_local local_noNil e hnil)),
    eval_align _ _ (fun p hp => predTruth_align R ρ p (hpreds p hp)), eval_hoist]
  simp

/-- **C22 (partial).** For expressions without negation the claim needs nothing
about nil nodes or the number of fields: whatever the predicates mean (`pv`),
as long as swapping operands and flipping the operator keeps their meaning,
normalization keeps the meaning of the expression. -/
theorem C22_negation_free_partial (pv : Pred τ → Bool) (e : Expr τ) (hneg : e.noNeg)
    (hflip : ∀ p ∈ e.preds, ¬ p.aligned → pv ⟨p.rhs, p.op.flip, p.lhs⟩ = pv p) :
    (normalize e).eval pv = e.eval pv := by
  have hq : AllPreds (fun p => pv (alignPred p) = pv p) e := by
    intro p hp
    by_cases ha : p.aligned
    · simp only [alignPred_fix p ha]
    · have := hflip p hp ha
      simp only [alignPred]
      split
      · rfl
      · exact this
  unfold normalize
  have h1 := hoist_local local_noNeg e hneg
  rw [eval_hoist, eval_dedup _ _ (denegate_noNeg _ _), denegate_fix _ (align_noNeg _ h1),
    eval_align _ _ (hoist_local (local_allPreds _) e hq), eval_hoist]

/-- **C23.** Whatever the user writes, `normalize` produces the documented
normal form. -/
theorem C23_normal_form (e : Expr τ) : NormalForm (normalize e) := by
  have h1 : AllPreds Pred.aligned (align (hoist e)) := by
    intro p hp
    rw [align_preds] at hp
    obtain ⟨q, _, rfl⟩ := List.mem_map.1 hp
    exact alignPred_aligned q
  have h2 := denegate_aligned _ false h1
  have hn := denegate_noNeg (align (hoist e)) false
  refine ⟨?_, hoist_noSingle _, ?_⟩
  · exact hoist_local local_noNeg _
      (dedup_local local_noNeg (by intro x h; simp [Expr.noNeg] at h) _ hn)
  · exact hoist_local (local_allPreds _) _
      (dedup_local (local_allPreds _) (by intro x h p hp; exact h p (by simpa [Expr.preds] using hp))
        _ h2)

/-- **C23 (partial).** Normalizing changes nothing when the expression already
is in normal form, directly nested connectives alternate and no operand is
repeated. Missing: the general claim `normalize (normalize e) = normalize e`,
which is false, see `C23_idempotent_refuted`: a single pass flattens only one
level of nesting. -/
theorem C23_fixpoint_partial (e : Expr τ) (h : NormalForm e) (hf : e.flat) (hd : e.noDup) :
    normalize e = e := by
  unfold normalize
  rw [hoist_fix e h.noSingle hf, align_fix e h.aligned, denegate_fix e h.noNegation,
    dedup_fix e h.noNegation hd, hoist_fix e h.noSingle hf]

/-! ### Concrete expressions -/

/-- `field op literal`. -/
def fieldPred (f : String) (op : RelOp) (d : Data) : Expr Unit :=
  .pred ⟨.field (str f), op, .data d⟩

private def px (n : Nat) : Expr Unit := fieldPred "x" .equal (.count n)

/-- `a && (b && (c && (d && (e && f))))`. -/
private def deep : Expr Unit :=
  .conj [px 0, .conj [px 1, .conj [px 2, .conj [px 3, .conj [px 4, px 5]]]]]

/-- **C23 (refuted: idempotence).** Normalizing the normal form of a deeply
nested conjunction changes it. -/
theorem C23_idempotent_refuted :
    ∃ e : Expr Unit, e.noNil ∧ normalize (normalize e) ≠ normalize e := by
  refine ⟨deep, by simp [deep, px, fieldPred, Expr.noNil, Expr.noNilAll], ?_⟩
  intro h
  have : Expr.eq (normalize (normalize deep)) (normalize deep) = false := by decide
  rw [h] at this
  revert this
  decide

/-- **C22 (refuted: nil).** The negation of a nil node is true, its normal form
is false. -/
theorem C22_nil_refuted (R : Regex) (ρ : Operand Unit → Data) :
    truth R ρ (.neg .none) = true ∧ truth R ρ (normalize (.neg .none)) = false := by
  constructor <;> rfl

/-- **C22 (refuted: match with the extractor on the right).** `"a" ~ x` holds
for an event in which the pattern-typed field `x` matches `a`; its normal form
`x ~ "a"` never holds. -/
theorem C22_misaligned_match_refuted :
    ∃ (R : Regex) (ρ : Operand Unit → Data) (e : Expr Unit), e.noNil ∧
      truth R ρ e = true ∧ truth R ρ (normalize e) = false := by
  refine ⟨⟨fun p s => p == s, fun p s => p == s⟩, fun _ => .pattern (str "a"),
    .pred ⟨.data (.string (str "a")), .match_, .field (str "x")⟩, ?_, ?_, ?_⟩
  · simp [Expr.noNil]
  · decide
  · decide

/-- A type system in which all columns are called `x` by suffix and all types
are compatible. -/
def anyType : TypeSys Unit :=
  ⟨fun _ _ _ => true, fun _ _ => true, fun _ _ _ _ => true, fun _ => false, fun _ _ => true⟩

/-- A layout with two columns `a.x` and `b.x`. -/
def twoX : Layout Unit := ⟨str "t", [⟨str "t.a.x", ()⟩, ⟨str "t.b.x", ()⟩]⟩

/-- **C22 (refuted: several fields).** When the field `x` of `!(x < 5)` stands
for the two columns `a.x` and `b.x`, a row with `a.x = 3` and `b.x = 7` does
not satisfy the query, but it satisfies the normal form `x >= 5`, because
resolution turns both `<` and `>=` into a disjunction over the columns. -/
theorem C22_several_fields_refuted (R : Regex) :
    ∃ (e : Expr Unit) (row : Row) (c c' : Expr Unit),
      tailor anyType twoX e = some c ∧ tailor anyType twoX (normalize e) = some c' ∧
      c.eval (rowPred R twoX row) = false ∧ c'.eval (rowPred R twoX row) = true := by
  refine ⟨.neg (fieldPred "x" .less (.count 5)), [.count 3, .count 7], ?_⟩
  exact ⟨_, _, rfl, rfl, rfl, rfl⟩

/-! ### Non-vacuity -/

/-- `!(5 > x && y ~ /re/)` meets the hypotheses of `C22_normalize_partial`; the
first predicate gets flipped, the negation pushed down. -/
private def sample : Expr Unit :=
  .neg (.conj [.pred ⟨.data (.count 5), .greater, .field (str "x")⟩,
    fieldPred "y" .match_ (.pattern (str "re"))])

example : sample.noNil := by simp [sample, fieldPred, Expr.noNil, Expr.noNilAll]
example : ∀ p ∈ sample.preds, p.op = .match_ ∨ p.op = .notMatch → p.aligned := by
  simp [sample, fieldPred, Expr.preds, Expr.predsAll, Pred.aligned, Operand.isExtractor]
example : normalize sample = .disj [fieldPred "x" .greaterEqual (.count 5),
    fieldPred "y" .notMatch (.pattern (str "re"))] := by
  rfl
example : (normalize sample).flat ∧ (normalize sample).noDup := by
  have : normalize sample = .disj [fieldPred "x" .greaterEqual (.count 5),
    fieldPred "y" .notMatch (.pattern (str "re"))] := rfl
  rw [this]
  simp [fieldPred, Expr.flat, Expr.flatAll, Expr.noDup, Expr.noDupAll]

end Verif.Expr
