import Verif.Data.Lemmas
/-
C24: operator negation and flipping.
-/
namespace Verif.Data
open Verif.Address

/-- **C24.** Negating an operator negates the outcome, for all values
(including null, NaN and containers) and every regex engine. -/
theorem C24_negate (R : Regex) (x y : Data) (op : RelOp) :
    evaluate R x op.negate y = !evaluate R x op y := by
  cases op <;> simp [evaluate, RelOp.negate] <;>
    cases evalStringAndPattern R x y <;> simp

/-- **C24.** The same for the evaluation of views, which the candidate check of
stores uses. -/
theorem C24_negate_view (R : Regex) (x y : Data) (op : RelOp) :
    evaluateView R x op.negate y = !evaluateView R x op y := by
  cases op <;> simp [evaluateView, RelOp.negate]

/-- **C24.** Negation is an involution without fixed points that toggles
`is_negated` exactly for the eight operators that come in a positive and a
`not` form. -/
theorem C24_negate_involution (op : RelOp) :
    op.negate.negate = op ∧ op.negate ≠ op ∧
    (op.isNegated = true → op.negate.isNegated = false) ∧
    (op ∈ [.equal, .match_, .in_, .ni] → op.negate.isNegated = true) := by
  cases op <;> simp [RelOp.negate, RelOp.isNegated]

/-- **C24.** Flipping is an involution and commutes with negation. -/
theorem C24_flip_involution (op : RelOp) :
    op.flip.flip = op ∧ op.flip.negate = op.negate.flip := by
  cases op <;> simp [RelOp.negate, RelOp.flip]

/-- **C24 (partial).** Swapping the operands and flipping the operator keeps
the outcome. Missing: the operators `match` and `not_match`, for which the
claim is false, see `C24_flip_match_refuted`. -/
theorem C24_flip_partial (R : Regex) (x y : Data) (op : RelOp)
    (h1 : op ≠ .match_) (h2 : op ≠ .notMatch) :
    evaluate R x op y = evaluate R y op.flip x := by
  cases op <;> simp_all [evaluate, RelOp.flip] <;>
    rw [evalStringAndPattern_comm R x y] <;>
    cases evalStringAndPattern R y x <;> simp [Data.eq_comm x y]

/-- **C24 (partial).** The same for views. Missing: `match` and `not_match`
hold trivially there because `check_match` never matches
(`C54_view_match_refuted`). -/
theorem C24_flip_view (R : Regex) (x y : Data) (op : RelOp) :
    evaluateView R x op y = evaluateView R y op.flip x := by
  cases op <;> simp_all [evaluateView, RelOp.flip, checkMatch, Data.eq_comm x y]

/-- **C24 (refuted for match).** `flip` maps `match` to itself although
`evaluate` only matches a string on the left against a pattern on the right:
with an engine that matches, `"a" ~ /a/` holds and `/a/ ~ "a"` does not. -/
theorem C24_flip_match_refuted :
    ∃ (R : Regex) (x y : Data), evaluate R x .match_ y ≠ evaluate R y (RelOp.flip .match_) x := by
  refine ⟨⟨fun p s => p == s, fun p s => p == s⟩, .string (str "a"), .pattern (str "a"), ?_⟩
  decide

/-! ### C54: evaluation of owned data and of views -/

/-- The cases in which `evaluate` and `evaluate_view` are meant to agree and
do: no regular expression match, no equality between a string and a pattern,
no ordering of two containers. -/
def viewSafe (v : Data) (op : RelOp) (d : Data) : Bool :=
  match op with
  | .match_ | .notMatch => false
  | .equal | .notEqual => match v, d with
    | .string _, .pattern _ => false
    | .pattern _, .string _ => false
    | _, _ => true
  | .less | .lessEqual | .greater | .greaterEqual => match v, d with
    | .list _, .list _ => false
    | .map _ _, .map _ _ => false
    | .record _ _, .record _ _ => false
    | _, _ => true
  | _ => true

/-- **C54 (partial).** A predicate has the same outcome on owned data and on
views, outside the three exceptions, each of which is refuted below. -/
theorem C54_view_agrees_partial (R : Regex) (v : Data) (op : RelOp) (d : Data)
    (h : viewSafe v op d = true) : evaluateView R v op d = evaluate R v op d := by
  cases op <;> simp [viewSafe] at h
  case in_ => simp only [evaluateView, evaluate, checkIn_eq]
  case notIn => simp only [evaluateView, evaluate, checkIn_eq]
  case ni => simp only [evaluateView, evaluate, checkIn_eq]
  case notNi => simp only [evaluateView, evaluate, checkIn_eq]
  case equal => cases v <;> cases d <;> simp_all [evaluateView, evaluate, evalStringAndPattern]
  case notEqual => cases v <;> cases d <;> simp_all [evaluateView, evaluate, evalStringAndPattern]
  all_goals
    simp only [evaluateView, evaluate, Data.ltView, Data.lt]
    cases v <;> cases d <;> simp_all [Data.cmpView]

/-- **C54 (refuted: match).** On views, `~` never matches and `!~` always does,
whatever the regex engine says. -/
theorem C54_view_match_refuted (R : Regex) :
    (∀ v d, evaluateView R v .match_ d = false ∧ evaluateView R v .notMatch d = true) ∧
    (∀ s p, evaluate R (.string s) .match_ (.pattern p) = R.fullMatch p s) :=
  ⟨fun _ _ => ⟨rfl, rfl⟩, fun _ _ => rfl⟩

/-- **C54 (refuted: string == pattern).** On owned data this is a regex match,
on views it is false. -/
theorem C54_view_pattern_equality_refuted (R : Regex) (s p : Str) :
    evaluate R (.string s) .equal (.pattern p) = R.fullMatch p s ∧
    evaluateView R (.string s) .equal (.pattern p) = false :=
  ⟨rfl, by simp [evaluateView, Data.eq]⟩

/-- **C54 (refuted: container order).** On views of containers `<` is not even
asymmetric: `[1, 2] < [2, 1]` and `[2, 1] < [1, 2]` both hold. -/
theorem C54_view_container_order_refuted (R : Regex) :
    ∃ x y : Data, evaluateView R x .less y = true ∧ evaluateView R y .less x = true ∧
      evaluate R y .less x = false := by
  refine ⟨.list [.count 1, .count 2], .list [.count 2, .count 1], ?_, ?_, ?_⟩ <;> rfl

example : viewSafe (.count 3) .less (.count 5) = true := by decide
example : viewSafe (.string (str "a")) .equal (.string (str "a")) = true := by decide

/-- Non-vacuity of the hypotheses of `C24_flip_partial`. -/
example : RelOp.in_ ≠ .match_ ∧ RelOp.in_ ≠ .notMatch := by decide
example : evaluate ⟨fun _ _ => false, fun _ _ => false⟩
    (.address (.v4 10 0 0 1)) .in_ (.subnet (.make (.v4 10 0 0 0) 8)) = true := by decide

end Verif.Data
