import Verif.Expr.Model
/-
What expressions mean, and what the documented normal form is
(vast/expression.hpp, "Normalizes an expression such that: 1. Single-element
conjunctions/disjunctions don't exist. 2. Extractors end up always on the LHS
of a predicate. 3. Negations are pushed down to the predicate level.").
-/
namespace Verif.Expr
open Verif.Data

variable {τ : Type}

/-- The value of an operand for an event: a literal stands for itself, an
extractor for the value `ρ` extracts from the event. -/
def Operand.value (ρ : Operand τ → Data) : Operand τ → Data
  | .data d => d
  | x => ρ x

/-- The truth value of a predicate for an event in which every extractor
extracts one value. -/
def predTruth (R : Regex) (ρ : Operand τ → Data) (p : Pred τ) : Bool :=
  evaluate R (p.lhs.value ρ) p.op (p.rhs.value ρ)

/-- The truth value of an expression for such an event: conjunction is "all",
disjunction is "some", negation is "not". -/
def truth (R : Regex) (ρ : Operand τ → Data) (e : Expr τ) : Bool := e.eval (predTruth R ρ)

mutual
/-- The predicates in an expression. -/
def Expr.preds : Expr τ → List (Pred τ)
  | .none => []
  | .pred p => [p]
  | .conj xs => Expr.predsAll xs
  | .disj xs => Expr.predsAll xs
  | .neg x => Expr.preds x
/-- The predicates in a list of expressions. -/
def Expr.predsAll : List (Expr τ) → List (Pred τ)
  | [] => []
  | x :: xs => Expr.preds x ++ Expr.predsAll xs
end

mutual
/-- The expression has no nil node (the validator rejects those). -/
def Expr.noNil : Expr τ → Prop
  | .none => False
  | .pred _ => True
  | .conj xs => Expr.noNilAll xs
  | .disj xs => Expr.noNilAll xs
  | .neg x => Expr.noNil x
/-- No nil node in any of the expressions. -/
def Expr.noNilAll : List (Expr τ) → Prop
  | [] => True
  | x :: xs => Expr.noNil x ∧ Expr.noNilAll xs
end

mutual
/-- The expression has no negation node. -/
def Expr.noNeg : Expr τ → Prop
  | .none => True
  | .pred _ => True
  | .conj xs => Expr.noNegAll xs
  | .disj xs => Expr.noNegAll xs
  | .neg _ => False
/-- No negation node in any of the expressions. -/
def Expr.noNegAll : List (Expr τ) → Prop
  | [] => True
  | x :: xs => Expr.noNeg x ∧ Expr.noNegAll xs
end

mutual
/-- No conjunction or disjunction has exactly one operand. -/
def Expr.noSingle : Expr τ → Prop
  | .none => True
  | .pred _ => True
  | .conj xs => xs.length ≠ 1 ∧ Expr.noSingleAll xs
  | .disj xs => xs.length ≠ 1 ∧ Expr.noSingleAll xs
  | .neg x => Expr.noSingle x
/-- `noSingle` for every expression of a list. -/
def Expr.noSingleAll : List (Expr τ) → Prop
  | [] => True
  | x :: xs => Expr.noSingle x ∧ Expr.noSingleAll xs
end

mutual
/-- No empty conjunction or disjunction (the parser creates none). -/
def Expr.noEmpty : Expr τ → Prop
  | .none => True
  | .pred _ => True
  | .conj xs => xs ≠ [] ∧ Expr.noEmptyAll xs
  | .disj xs => xs ≠ [] ∧ Expr.noEmptyAll xs
  | .neg x => Expr.noEmpty x
/-- `noEmpty` for every expression of a list. -/
def Expr.noEmptyAll : List (Expr τ) → Prop
  | [] => True
  | x :: xs => Expr.noEmpty x ∧ Expr.noEmptyAll xs
end

mutual
/-- No connective is directly below a connective of the same kind. -/
def Expr.flat : Expr τ → Prop
  | .none => True
  | .pred _ => True
  | .conj xs => (∀ ys, Expr.conj ys ∉ xs) ∧ Expr.flatAll xs
  | .disj xs => (∀ ys, Expr.disj ys ∉ xs) ∧ Expr.flatAll xs
  | .neg x => Expr.flat x
/-- `flat` for every expression of a list. -/
def Expr.flatAll : List (Expr τ) → Prop
  | [] => True
  | x :: xs => Expr.flat x ∧ Expr.flatAll xs
end

mutual
/-- No connective has the same operand twice. -/
def Expr.noDup : Expr τ → Prop
  | .none => True
  | .pred _ => True
  | .conj xs => xs.Nodup ∧ Expr.noDupAll xs
  | .disj xs => xs.Nodup ∧ Expr.noDupAll xs
  | .neg x => Expr.noDup x
/-- `noDup` for every expression of a list. -/
def Expr.noDupAll : List (Expr τ) → Prop
  | [] => True
  | x :: xs => Expr.noDup x ∧ Expr.noDupAll xs
end

/-- An extractor, if there is one, is on the left. -/
def Pred.aligned (p : Pred τ) : Prop :=
  p.rhs.isExtractor = true → p.lhs.isExtractor = true

/-- The documented normal form. -/
structure NormalForm (e : Expr τ) : Prop where
  noNegation : e.noNeg
  noSingle : e.noSingle
  aligned : ∀ p ∈ e.preds, p.aligned

end Verif.Expr
