import Verif.Expr.Spec
import Verif.Data.Props
/-
When an event of a given layout satisfies a query expression. This is the
meaning VAST documents for queries: an extractor stands for all columns it
names; a predicate holds if *some* of them satisfies it, except for the
negated operators (`!=`, `!~`, `!in`, `!ni`), where *all* have to. A predicate
whose extractor names no column of the layout does not hold.
-/
namespace Verif.Expr
open Verif.Data

variable {τ : Type}

/-- Some, or for a negated operator all, of the (at least one) selected columns
satisfy `op d`. -/
def columnsSatisfy (R : Regex) (l : Layout τ) (row : Row) (sel : Column τ → Bool)
    (op : RelOp) (d : Data) : Bool :=
  let values := (l.indexed.filter fun c => sel c.1).map fun c => row.getD c.2 .none
  !values.isEmpty &&
    if op.isNegated then values.all fun v => evaluate R v op d
    else values.any fun v => evaluate R v op d

/-- When a row of a layout satisfies a predicate with an extractor on the left
and a literal on the right. -/
def satPred (R : Regex) (T : TypeSys τ) (l : Layout τ) (row : Row) (p : Pred τ) : Bool :=
  match p.lhs, p.rhs with
  | .metaType, .data d => evaluate R (.string l.name) p.op d
  | .metaField, .data (.string s) => p.op.isNegated ^^ l.columns.any fun c => endsWith c.name s
  | .field k, .data d => columnsSatisfy R l row
      (fun c => T.suffix k c.name && T.compatible c.type p.op d) p.op d
  | .type t, .data d => columnsSatisfy R l row (fun c => T.congruent c.type t) p.op d
  | .typeName n, .data d =>
      columnsSatisfy R l row (fun c => T.named n c.type p.op d) p.op d ||
      (n == timestampName && columnsSatisfy R l row (fun c => T.timestamp c.type) p.op d)
  | .column _ i, .data d => evaluate R (row.getD i .none) p.op d
  | _, _ => false

/-- When a row satisfies an expression without negations. -/
def sat (R : Regex) (T : TypeSys τ) (l : Layout τ) (row : Row) (e : Expr τ) : Bool :=
  e.eval (satPred R T l row)

/-- A metadata predicate, on `#type` or `#field`. -/
def Pred.isMeta (p : Pred τ) : Bool := p.lhs.isMeta || p.rhs.isMeta

/-- Outside metadata predicates, no value of the row is compared in one of the
three ways in which views and owned data disagree (C54). -/
def safeFor (row : Row) (p : Pred τ) : Prop :=
  p.isMeta = false → ∀ d, p.rhs = .data d → ∀ i, viewSafe (row.getD i .none) p.op d = true

/-- The queries the engine evaluates: normal form, no empty connective, no nil
node. -/
structure Query (e : Expr τ) : Prop where
  normal : NormalForm e
  noEmpty : e.noEmpty
  noNil : e.noNil

mutual
/-- Metadata predicates occur only as conjuncts, never below a disjunction. -/
def Expr.metaConjunctive : Expr τ → Prop
  | .none => True
  | .pred _ => True
  | .conj xs => Expr.metaConjunctiveAll xs
  | .disj xs => ∀ p ∈ Expr.predsAll xs, p.isMeta = false
  | .neg x => ∀ p ∈ Expr.preds x, p.isMeta = false
/-- `metaConjunctive` for every expression of a list. -/
def Expr.metaConjunctiveAll : List (Expr τ) → Prop
  | [] => True
  | x :: xs => Expr.metaConjunctive x ∧ Expr.metaConjunctiveAll xs
end

end Verif.Expr
