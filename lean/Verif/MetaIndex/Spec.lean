import Verif.MetaIndex.Model
import Verif.Expr.StoreSpec
/-
What the catalog promises. `sat` (when an event satisfies a query) comes from
Verif/Expr/StoreSpec.lean.
-/
namespace Verif.MetaIndex
open Verif.Data Verif.Expr Verif.SetOps

variable {τ σ : Type} [DecidableEq τ]

/-- Some event of the slices satisfies the query. (Events have at least one
field.) -/
def HoldsMatch (R : Regex) (T : TypeSys τ) (slices : List (Slice τ)) (e : Expr τ) : Prop :=
  ∃ s ∈ slices, ∃ row ∈ s.rows, s.layout.columns ≠ [] ∧ sat R T s.layout row e = true

/-- The synopsis lists every column of the slices, and for every column of a
slice the synopsis in charge does not answer "no" to `op d` if the column has a
value that satisfies it. -/
def NoFalseNegative (R : Regex) (ops : SynOps τ σ) (ps : PartSyn τ σ) (slices : List (Slice τ))
    (op : RelOp) (d : Data) : Prop :=
  ∀ s ∈ slices, ∀ c ∈ s.layout.indexed,
    ∃ syn, (⟨s.layout.name, c.1.name, c.1.type⟩, syn) ∈ ps.fields ∧
      ∀ row ∈ s.rows, evaluate R (row.getD c.2 .none) op d = true →
        fieldMayMatch ops ps c.1.type syn op d = true

/-- What a predicate needs for the catalog's selection of fields to cover that
of the query language: a field extractor without glob characters (then a name
it selects ends with it), and no negated `#field` predicate. -/
def Pred.plain (T : TypeSys τ) (p : Pred τ) : Prop :=
  (∀ k, p.lhs = .field k → ∀ n, T.suffix k n = true → endsWith n k = true) ∧
  (p.lhs = .metaField → p.op.isNegated = false)

mutual
/-- In no disjunction a string literal occurs twice. -/
def stringsDistinct : Expr τ → Prop
  | .none => True
  | .pred _ => True
  | .conj xs => stringsDistinctAll xs
  | .disj xs => ((Expr.predsAll xs).filterMap fun p => stringLiteral (.pred p)).Nodup ∧
      stringsDistinctAll xs
  | .neg x => stringsDistinct x
/-- `stringsDistinct` for every expression of a list. -/
def stringsDistinctAll : List (Expr τ) → Prop
  | [] => True
  | x :: xs => stringsDistinct x ∧ stringsDistinctAll xs
end

/-- No literal differs from itself, that is, none contains a NaN. -/
def nanFree (e : Expr τ) : Prop :=
  ∀ p ∈ e.preds, ∀ d, p.lhs = .data d ∨ p.rhs = .data d → d.eq d = true

end Verif.MetaIndex
