import Verif.Partition.Model
import Verif.Expr.StoreSpec
import Verif.Evaluator.Props

/-! # What the hits of a partition are compared with

`sat` (when an event satisfies a query) is in Verif/Expr/StoreSpec.lean, `Has` (an ID is in a set) in
Verif/Evaluator/Props.lean. -/

namespace Verif.Partition.Spec
open Verif.Data Verif.Expr
open Verif.Evaluator (Ids)
open Verif.Evaluator.Spec (Has)
open Verif.MetaIndex (Field)

variable {τ : Type} [DecidableEq τ]

/-- The column is one that the extractor of the predicate names. -/
def selects (T : TypeSys τ) (p : Pred τ) (d : Data) (name : Str) (t : τ) : Bool :=
  match p.lhs with
  | .field k => T.suffix k name && T.compatible t p.op d
  | .type u => T.congruent t u
  | .typeName n => T.named n t p.op d || (n == timestampName && T.timestamp t)
  | _ => false

/-- The predicates of a query: an extractor and a literal; `:timestamp` is compared with times. -/
structure Plain (p : Pred τ) : Prop where
  literal : ∃ d, p.rhs = .data d
  extractor : ∀ t i, p.lhs ≠ .column t i
  time : p.lhs = .typeName timestampName → ∃ t, p.rhs = .data (.time t)

/-- The index finds all values that satisfy a comparison. -/
def Complete (R : Regex) (answer : τ → List (Nat × Data) → RelOp → Data → Option Ids) (t : τ) (values : List (Nat × Data))
    (op : RelOp) (d : Data) : Prop :=
  ∃ ids, answer t values op d = some ids ∧ ∀ i v, (i, v) ∈ values → Data.evaluate R v op d = true → Has ids i

/-- The index finds only values that satisfy a comparison. -/
def Sound (R : Regex) (answer : τ → List (Nat × Data) → RelOp → Data → Option Ids) (t : τ) (values : List (Nat × Data))
    (op : RelOp) (d : Data) : Prop :=
  ∀ ids, answer t values op d = some ids → ∀ i, Has ids i → ∃ v, (i, v) ∈ values ∧ Data.evaluate R v op d = true

/-- The names of the columns have the name of the layout as a prefix. -/
def Qualified (slices : List (Slice τ)) : Prop := ∀ s ∈ slices, ∀ c ∈ s.layout.columns, s.layout.name <+: c.name

/-- Every event has an ID of its own. -/
def OwnIds (slices : List (Slice τ)) : Prop :=
  ∀ s ∈ slices, ∀ s' ∈ slices, ∀ i row row', (i, row) ∈ s.events → (i, row') ∈ s'.events → s.layout = s'.layout ∧ row = row'

/-- The name of a layout is a prefix of the name of a column only if the column is one of the layout. -/
def OwnNames (slices : List (Slice τ)) : Prop :=
  ∀ s ∈ slices, ∀ s' ∈ slices, ∀ c ∈ s'.layout.columns, s.layout.name <+: c.name → ∃ c' ∈ s.layout.columns, c'.name = c.name

/-- A predicate with a negated operator selects at most one column of the layout. -/
def AtMostOne (T : TypeSys τ) (p : Pred τ) (d : Data) (l : Layout τ) : Prop :=
  ∀ c ∈ l.indexed, ∀ c' ∈ l.indexed, selects T p d c.1.name c.1.type = true → selects T p d c'.1.name c'.1.type = true → c = c'

/-- What the predicate needs so that no event is lost. -/
structure Covered (R : Regex) (T : TypeSys τ) (answer : τ → List (Nat × Data) → RelOp → Data → Option Ids) (skip : τ → Bool)
    (slices : List (Slice τ)) (part : Part τ) (p : Pred τ) : Prop where
  plain : Plain p
  dot : ∀ k, p.lhs = .field k → ∀ n, T.suffix k n = true → T.suffix k (46 :: n) = true
  index : ∀ d, p.rhs = .data d → ∀ f ∈ part.fields, selects T p d f.1.fqn f.1.type = true →
    skip f.1.type = false ∧ Complete R answer f.1.type f.2 p.op d
  field : p.lhs = .metaField → p.op.isNegated = true → OwnNames slices

/-- What the predicate needs so that no event is found by mistake. -/
structure Tight (R : Regex) (T : TypeSys τ) (answer : τ → List (Nat × Data) → RelOp → Data → Option Ids)
    (slices : List (Slice τ)) (part : Part τ) (p : Pred τ) : Prop where
  plain : Plain p
  dot : ∀ k, p.lhs = .field k → ∀ n, T.suffix k (46 :: n) = true → T.suffix k n = true
  index : ∀ d, p.rhs = .data d → ∀ f ∈ part.fields, selects T p d f.1.fqn f.1.type = true →
    Sound R answer f.1.type f.2 p.op d
  one : ∀ d, p.rhs = .data d → p.op.isNegated = true → ∀ s ∈ slices, AtMostOne T p d s.layout
  field : p.lhs = .metaField → OwnNames slices

end Verif.Partition.Spec
