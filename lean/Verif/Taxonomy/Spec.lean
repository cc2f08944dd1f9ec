import Verif.Taxonomy.Model

/-! # What names, concepts and models stand for -/

namespace Verif.Taxonomy.Spec
open Verif.Expr
open Verif.Data (Data RelOp)

/-- A name stands for itself if it is no concept, and otherwise for the fields of the concept and everything that the
    names stand for that it references. -/
inductive Resolves (cs : Concepts) : Name → Name → Prop
  | itself {n : Name} : find cs n = none → Resolves cs n n
  | field {n x : Name} {c : Concept} : find cs n = some c → x ∈ c.fields → Resolves cs n x
  | nested {n m x : Name} {c : Concept} : find cs n = some c → m ∈ c.concepts → Resolves cs m x → Resolves cs n x

/-- The fields of a concept: its own, and those of the concepts that it references. -/
inductive FieldOf (cs : Concepts) : Concept → Name → Prop
  | field {x : Name} {c : Concept} : x ∈ c.fields → FieldOf cs c x
  | nested {m x : Name} {c d : Concept} : m ∈ c.concepts → find cs m = some d → FieldOf cs d x → FieldOf cs c x

/-- The leaves of a definition, from left to right: names of models are replaced by the leaves of their definitions.
    There are none for recursive models. -/
inductive Flat (models : Models) : List Name → List Name → Prop
  | nil : Flat models [] []
  | leaf {x : Name} {xs ls : List Name} : find models x = none → Flat models xs ls → Flat models (x :: xs) (x :: ls)
  | node {x : Name} {d xs ls ls' : List Name} : find models x = some d → Flat models d ls → Flat models xs ls' →
      Flat models (x :: xs) (ls ++ ls')

variable {τ : Type}

/-- The predicate holds for some field of the concept (that occurs in the data, if that is known). -/
def Holds (ctx : Context) (pv : Pred τ → Bool) (mk : RelOp → Data → Name → Pred τ) (name : Name) (op : RelOp) (d : Data) : Prop :=
  ∃ c x, find ctx.concepts name = some c ∧ FieldOf ctx.concepts c x ∧ ctx.keep x op d = true ∧ pv (mk op d x) = true

/-- The name is a concept that has a field. The concepts that its referenced concepts reference are among those that it
    references itself. -/
def Resolvable (ctx : Context) (name : Name) (op : RelOp) (d : Data) : Prop :=
  ∃ c, find ctx.concepts name = some c ∧
    (∀ m ∈ c.concepts, ∀ e, find ctx.concepts m = some e → ∀ k ∈ e.concepts, k ∈ c.concepts) ∧
    ∃ x, FieldOf ctx.concepts c x ∧ ctx.keep x op d = true

/-- Values for the leaves of a model. -/
abbrev Values := List (Name × Option Data)

/-- What it means to compare a model with values for some of its leaves: the other leaves occur, and the values compare
    (or for a negated operator, do not all compare). -/
def ModelHolds (ctx : Context) (pv : Pred τ → Bool) (mk : RelOp → Data → Name → Pred τ) (op : RelOp) (vs : Values) : Prop :=
  (∀ l, (l, none) ∈ vs → Holds ctx pv metaField l .equal .none) ∧
  (op.isNegated = false → ∀ l d, (l, some d) ∈ vs → Holds ctx pv mk l op d) ∧
  (op.isNegated = true → (∃ l d, (l, some d) ∈ vs) → ∃ l d, (l, some d) ∈ vs ∧ ¬ Holds ctx pv mk l op.negate d)

/-- All leaves can be resolved. -/
def ModelResolvable (ctx : Context) (op : RelOp) (vs : Values) : Prop :=
  (∀ l, (l, none) ∈ vs → Resolvable ctx l .equal .none) ∧
  (∀ l d, (l, some d) ∈ vs → Resolvable ctx l (if op.isNegated then op.negate else op) d)

end Verif.Taxonomy.Spec
