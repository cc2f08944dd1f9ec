import Verif.SynopsisStore.Model
/-! # What is said about the stored synopses -/
namespace Verif.SynopsisStore.Spec
open Verif.Data Verif.DataText Verif.Calendar

/-- A rate with at most six digits after the point, as the nearest `double`. -/
def SixDecimals (p : Rat) : Prop := ∃ i : Nat, i ≤ 10 ^ 6 ∧ p = rnd ((i : Rat) / (10 ^ 6 : Nat))

/-- All rates in the options are such. -/
def Decimal (o : Opts) : Prop := ∀ p, o.stringRate = some p ∨ o.addressRate = some p → SixDecimals p

/-- The number of values in some slices. -/
def amount (slices : List Slice) : Nat := (slices.map fun s => (s.columns.map fun c => c.values.length).sum).sum

/-- All columns have names. -/
def Named (slices : List Slice) : Prop := ∀ s ∈ slices, ∀ c ∈ s.columns, c.name ≠ []

/-- A filter can be made for every power of two, with this rate. -/
def Feasible (env : Env) (p : Rat) : Prop := 0 ≤ p ∧ p ≤ 1 ∧ ∀ j, ∃ m k, env.arith (2 ^ j) p = some (m, k) ∧ 0 < m ∧ 0 < k

/-- The number of hash functions has 32 bits.  (It is at most 1075 for positive `double`s.) -/
def Narrow (env : Env) : Prop := ∀ n p m k, env.arith n p = some (m, k) → k < 2 ^ 32

/-- The partitions that the catalog gives for an expression, when these partitions are in it. -/
def candidates (R : Regex) (T : Expr.TypeSys Ty) (cat : List (Nat × MetaIndex.PartSyn Ty (RelOp → Data → Option (Option Bool)))) (fuel : Nat)
    (e : Expr.Expr Ty) : Option (List Nat) :=
  MetaIndex.lookup R T
    { make := fun _ => none, add := fun s _ => s, lookup := fun s op d => (s op d).join, isString := Ty.isString, clean := Ty.clean } cat fuel e

/-- What is known about a column: `none` if nothing at all, `some none` if it has no synopsis.  For strings there is one synopsis for all
columns of the same type. -/
def known (env : Env) (x : PartSyn) (layout : Str) (c : Column) : Option (Option (RelOp → Data → Option (Option Bool))) :=
  (if c.type.kind = .string ∧ c.type.alias = false then MetaIndex.find { c.type with attrs := [] } x.types
    else MetaIndex.find ⟨layout, c.name, c.type⟩ x.fields).map (Option.map fun s => s.lookup env)

end Verif.SynopsisStore.Spec
