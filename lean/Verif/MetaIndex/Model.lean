import Verif.Expr.Model
import Verif.SetOps.Model
/-
Model of the catalog of partitions: libvast/src/system/meta_index.cpp and
libvast/src/partition_synopsis.cpp.

Partition IDs are natural numbers (UUIDs compare like 128-bit numbers). A
synopsis is of an abstract type `σ` with the operations of
vast/synopsis.hpp; Verif/Synopsis has the concrete ones.
-/
namespace Verif.MetaIndex
open Verif.Data Verif.Expr Verif.SetOps

/-- `qualified_record_field` (vast/qualified_record_field.hpp:30-62). `fqn` is
the layout name, a dot and the field name. -/
structure Field (τ : Type) where
  layout : Str
  fqn : Str
  type : τ
deriving DecidableEq

/-- The synopsis interface: `factory<synopsis>::make` after the check for the
attribute `#skip` (`none` is a null pointer), `synopsis::add` and
`synopsis::lookup` (`none` means "cannot tell"). `isString` is
`caf::holds_alternative<string_type>`, `clean` is `.attributes({})`. -/
structure SynOps (τ σ : Type) where
  make : τ → Option σ
  add : σ → Data → σ
  lookup : σ → RelOp → Data → Option Bool
  isString : τ → Bool
  clean : τ → τ

/-- `partition_synopsis` (vast/partition_synopsis.hpp): the synopses per field
and per type. `none` is a null pointer. -/
structure PartSyn (τ σ : Type) where
  fields : List (Field τ × Option σ)
  types : List (τ × Option σ)

variable {τ σ : Type} [DecidableEq τ]

/-- `map::find`. -/
def find {κ β : Type} [DecidableEq κ] (k : κ) : List (κ × β) → Option β
  | [] => none
  | (k', v) :: xs => if k' = k then some v else find k xs

/-- `map[k] = v`. -/
def assign {κ β : Type} [DecidableEq κ] (k : κ) (v : β) : List (κ × β) → List (κ × β)
  | [] => [(k, v)]
  | (k', v') :: xs => if k' = k then (k', v) :: xs else (k', v') :: assign k v xs

/-- `add_column` (partition_synopsis.cpp:48-57): nil is left out. -/
def addColumn (ops : SynOps τ σ) (s : σ) (rows : List Row) (col : Nat) : σ :=
  rows.foldl (fun s row => match row.getD col .none with
    | .none => s
    | x => ops.add s x) s

/-- The body of the loop over columns in `partition_synopsis::add`
(partition_synopsis.cpp:46-81). -/
def addOne (ops : SynOps τ σ) (layout : Str) (rows : List Row) (ps : PartSyn τ σ)
    (c : Column τ × Nat) : PartSyn τ σ :=
  let key : Field τ := ⟨layout, c.1.name, c.1.type⟩
  if !ops.isString c.1.type then
    let syn := match find key ps.fields with
      | some s => s
      | none => ops.make c.1.type
    { ps with fields := assign key (syn.map fun s => addColumn ops s rows c.2) ps.fields }
  else
    let t := ops.clean c.1.type
    let syn := match find t ps.types with
      | some s => s
      | none => ops.make c.1.type
    { fields := assign key none ps.fields
      types := assign t (syn.map fun s => addColumn ops s rows c.2) ps.types }

/-- `partition_synopsis::add(slice, options)` (partition_synopsis.cpp:37-82). -/
def PartSyn.add (ops : SynOps τ σ) (ps : PartSyn τ σ) (s : Slice τ) : PartSyn τ σ :=
  s.layout.indexed.foldl (addOne ops s.layout.name s.rows) ps

/-- The string literal of an operand that `pruner::run` deduplicates
(meta_index.cpp:89-100): a predicate whose left side is no metadata extractor
and whose right side is a string. -/
def stringLiteral : Expr τ → Option Str
  | .pred p => if p.lhs.isMeta then none else match p.rhs with
    | .data (.string s) => some s
    | _ => none
  | _ => none

mutual
/-- `pruner` (meta_index.cpp:67-82). -/
def prune : Expr τ → Expr τ
  | .none => .none
  | .conj xs => .conj (pruneRun [] xs)
  | .disj xs => .disj (pruneRun [] xs)
  | .neg x => .neg (prune x)
  | .pred p => .pred p

/-- `pruner::run` (meta_index.cpp:84-106): drops a predicate if its string was
seen before among the operands. -/
def pruneRun (memo : List Str) : List (Expr τ) → List (Expr τ)
  | [] => []
  | x :: xs => match stringLiteral x with
    | some s => if memo.contains s then pruneRun memo xs else x :: pruneRun (s :: memo) xs
    | none => prune x :: pruneRun memo xs
end

/-- The loop of `prune_all` (meta_index.cpp:112-115), with a bound on the number
of iterations; `none` if the bound is reached. -/
def pruneLoop : Nat → Expr τ → Expr τ → Option (Expr τ)
  | 0, e, result => if Expr.eq result e then some result else none
  | n + 1, e, result => if Expr.eq result e then some result
    else pruneLoop n result (hoist (prune result))

/-- `prune_all` (meta_index.cpp:110-117). -/
def pruneAll (fuel : Nat) (e : Expr τ) : Option (Expr τ) := pruneLoop fuel e (prune e)

/-- The catalog: partitions in ascending order of their ID
(`detail::flat_map`). -/
abbrev Catalog (τ σ : Type) := List (Nat × PartSyn τ σ)

/-- `all_partitions` (meta_index.cpp:141-150). -/
def allPartitions (cat : Catalog τ σ) : List Nat := cat.map (·.1)

/-- What a synopsis' answer means for the partition: `!opt || *opt`. -/
def mayMatch (answer : Option Bool) : Bool := answer != some false

/-- The test of one field in `search` (meta_index.cpp:204-231). -/
def fieldMayMatch (ops : SynOps τ σ) (ps : PartSyn τ σ) (t : τ) (syn : Option σ) (op : RelOp)
    (d : Data) : Bool :=
  match syn with
  | some s => mayMatch (ops.lookup s op d)
  | none => match find (ops.clean t) ps.types with
    | some (some s) => mayMatch (ops.lookup s op d)
    | _ => true

/-- `search` (meta_index.cpp:197-241). -/
def search (ops : SynOps τ σ) (cat : Catalog τ σ) (isMatch : Field τ → Bool) (op : RelOp)
    (d : Data) : List Nat :=
  (cat.filter fun (_, ps) => ps.fields.any fun (f, syn) =>
    isMatch f && fieldMayMatch ops ps f.type syn op d).map (·.1)

/-- The predicate case of `lookup_impl` (meta_index.cpp:192-341). -/
def lookupPred (R : Regex) (T : TypeSys τ) (ops : SynOps τ σ) (cat : Catalog τ σ) (p : Pred τ) :
    List Nat :=
  match p.lhs, p.rhs with
  | .metaType, .data d =>
    (cat.filter fun (_, ps) => ps.fields.any fun (f, _) =>
      evaluate R (.string f.layout) p.op d).map (·.1)
  | .metaField, .data d =>
    match d with
    | .string s => (cat.filter fun (_, ps) =>
        (!p.op.isNegated) == ps.fields.any fun (f, _) => endsWith f.fqn s).map (·.1)
    | _ => []
  | .field k, .data d => search ops cat (fun f => endsWith f.fqn k) p.op d
  | .type t, .data d => search ops cat (fun f => T.congruent f.type t) p.op d
  | .typeName n, .data d =>
    let result := search ops cat (fun f => T.named n f.type p.op d) p.op d
    if n == timestampName then
      inplaceUnify result (search ops cat (fun f => T.timestamp f.type) p.op d)
    else result
  | _, _ => allPartitions cat

mutual
/-- `lookup_impl` (meta_index.cpp:131-350). An empty conjunction dereferences
the end of a vector; the model returns nothing for it. -/
def lookupImpl (R : Regex) (T : TypeSys τ) (ops : SynOps τ σ) (cat : Catalog τ σ) :
    Expr τ → List Nat
  | .none => allPartitions cat
  | .pred p => lookupPred R T ops cat p
  | .conj xs => lookupConj R T ops cat xs
  | .disj xs => lookupDisj R T ops cat [] xs
  | .neg _ => allPartitions cat

/-- The first operand of a conjunction (meta_index.cpp:152-168). -/
def lookupConj (R : Regex) (T : TypeSys τ) (ops : SynOps τ σ) (cat : Catalog τ σ) :
    List (Expr τ) → List Nat
  | [] => []
  | x :: xs =>
    let result := lookupImpl R T ops cat x
    if result.isEmpty then result else lookupConjRest R T ops cat result xs

/-- The other operands of a conjunction (meta_index.cpp:157-167). -/
def lookupConjRest (R : Regex) (T : TypeSys τ) (ops : SynOps τ σ) (cat : Catalog τ σ)
    (result : List Nat) : List (Expr τ) → List Nat
  | [] => result
  | x :: xs =>
    let ys := lookupImpl R T ops cat x
    if ys.isEmpty then ys else lookupConjRest R T ops cat (inplaceIntersect result ys) xs

/-- A disjunction (meta_index.cpp:169-183). -/
def lookupDisj (R : Regex) (T : TypeSys τ) (ops : SynOps τ σ) (cat : Catalog τ σ)
    (result : List Nat) : List (Expr τ) → List Nat
  | [] => result
  | x :: xs =>
    let ys := lookupImpl R T ops cat x
    if ys.length == cat.length then ys else lookupDisj R T ops cat (inplaceUnify result ys) xs
end

/-- `meta_index_state::lookup` (meta_index.cpp:119-129). -/
def lookup (R : Regex) (T : TypeSys τ) (ops : SynOps τ σ) (cat : Catalog τ σ) (fuel : Nat)
    (e : Expr τ) : Option (List Nat) :=
  (pruneAll fuel e).map (lookupImpl R T ops cat)

end Verif.MetaIndex
