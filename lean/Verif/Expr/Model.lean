import Verif.Data.Model
/-
Model of query expressions: their normalization, tailoring to a layout, the
pruning of metadata predicates and row-wise evaluation.

Modelled code: libvast/vast/expression.hpp, libvast/src/expression.cpp,
libvast/src/expression_visitors.cpp, libvast/src/table_slice.cpp:561-790 and
the two callers libvast/src/system/archive.cpp:175-225 and
libvast/src/system/local_segment_store.cpp:36-91.
-/
namespace Verif.Expr
open Verif.Data

/-- `predicate::operand` (vast/expression.hpp:122-123), over a type `τ` of
VAST types. A `type_extractor` either carries a concrete type or, when the
parser only saw a name (`none_type` with a name), that name. A
`data_extractor` names a column by its flat index instead of by its offset in
the nested record (the correspondence is the subject of C49). -/
inductive Operand (τ : Type) where
  | metaType
  | metaField
  | field (key : Str)
  | type (t : τ)
  | typeName (name : Str)
  | column (t : τ) (index : Nat)
  | data (d : Data)

/-- `predicate` (vast/expression.hpp:120-135). -/
structure Pred (τ : Type) where
  lhs : Operand τ
  op : RelOp
  rhs : Operand τ

/-- `expression` (vast/expression.hpp): none, predicate, conjunction,
disjunction or negation. -/
inductive Expr (τ : Type) where
  | none
  | pred (p : Pred τ)
  | conj (xs : List (Expr τ))
  | disj (xs : List (Expr τ))
  | neg (x : Expr τ)

variable {τ : Type} [DecidableEq τ]

/-- `operator==` of operands: the alternatives agree and their members compare
equal. -/
def Operand.eq : Operand τ → Operand τ → Bool
  | .metaType, .metaType => true
  | .metaField, .metaField => true
  | .field a, .field b => a == b
  | .type a, .type b => a == b
  | .typeName a, .typeName b => a == b
  | .column t i, .column u j => t == u && i == j
  | .data a, .data b => a.eq b
  | _, _ => false

/-- `operator==(predicate, predicate)` (src/expression.cpp). -/
def Pred.eq (p q : Pred τ) : Bool := p.lhs.eq q.lhs && decide (p.op = q.op) && p.rhs.eq q.rhs

mutual
/-- `operator==(expression, expression)` (src/expression.cpp:163-165). -/
def Expr.eq : Expr τ → Expr τ → Bool
  | .none, .none => true
  | .pred p, .pred q => p.eq q
  | .conj xs, .conj ys => Expr.eqList xs ys
  | .disj xs, .disj ys => Expr.eqList xs ys
  | .neg x, .neg y => Expr.eq x y
  | _, _ => false

/-- `std::vector<expression>::operator==`. -/
def Expr.eqList : List (Expr τ) → List (Expr τ) → Bool
  | [], [] => true
  | x :: xs, y :: ys => Expr.eq x y && Expr.eqList xs ys
  | _, _ => false
end

/-- `caf::holds_alternative<caf::none_t>(expr)`, also `expr == expression{}`. -/
def Expr.isNone : Expr τ → Bool
  | .none => true
  | _ => false

/-- `hoisted.size() == 1 ? hoisted[0] : hoisted`
(src/expression_visitors.cpp:92) and the equal code at 103. -/
def collapse (mk : List (Expr τ) → Expr τ) : List (Expr τ) → Expr τ
  | [x] => x
  | xs => mk xs

mutual
/-- `hoister` (src/expression_visitors.cpp:80-112). -/
def hoist : Expr τ → Expr τ
  | .none => .none
  | .pred p => .pred p
  | .conj xs => collapse .conj (hoistConj xs)
  | .disj xs => collapse .disj (hoistDisj xs)
  | .neg x => .neg (hoist x)

/-- The loop over the operands of a conjunction (86-91). -/
def hoistConj : List (Expr τ) → List (Expr τ)
  | [] => []
  | x :: xs => match x with
    | .conj ys => hoistAll ys ++ hoistConj xs
    | .none => hoist .none :: hoistConj xs
    | .pred p => hoist (.pred p) :: hoistConj xs
    | .disj ys => collapse .disj (hoistDisj ys) :: hoistConj xs
    | .neg y => .neg (hoist y) :: hoistConj xs

/-- The loop over the operands of a disjunction (97-102). -/
def hoistDisj : List (Expr τ) → List (Expr τ)
  | [] => []
  | x :: xs => match x with
    | .disj ys => hoistAll ys ++ hoistDisj xs
    | .none => hoist .none :: hoistDisj xs
    | .pred p => hoist (.pred p) :: hoistDisj xs
    | .conj ys => collapse .conj (hoistConj ys) :: hoistDisj xs
    | .neg y => .neg (hoist y) :: hoistDisj xs

/-- The inner loop over the operands of a nested connective (88-89, 99-100). -/
def hoistAll : List (Expr τ) → List (Expr τ)
  | [] => []
  | x :: xs => hoist x :: hoistAll xs
end

/-- `is_extractor` in `aligner` (src/expression_visitors.cpp:137-138). -/
def Operand.isExtractor : Operand τ → Bool
  | .data _ => false
  | _ => true

/-- `aligner::operator()(const predicate&)`
(src/expression_visitors.cpp:136-143). -/
def alignPred (p : Pred τ) : Pred τ :=
  if p.lhs.isExtractor || !p.rhs.isExtractor then p else ⟨p.rhs, p.op.flip, p.lhs⟩

mutual
/-- `aligner` (src/expression_visitors.cpp:114-143). -/
def align : Expr τ → Expr τ
  | .none => .none
  | .pred p => .pred (alignPred p)
  | .conj xs => .conj (alignAll xs)
  | .disj xs => .disj (alignAll xs)
  | .neg x => .neg (align x)

/-- Operand loop of `aligner`. -/
def alignAll : List (Expr τ) → List (Expr τ)
  | [] => []
  | x :: xs => align x :: alignAll xs
end

mutual
/-- `denegator` (src/expression_visitors.cpp:145-180). The flag is
`negate_`. -/
def denegate (negate : Bool) : Expr τ → Expr τ
  | .none => .none
  | .pred p => .pred ⟨p.lhs, if negate then p.op.negate else p.op, p.rhs⟩
  | .conj xs => if negate then .disj (denegateAll negate xs) else .conj (denegateAll negate xs)
  | .disj xs => if negate then .conj (denegateAll negate xs) else .disj (denegateAll negate xs)
  | .neg (.neg x) => denegate negate x
  | .neg x => denegate (!negate) x

/-- Operand loop of `denegator`. -/
def denegateAll (negate : Bool) : List (Expr τ) → List (Expr τ)
  | [] => []
  | x :: xs => denegate negate x :: denegateAll negate xs
end

mutual
/-- `deduplicator` (src/expression_visitors.cpp:182-212). -/
def dedup : Expr τ → Expr τ
  | .none => .none
  | .pred p => .pred p
  | .conj xs => .conj (dedupAll [] xs)
  | .disj xs => .disj (dedupAll [] xs)
  | .neg x => dedup x

/-- Operand loop of `deduplicator`; `result` is what was kept so far. -/
def dedupAll (result : List (Expr τ)) : List (Expr τ) → List (Expr τ)
  | [] => result
  | x :: xs =>
    if result.any (fun y => Expr.eq y (dedup x)) then dedupAll result xs
    else dedupAll (result ++ [dedup x]) xs
end

/-- `normalize` (src/expression.cpp:181-188). -/
def normalize (e : Expr τ) : Expr τ :=
  hoist (dedup (denegate false (align (hoist e))))

/-- Metadata operands. -/
def Operand.isMeta : Operand τ → Bool
  | .metaType | .metaField => true
  | _ => false

/-- The common tail of `meta_pruner` for both connectives
(src/expression_visitors.cpp:45-49 and 59-63). -/
def pruneCollapse (mk : List (Expr τ) → Expr τ) : List (Expr τ) → Expr τ
  | [] => .none
  | [x] => x
  | xs => mk xs

mutual
/-- `meta_pruner` (src/expression_visitors.cpp:34-78), the body of
`prune_meta_predicates`. -/
def pruneMeta : Expr τ → Expr τ
  | .none => .none
  | .pred p => if p.lhs.isMeta || p.rhs.isMeta then .none else .pred p
  | .conj xs => pruneCollapse .conj (pruneMetaAll xs)
  | .disj xs => pruneCollapse .disj (pruneMetaAll xs)
  | .neg x => if (pruneMeta x).isNone then pruneMeta x else .neg (pruneMeta x)

/-- Operand loop of `meta_pruner`: none results are dropped. -/
def pruneMetaAll : List (Expr τ) → List (Expr τ)
  | [] => []
  | x :: xs => if (pruneMeta x).isNone then pruneMetaAll xs else pruneMeta x :: pruneMetaAll xs
end

/-- A column of a flat layout: its full name (with the layout name as first
component) and its type. -/
structure Column (τ : Type) where
  name : Str
  type : τ

/-- The layout of a table slice: a named record type, flattened. -/
structure Layout (τ : Type) where
  name : Str
  columns : List (Column τ)

/-- What `type_resolver` asks the type system. These functions are parameters,
all theorems hold for any choice:
`compatible` is `compatible(type, op, data)` (src/type.cpp:853-893),
`congruent` is `congruent(type, type)` (src/type.cpp:792-794),
`named n t op d` is the `matches` lambda of `type_resolver`
(src/expression_visitors.cpp:402-412), `timestamp` is
`has_attribute(t, "timestamp")` (418-419), and
`suffix key name` is the test of `record_type::find_suffix`
(src/type.cpp:354-362), a glob match on the full column name. -/
structure TypeSys (τ : Type) where
  compatible : τ → RelOp → Data → Bool
  congruent : τ → τ → Bool
  named : Str → τ → RelOp → Data → Bool
  timestamp : τ → Bool
  suffix : Str → Str → Bool

/-- The connective built for a list of resolved predicates: nothing, the
predicate itself, or a conjunction for negated operators and a disjunction
otherwise (src/expression_visitors.cpp:454-464,
vast/expression_visitors.hpp:144-154). -/
def connect (op : RelOp) : List (Expr τ) → Expr τ
  | [] => .none
  | [x] => x
  | xs => if op.isNegated then .conj xs else .disj xs

/-- The columns of a layout with their flat index. -/
def Layout.indexed (l : Layout τ) : List (Column τ × Nat) := l.columns.zipIdx

/-- `resolve_extractor` (vast/expression_visitors.hpp:130-155) and the field
case of `type_resolver` (src/expression_visitors.cpp:434-465): one predicate
per selected column. The layout is always a record. -/
def resolveColumns (l : Layout τ) (sel : Column τ → Bool) (op : RelOp) (d : Data) : Expr τ :=
  connect op ((l.indexed.filter fun c => sel c.1).map fun c =>
    .pred ⟨.column c.1.type c.2, op, .data d⟩)

/-- The name `timestamp`, see src/expression_visitors.cpp:415. -/
def timestampName : Str := str "timestamp"

/-- `caf::holds_alternative<time>(d)`. -/
def isTime : Data → Bool
  | .time _ => true
  | _ => false

/-- `type_resolver::operator()(const predicate&)` and the operand overloads
(src/expression_visitors.cpp:387-470). `none` is an error. -/
def resolvePred (T : TypeSys τ) (l : Layout τ) (p : Pred τ) : Option (Expr τ) :=
  let onField (key : Str) (d : Data) := some
    (resolveColumns l (fun c => T.suffix key c.name && T.compatible c.type p.op d) p.op d)
  let onType (t : τ) (d : Data) := some
    (resolveColumns l (fun c => T.congruent c.type t) p.op d)
  let onName (n : Str) (d : Data) :=
    if n == timestampName then
      if !isTime d then none
      else some (.disj [resolveColumns l (fun c => T.named n c.type p.op d) p.op d,
        resolveColumns l (fun c => T.timestamp c.type) p.op d])
    else some (resolveColumns l (fun c => T.named n c.type p.op d) p.op d)
  match p.lhs, p.rhs with
  | .field k, .data d => onField k d
  | .data d, .field k => onField k d
  | .type t, .data d => onType t d
  | .data d, .type t => onType t d
  | .typeName n, .data d => onName n d
  | .data d, .typeName n => onName n d
  | _, _ => some (.pred p)

/-- The common tail of `type_resolver` for both connectives
(src/expression_visitors.cpp:352-357 and 369-374). -/
def tailorCollapse (mk : List (Expr τ) → Expr τ) : List (Expr τ) → Expr τ
  | [] => .none
  | [x] => x
  | xs => mk xs

/-- The result of the conjunction loop: an error, an unresolved operand, or the
resolved operands. -/
inductive LoopResult (τ : Type) where
  | error
  | unresolved
  | ok (xs : List (Expr τ))

mutual
/-- `type_resolver` (src/expression_visitors.cpp:337-385). `none` is an
error. -/
def resolve (T : TypeSys τ) (l : Layout τ) : Expr τ → Option (Expr τ)
  | .none => some .none
  | .pred p => resolvePred T l p
  | .conj xs => match resolveConj T l xs with
    | .error => none
    | .unresolved => some .none
    | .ok ys => some (tailorCollapse .conj ys)
  | .disj xs => match resolveDisj T l xs with
    | none => none
    | some ys => some (tailorCollapse .disj ys)
  | .neg x => match resolve T l x with
    | none => none
    | some y => if y.isNone then some .none else some (.neg y)

/-- The loop of the conjunction case (343-351). It stops at the first error or
unresolved operand. -/
def resolveConj (T : TypeSys τ) (l : Layout τ) : List (Expr τ) → LoopResult τ
  | [] => .ok []
  | x :: xs => match resolve T l x with
    | none => .error
    | some y => if y.isNone then .unresolved else
      match resolveConj T l xs with
      | .error => .error
      | .unresolved => .unresolved
      | .ok ys => .ok (y :: ys)

/-- The loop of the disjunction case (362-368). -/
def resolveDisj (T : TypeSys τ) (l : Layout τ) : List (Expr τ) → Option (List (Expr τ))
  | [] => some []
  | x :: xs => match resolve T l x with
    | none => none
    | some y => match resolveDisj T l xs with
      | none => none
      | some ys => if y.isNone then some ys else some (y :: ys)
end

/-- `tailor` (src/expression.cpp:197-203). -/
def tailor (T : TypeSys τ) (l : Layout τ) (e : Expr τ) : Option (Expr τ) :=
  if e.isNone then none else resolve T l e

/-- A row of a table slice: the values of its columns after `to_canonical`. -/
abbrev Row := List Data

/-- `detail::ends_with(s, suffix)`. -/
def endsWith (s suffix : Str) : Bool := suffix.isSuffixOf s

/-- `row_evaluator` on a predicate (src/table_slice.cpp:599-648). A literal on
the left is handled by swapping the operands, *without* flipping the operator
(569-572). Type and field extractors abort the process; they and a predicate
without extractor (endless recursion at 571) are given the value `false` here
and do not occur after `tailor` and `validator`. -/
def rowPred (R : Regex) (l : Layout τ) (row : Row) (p : Pred τ) : Bool :=
  let onExtractor : Operand τ → Data → Bool
    | .metaType, d => evaluate R (.string l.name) p.op d
    | .metaField, .string s =>
      let found := l.columns.any fun c => endsWith c.name s
      if p.op.isNegated then !found else found
    | .column _ i, d => evaluateView R (row.getD i .none) p.op d
    | _, _ => false
  match p.lhs, p.rhs with
  | .data d, x => onExtractor x d
  | x, .data d => onExtractor x d
  | _, _ => false

mutual
/-- `row_evaluator` on connectives (src/table_slice.cpp:579-597), for any
evaluation `pv` of predicates. -/
def Expr.eval (pv : Pred τ → Bool) : Expr τ → Bool
  | .none => false
  | .pred p => pv p
  | .conj xs => Expr.evalAll pv xs
  | .disj xs => Expr.evalAny pv xs
  | .neg x => !Expr.eval pv x

/-- `std::all_of`. -/
def Expr.evalAll (pv : Pred τ → Bool) : List (Expr τ) → Bool
  | [] => true
  | x :: xs => Expr.eval pv x && Expr.evalAll pv xs

/-- `std::any_of`. -/
def Expr.evalAny (pv : Pred τ → Bool) : List (Expr τ) → Bool
  | [] => false
  | x :: xs => Expr.eval pv x || Expr.evalAny pv xs
end

/-- A table slice: its layout, its rows and the ID of its first row. -/
structure Slice (τ : Type) where
  layout : Layout τ
  rows : List Row
  offset : Nat

/-- The rows of a slice with their IDs. -/
def Slice.events (s : Slice τ) : List (Nat × Row) :=
  s.rows.zipIdx.map fun (r, i) => (s.offset + i, r)

/-- `filter(slice, expr, hints)` (src/table_slice.cpp:668-732), as the list of
rows of the result (the empty list for `nullopt`). `hints` is the ID set; an
empty bitmap means no restriction (674-675) and is `none` here. -/
def filter (R : Regex) (s : Slice τ) (e : Expr τ) (hints : Option (Nat → Bool)) : List Row :=
  (s.events.filter fun (id, row) =>
    (match hints with | none => true | some h => h id) &&
    (e.isNone || e.eval (rowPred R s.layout row))).map (·.2)

/-- The candidate check of the stores for `extract` queries without
`preserve_ids` (src/system/archive.cpp:180-193 and 214-222,
src/system/local_segment_store.cpp:42-49 and 77-81). `none` is an error. -/
def extract (R : Regex) (T : TypeSys τ) (e : Expr τ) (hints : Option (Nat → Bool))
    (s : Slice τ) : Option (List Row) :=
  if e.isNone then some (filter R s .none hints)
  else match tailor T s.layout e with
    | none => none
    | some c => some (filter R s (pruneMeta c) hints)

/-- The candidate check with `preserve_ids` (src/system/archive.cpp:203-213,
src/system/local_segment_store.cpp:67-76): select the hinted rows, evaluate
the checker on each, select the hits. -/
def extractPreserveIds (R : Regex) (T : TypeSys τ) (e : Expr τ) (ids : Nat → Bool)
    (s : Slice τ) : Option (List (Nat × Row)) :=
  if e.isNone then some (s.events.filter fun ev => ids ev.1)
  else match tailor T s.layout e with
    | none => none
    | some c => some (s.events.filter fun ev =>
        ids ev.1 && (pruneMeta c).eval (rowPred R s.layout ev.2))

/-- `count_matching` (src/table_slice.cpp:743-790). -/
def countMatching (R : Regex) (s : Slice τ) (e : Expr τ) (hints : Option (Nat → Bool)) : Nat :=
  (s.events.filter fun (id, row) =>
    (match hints with | none => true | some h => h id) &&
    (e.isNone || e.eval (rowPred R s.layout row))).length

end Verif.Expr
