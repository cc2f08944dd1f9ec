import Verif.MetaIndex.Model
import Verif.Evaluator.Model
import Verif.Expr.Spec

/-! # Partitions: how the events of a partition are indexed and how a query is answered from the indexes

libvast/src/system/partition.cpp. The columns of the slices are sent to one indexer per field; a query is resolved for
the layout that consists of all fields of the partition, the resulting predicates are sent to the indexers, and the
evaluator (C37) combines the replies. The value indexes themselves are a parameter, `answer`: what the index over the
values appended so far replies to a predicate (`none` is an error); see C04 to C11 for the indexes. An ID set is the list
of its bits.

Not modelled: loading and saving of a partition (C33), the order in which columns reach the indexers (a query arrives
after the partition is complete, or sees what the indexers have until then), a shutdown while a query runs. -/

namespace Verif.Partition
open Verif.Data Verif.Expr Verif.Evaluator
open Verif.MetaIndex (Field find assign)
open Verif.Bitmap.Spec (pointwise)

variable {τ : Type} [DecidableEq τ]

/-- system/partition.hpp:60-130 `active_partition_state`: `type_ids`, and `indexers` with `combined_layout`. An indexer
    is the list of the values appended to it, with their IDs. The indexers are a `detail::stable_map`, whose order is
    that of the combined layout. -/
structure Part (τ : Type) where
  typeIds : List (Str × Ids)
  fields : List (Field τ × List (Nat × Data))

/-- The partition without events. -/
def Part.empty : Part τ := ⟨[], []⟩

/-- partition.cpp:434-439: mark the IDs of a slice. `none` is the failing assertion (436). -/
def mark (ids : Ids) (first rows : Nat) : Option Ids :=
  if first < ids.length then none
  else some (ids ++ List.replicate (first - ids.length) false ++ List.replicate rows true)

/-- indexer.cpp:76-95: the values of a column of a slice are appended, unless the type has the attribute `skip` (65). -/
def columnValues (skip : τ → Bool) (s : Slice τ) (c : Column τ × Nat) : List (Nat × Data) :=
  if skip c.1.type then [] else s.events.map fun e => (e.1, e.2.getD c.2 .none)

/-- partition.cpp:444-456: the indexer for a field gets a column. -/
def addColumn (skip : τ → Bool) (s : Slice τ) (fields : List (Field τ × List (Nat × Data))) (c : Column τ × Nat) :
    List (Field τ × List (Nat × Data)) :=
  let key : Field τ := ⟨s.layout.name, c.1.name, c.1.type⟩
  assign key ((find key fields).getD [] ++ columnValues skip s c) fields

/-- partition.cpp:424-457: the stream stage of the active partition gets a slice. -/
def addSlice (skip : τ → Bool) (p : Part τ) (s : Slice τ) : Option (Part τ) :=
  (mark ((find s.layout.name p.typeIds).getD []) s.offset s.rows.length).map fun ids =>
    ⟨assign s.layout.name ids p.typeIds, s.layout.indexed.foldl (addColumn skip s) p.fields⟩

/-- The partition with the events of slices. -/
def build (skip : τ → Bool) (slices : List (Slice τ)) : Option (Part τ) :=
  slices.foldl (fun p s => p.bind fun p => addSlice skip p s) (some .empty)

/-- partition.cpp:447: the combined layout. It has no name, and names of fields have the name of the layout as a prefix:
    `find_suffix` sees them with a leading dot (type.cpp:345-363). -/
def Part.combined (p : Part τ) : Layout τ := ⟨[], p.fields.map fun f => ⟨46 :: f.1.fqn, f.1.type⟩⟩

/-- `row_ids |= ids` for all -/
def unionIds : List Ids → Ids := List.foldl (pointwise (· || ·)) []

/-- detail/string.hpp `starts_with` -/
def startsWith (s pre : Str) : Bool := pre.isPrefixOf s

/-- partition.cpp:134-141: the IDs for a predicate on `#type` -/
def typeHits (R : Regex) (p : Part τ) (op : RelOp) (d : Data) : Ids :=
  unionIds ((p.typeIds.filter fun t => Data.evaluate R (.string t.1) op d).map (·.2))

/-- partition.cpp:149-163: the IDs of the layouts with a field that ends with a string. A field belongs to a layout if
    its name starts with that of the layout. -/
def fieldIds (p : Part τ) (s : Str) : Ids :=
  unionIds ((p.fields.filter fun f => endsWith f.1.fqn s).flatMap fun f =>
    (p.typeIds.filter fun t => startsWith f.1.fqn t.1).map (·.2))

/-- partition.cpp:142-171: the IDs for a predicate on `#field` -/
def fieldHits (p : Part τ) (op : RelOp) (s : Str) : Ids :=
  if op.isNegated then pointwise Bool.xor (unionIds (p.typeIds.map (·.2))) (fieldIds p s) else fieldIds p s

/-- partition.cpp:110-124, 126-188, 203-222: the reply of the indexer for a predicate; the outer `none` is a predicate
    without an indexer. -/
def reply (R : Regex) (answer : τ → List (Nat × Data) → RelOp → Data → Option Ids) (p : Part τ) (q : Pred τ) :
    Option (Option Ids) :=
  match q.lhs, q.rhs with
  | .metaType, .data d => some (some (typeHits R p q.op d))
  | .metaField, .data (.string s) => some (some (fieldHits p q.op s))
  | .column _ i, .data d => p.fields[i]?.map fun f => answer f.1.type f.2 q.op d
  | _, _ => none

/-- expression.cpp:262-274: `type_resolver` and `predicatizer` for the combined layout -/
def resolution (T : TypeSys τ) (p : Part τ) (q : Pred τ) : Option (List (Pred τ)) :=
  (resolvePred T p.combined q).map Expr.preds

/-- partition.cpp:195-227 `evaluate`: the requests to the indexers, with the replies they will get -/
def requests (R : Regex) (T : TypeSys τ) (answer : τ → List (Nat × Data) → RelOp → Data → Option Ids) (p : Part τ)
    (e : Expr τ) : List (Position × Option Ids) :=
  (Evaluator.resolve (resolution T p) e).filterMap fun x => (reply R answer p x.2).map fun r => (x.1, r)

/-- partition.cpp:868-875: the hits of a query whose replies arrive in the given order; there are none without requests
    (869-870). -/
def hits (e : Expr τ) (order : List (Position × Option Ids)) : Ids :=
  if order.isEmpty then [] else (run (start e (order.map (·.1))) order).delivered.headD []

end Verif.Partition
