import Verif.Types.Merge

/-! # Transforms

Models libvast/src/transform.cpp and libvast/src/transform_steps/. A table slice is its layout, its rows and the ID of
its first row; a cell is a value of an arbitrary type `V`. Encodings, and with them the conversion to and from Arrow
record batches, are not modelled: both hold the same rows. -/

namespace Verif.Transform
open Types (Name Meta Ty Fields)

/-- table_slice.hpp: a table slice -/
structure Slice (τ V : Type) where
  name : Name
  fields : Fields τ
  rows : List (List V)
  offset : Nat

/-- ids.hpp `invalid_id`, the offset of a slice that a builder made -/
def invalidId : Nat := 2 ^ 64 - 1

/-- transform_step.hpp:20-28 `transform_step::apply`: any function; `none` is the error. -/
abbrev Step (τ V : Type) := Slice τ V → Option (Slice τ V)

/-- transform.hpp:15-56 `transform` -/
structure Transform (τ V : Type) where
  steps : List (Step τ V)
  fast : Bool
  events : List Name

variable {τ V : Type}

/-- transform.cpp:40-44 the constructor -/
def Transform.make (events : List Name) : Transform τ V := ⟨[], true, events⟩

/-- transform.cpp:46-50 `add_step`. The step was moved from before the second use, so it is null, and the
    `dynamic_cast` fails for every step. -/
def Transform.addStep (t : Transform τ V) (s : Step τ V) : Transform τ V :=
  { t with steps := t.steps ++ [s], fast := t.fast && false }

/-- transform.cpp:68-73: the loop over the steps -/
def runSteps : List (Step τ V) → Slice τ V → Option (Slice τ V)
  | [], x => some x
  | s :: ss, x => (s x).bind (runSteps ss)

/-- transform.cpp:60-75 `transform::apply` for table slices -/
def Transform.apply (t : Transform τ V) (x : Slice τ V) : Option (Slice τ V) :=
  if x.name ∈ t.events then runSteps t.steps x else some x

/-- transform.cpp:94-96: the transforms in `layout_mapping_` for a name, once for every occurrence in `event_types` -/
def matching (n : Name) (ts : List (Transform τ V)) : List (Transform τ V) :=
  ts.flatMap fun t => (t.events.filter (· = n)).map fun _ => t

/-- transform.cpp:138-148: the loop of the generic path; `size` is the number of rows of the argument. -/
def applyAll (size : Nat) : List (Transform τ V) → Slice τ V → Option (Slice τ V)
  | [], x => some x
  | t :: ts, x => (t.apply x).bind fun y => if y.rows.length ≠ size then none else applyAll size ts y

/-- transform.cpp:115-134: the fast path. It is taken for transforms without steps only (see `addStep`), for which
    `transform::apply` (77-90) returns layout and batch unchanged. The slice that is made of them has no offset. -/
def fastPath (x : Slice τ V) : Slice τ V := { x with offset := invalidId }

/-- transform.cpp:100-152 `transformation_engine::apply` -/
def apply (ts : List (Transform τ V)) (x : Slice τ V) : Option (Slice τ V) :=
  match matching x.name ts with
  | [] => some x
  | m :: ms =>
    if (m :: ms).all (·.fast) then some (fastPath x)
    else (applyAll x.rows.length (m :: ms) x).map fun y => { y with offset := x.offset }

/-! ### Steps -/

/-- delete.cpp:50-67 `delete_step`, the Arrow version (which `transform_step::apply` prefers). The outer `none` is
    undefined behavior: the field is a record and has no flat index (or `resolve` has undefined behavior). -/
def deleteStep (field : Name) (x : Slice τ V) : Option (Slice τ V) :=
  match Types.resolveKey field x.fields with
  | none => none
  | some none => some { x with offset := invalidId }
  | some (some o) =>
    match Types.flatIndexAt o x.fields with
    | none => none
    | some j =>
      (Types.removeAt o x.fields).map fun new =>
        { x with fields := new, rows := x.rows.map (·.eraseIdx j), offset := invalidId }

/-- replace.cpp:53-85 `replace_step`, the Arrow version; `t` is the type of the value (`basic_type`). -/
def replaceStep [DecidableEq τ] (field : Name) (value : V) (t : Ty τ) (m : Meta) (x : Slice τ V) : Option (Slice τ V) :=
  match Types.resolveKey field x.fields with
  | none => none
  | some none => some { x with offset := invalidId }
  | some (some o) =>
    match Types.flatIndexAt o x.fields with
    | none => none
    | some j =>
      (Types.assign o (field, t) m x.fields).map fun new =>
        { x with fields := new.2, rows := x.rows.map (·.set j value), offset := invalidId }

/-- hash.cpp:61-93 `hash_step`, the Arrow version; `hash` is the text of the hash value of a cell, and `string` the
    string type. -/
def hashStep (field out : Name) (hash : V → V) (string : Ty τ) (x : Slice τ V) : Option (Slice τ V) :=
  match Types.resolveKey field x.fields with
  | none => none
  | some none => some { x with offset := invalidId }
  | some (some o) =>
    match Types.flatIndexAt o x.fields with
    | none => none
    | some j =>
      some { x with
        fields := .ofList (x.fields.toList ++ [(out, string)])
        rows := x.rows.map fun r => r ++ (r[j]?.map hash).toList
        offset := invalidId }

end Verif.Transform
