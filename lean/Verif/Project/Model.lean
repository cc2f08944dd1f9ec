import Verif.Types.Model
/-!
Typed views on columns: `libvast/vast/project.hpp`.

A table slice is a layout and rows of cells, one for each leaf of the layout; `none` is a null.  What `table_slice::at` gives is taken from
the rows (see the models of the encodings).  Undefined behavior and exceptions out of `noexcept` functions are `none`.
-/
namespace Verif.Project
open Verif.Types

variable {τ ν : Type}

/-- How a column is asked for. -/
inductive Hint where
  | offset (o : List Nat)
  | name (n : Name)
  | index (i : Nat)
deriving DecidableEq

/-- The three cases of the type of a column that is asked for: any data, a list or a map, or another type. -/
inductive Mode where
  | any
  | container
  | plain
deriving DecidableEq

/-- The type of a column that is asked for: which types of fields are congruent to it, and which values are of it. -/
structure Wanted (τ ν : Type) where
  mode : Mode
  congruent : Ty τ → Bool
  holds : ν → Bool

/-- The test of the type of a field (project.hpp:248-250, 261-263, 277-279). -/
def Wanted.accepts (w : Wanted τ ν) (t : Ty τ) : Bool :=
  match w.mode with
  | .any | .container => true
  | .plain => w.congruent t

/-- The loop over the suffixes of a name (project.hpp:259-268); the fuel is the length of the name. -/
def nameLoop (hint : Name) (ok : Bool) : Nat → Name → Bool
  | fuel, name =>
    if name = hint && ok then true
    else match fuel, name.dropWhile (· ≠ 46) with
      | fuel + 1, _ :: rest => nameLoop hint ok fuel rest
      | _, _ => false

/-- The index of the first element that satisfies a predicate. -/
def firstFrom {α : Type} (p : Nat → α → Bool) (i : Nat) : List α → Option Nat
  | [] => none
  | x :: xs => if p i x then some i else firstFrom p (i + 1) xs

/-- `find_flat_index_for_hint` (project.hpp:244-289) for the layout with the name in `m` and the fields `fs`; the inner `none` is `-1`.
The field's type is always there in an iteration. -/
def find (m : Meta) (fs : Fields τ) (w : Wanted τ ν) : Hint → Option (Option Nat)
  | .offset o => some (
    match fieldAt o fs with
    | some (_, t) => if w.accepts t then flatIndexAt o fs else none
    | none => none)
  | .name hint => do
    let cols ← (← Each.make m fs).run (flatSizes fs + 1)
    return firstFrom (fun _ c =>
      let name := m.name ++ 46 :: c.2.1
      nameLoop hint (c.2.2.any w.accepts) name.length name) 0 cols
  | .index hint => do
    let cols ← (← Each.make m fs).run (flatSizes fs + 1)
    return firstFrom (fun i c => i == hint && c.2.2.any w.accepts) 0 cols

/-- `projection`: the columns, and the rows of the slice. -/
structure Projection (τ ν : Type) where
  columns : List (Wanted τ ν × Option Nat)
  rows : List (List (Option ν))
  width : Nat

/-- `project` (project.hpp:239-295). -/
def project (m : Meta) (fs : Fields τ) (rows : List (List (Option ν))) (asked : List (Wanted τ ν × Hint)) : Option (Projection τ ν) := do
  let columns ← asked.mapM fun a => do return (a.1, ← find m fs a.1 a.2)
  return { columns, rows, width := flatSizes fs }

/-- `projection::operator bool` (project.hpp:166-172). -/
def Projection.valid (p : Projection τ ν) : Bool := p.columns.all fun c => c.2.any (· < p.width)

/-- `projection::size` (project.hpp:193-195). -/
def Projection.size (p : Projection τ ν) : Nat := p.rows.length

/-- One cell (project.hpp:77-108): nothing for a null, and `caf::get` of another type throws out of a `noexcept` function. -/
def cell (row : List (Option ν)) (c : Wanted τ ν × Option Nat) : Option (Option ν) := do
  let v ← row[← c.2]?
  match v with
  | none => some none
  | some x => if c.1.mode = .any || c.1.holds x then some (some x) else none

/-- The iteration over a projection (project.hpp:76-120, 197-205): the cells of each row. -/
def Projection.iterate (p : Projection τ ν) : Option (List (List (Option ν))) :=
  if p.valid then p.rows.mapM fun row => p.columns.mapM (cell row) else some []

end Verif.Project
