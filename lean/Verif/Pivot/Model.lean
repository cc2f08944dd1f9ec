import Verif.Types.Model
import Verif.Pivot.Spec
/-!
# The pivoter

Models `libvast/src/system/pivoter.cpp`: an actor that gets the results of a query, asks for events of another type that share
a value with them, and ends when all of that is done.  Logging and the sink are left out: the exporters that are spawned send
their results to the sink.
-/
namespace Verif.Pivot
open Verif.Types Verif.Data
open Spec (Batch)

variable {τ : Type} [DecidableEq τ]

/-- The query that is given to an exporter (pivoter.cpp:131-136): `#type == target && field in ids`. -/
structure Query where
  field : Name
  ids : List Str
deriving DecidableEq

/-- `pivoter_state` (pivoter.hpp:26-72). -/
structure State (τ : Type) where
  requested : List Str := []
  cache : List ((Name × Fields τ) × Option Name) := []
  running : Nat := 0
  completed : Bool := false
  quit : Bool := false

/-- The name of the field that links two types (pivoter.cpp:52-60). -/
def edge (target name : Name) : Name :=
  if (str "zeek").isPrefixOf target && (str "zeek").isPrefixOf name then str "uid" else str "community_id"

/-- `common_field` (pivoter.cpp:34-70): the field that the exporters are asked for, and the new cache.  The name and the fields
of the layout are the key of the cache; attributes are left out. -/
def commonField (target : Name) (cache : List ((Name × Fields τ) × Option Name)) (name : Name) (fs : Fields τ) :
    Option Name × List ((Name × Fields τ) × Option Name) :=
  match cache.find? fun e => e.1 == (name, fs) with
  | some e => (e.2, cache)
  | none =>
    let r := if fs.toList.any fun f => f.1 == edge target name then some (edge target name) else none
    (r, ((name, fs), r) :: cache)

/-- Whether `find_suffix` takes a name for a key without special characters (type.cpp:357-360).  Names have no line breaks. -/
def hit (key n : Name) : Bool := n == key || (46 :: key).isSuffixOf n

/-- `table_slice_column::make` (src/table_slice_column.cpp:35-46): the number of the column.  `none` is a failed assertion,
either there or in pivoter.cpp:112. -/
def column (name : Name) (fs : Fields τ) (key : Name) : Option Nat :=
  (findSuffix { name := name } (hit key) fs).head?.bind fun o => flatIndexAt o fs

/-- The loop over the rows (pivoter.cpp:114-125): the values to ask for, and all values that were asked for. -/
def collect (requested : List Str) : List Data → List Str × List Str
  | [] => ([], requested)
  | .string x :: cs =>
    if x ∈ requested then collect requested cs
    else
      let r := collect (x :: requested) cs
      (x :: r.1, r.2)
  | _ :: cs => collect requested cs

/-- The values of a column.  A row that is too short does not exist. -/
def cells (b : Batch τ) (k : Nat) : List Data := b.rows.map fun row => row.getD k .none

/-- Messages: results of the query, the answer to a request for an exporter, the end of an exporter, the final status of the
query. -/
inductive Msg (τ : Type) where
  | slice (b : Batch τ)
  | spawned
  | failed
  | down
  | status

/-- `quit_if_done` (pivoter.cpp:84-88). -/
def quitIfDone (s : State τ) : State τ := if s.completed = true ∧ s.running = 0 then { s with quit := true } else s

/-- The handler for slices (pivoter.cpp:102-155): the query that an exporter is asked for. -/
def onSlice (target : Name) (s : State τ) (b : Batch τ) : Option (State τ × List Query) :=
  let (field, cache) := commonField target s.cache b.name b.fields
  match field with
  | none => some ({ s with cache := cache }, [])
  | some f =>
    match column b.name b.fields f with
    | none => none
    | some k =>
      let (xs, requested) := collect s.requested (cells b k)
      if xs.isEmpty then some ({ s with cache := cache, requested := requested }, [])
      else some ({ s with cache := cache, requested := requested, running := s.running + 1 }, [⟨f, xs⟩])

/-- The handlers (pivoter.cpp:89-168).  After `quit` there are no more messages.  `none` is a failed assertion. -/
def step (target : Name) (s : State τ) (m : Msg τ) : Option (State τ × List Query) :=
  if s.quit then some (s, [])
  else match m with
    | .slice b => onSlice target s b
    | .spawned => some (s, [])
    | .failed => some ({ s with running := s.running - 1 }, [])
    | .down => some (quitIfDone { s with running := s.running - 1 }, [])
    | .status => some (quitIfDone { s with completed := true }, [])

/-- All messages one after the other: the state and all queries. -/
def run (target : Name) : State τ → List (Msg τ) → Option (State τ × List Query)
  | s, [] => some (s, [])
  | s, m :: ms => match step target s m with
    | none => none
    | some (s', q) => match run target s' ms with
      | none => none
      | some (s'', qs) => some (s'', q ++ qs)

end Verif.Pivot
