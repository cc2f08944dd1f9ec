import Verif.Slice.Model
import Verif.Number.Model
import Verif.QueryText.Spec
import Verif.Explorer.Spec
/-!
# The explorer

Models `libvast/src/system/explorer.cpp`: forwarding of context events to the sink (`forward_results`, lines 41-78), the
queries for the context of an event (lines 124-231) and the end of the explorer (lines 102-115, 222-240).

Each part is a function of the messages it depends on.  Logging is left out.
-/
namespace Verif.Explorer
open Verif.Slice Verif.Bitmap Verif.Data Verif.DataText Verif.QueryText Verif.Number

variable {R : Type}

/-! ## Forwarding -/

/-- What `forward_results` keeps (explorer.hpp:39-60): the IDs that were returned and the number of events sent. -/
structure Forward where
  returned : List Nat
  numSent : Nat

/-- One row (explorer.cpp:45-54): new IDs are remembered and added to `unseen`. -/
def unseenStep (offset : Nat) (st : List Nat × EwahBitmap) (i : Nat) : Option (List Nat × EwahBitmap) :=
  if add64 offset i ∈ st.1 then some st
  else do
    let tmp ← EwahBitmap.appendBits {} false (add64 offset i)
    let tmp ← tmp.appendBits true 1
    let unseen ← binaryOr st.2 tmp
    some (add64 offset i :: st.1, unseen)

/-- The loop that sends slices up to the limit (explorer.cpp:66-76): the new number of events sent, and the slices. -/
def sendLoop (total : Nat) : Nat → List (Slice R) → Option (Nat × List (Slice R))
  | n, [] => some (n, [])
  | n, s :: ss =>
    if total ≤ n then some (n, [])
    else if n + s.rows.length ≤ total then (sendLoop total (n + s.rows.length) ss).map fun x => (x.1, s :: x.2)
    else match truncate s (total - n) with
      | none => none
      | some t => (sendLoop total (n + t.rows.length) ss).map fun x => (x.1, t :: x.2)

/-- `forward_results` (explorer.cpp:41-78): the slices that are sent to the sink.  `none` is a failed assertion. -/
def forward (total : Nat) (st : Forward) (s : Slice R) : Option (Forward × List (Slice R)) :=
  match (List.range s.rows.length).foldlM (unseenStep s.offset) (st.returned, {}) with
  | none => none
  | some (returned, unseen) =>
    if unseen.size = 0 then some ({ st with returned := returned }, [])
    else match (if unseen.size = s.rows.length then some [s] else select s unseen) with
      | none => none
      | some slices => (sendLoop total st.numSent slices).map fun x => (⟨returned, x.1⟩, x.2)

/-- All slices of the exporters for contexts, one after the other (explorer.cpp:133-136). -/
def forwardAll (total : Nat) : Forward → List (Slice R) → Option (Forward × List (Slice R))
  | st, [] => some (st, [])
  | st, s :: ss => match forward total st s with
    | none => none
    | some (st', out) => (forwardAll total st' ss).map fun x => (x.1, out ++ x.2)

/-! ## Queries -/

/-- The predicates of a query for a context (explorer.cpp:185-207). -/
inductive Pred where
  | ge (t : Int)
  | le (t : Int)
  | eq (field : Str) (x : Data)

/-- What an explorer is told: `--before`, `--after` and `--by` (explorer.cpp:93-101). -/
structure Options where
  before : Option Int
  after : Option Int
  by_ : Option Str

/-- With one of the durations given, the other one is zero (explorer.cpp:93-99). -/
def Options.fill (o : Options) : Options :=
  { o with
    before := if o.after.isSome ∧ o.before.isNone then some 0 else o.before
    after := if o.before.isSome ∧ o.after.isNone then some 0 else o.after }

/-- A column of a layout: the parts of its name, whether it is a field at the top of the layout, and whether its type, or one
that it is an alias of, has the name `timestamp`. -/
structure Column where
  name : List Str
  top : Bool
  stamp : Bool
deriving DecidableEq

/-- `table_slice_column::make` (src/table_slice_column.cpp:35-46) with `record_type::find_suffix` (src/type.cpp:354-362): the
first column whose name ends with that name.  The name has none of the special characters of globs. -/
def findColumn (layout : List Column) (name : List Str) : Option Nat := layout.findIdx? fun c => name.isSuffixOf c.name

/-- The column with the timestamps (explorer.cpp:141-157, 169-170). -/
def stampColumn (layout : List Column) : Option Nat :=
  match layout.find? fun c => c.top && c.stamp with
  | none => none
  | some c => findColumn layout c.name

/-- `build_conjunction` (explorer.cpp:208-218). -/
def conjunction : Option (E Pred) → Option (E Pred) → Option (E Pred)
  | some a, some b => some (.conj [a, b])
  | some a, none => some a
  | none, b => b

/-- The expression for the context of an event with this timestamp and this value in the column of `--by` (explorer.cpp:
180-224).  Sums of points in time and durations that overflow are left to the environment. -/
def contextExpr (env : Env) (o : Options) (x : Int) (v : Option Data) : Option (E Pred) :=
  conjunction
    (conjunction (o.before.map fun b => .leaf (.ge (env.int64 (x - b)))) (o.after.map fun a => .leaf (.le (env.int64 (x + a)))))
    (match o.by_, v with
      | some f, some d => some (.leaf (.eq f d))
      | _, _ => none)

/-- What is left of a predicate after the text of the query (explorer.cpp:226-228) was parsed in `spawn_exporter`.  C80 is about
the connectives.  `none`: the text is not accepted, or as something else. -/
def reread (env : Env) : Pred → Option Pred
  | .ge t => match (print env (.time t)).bind (toData env) with
    | some (.time t') => some (.ge t')
    | _ => none
  | .le t => match (print env (.time t)).bind (toData env) with
    | some (.time t') => some (.le t')
    | _ => none
  | .eq f d => ((print env d).bind (toData env)).map (.eq f)

/-- The same for the whole query. -/
def rereadExpr (env : Env) : E Pred → Option (E Pred)
  | .leaf p => (reread env p).map .leaf
  | .conj xs => (go xs).map .conj
  | .disj xs => (go xs).map .disj
  | .neg x => (rereadExpr env x).map .neg
where
  /-- all of them -/
  go : List (E Pred) → Option (List (E Pred))
    | [] => some []
    | x :: xs => match rereadExpr env x, go xs with
      | some y, some ys => some (y :: ys)
      | _, _ => none

/-- Whether an event meets a predicate (C25): one of its timestamps, or one of the fields that the name refers to, does. -/
def holds (e : Spec.Event) : Pred → Bool
  | .ge t => e.stamps.any fun s => match s with
    | some x => decide (t ≤ x)
    | none => false
  | .le t => e.stamps.any fun s => match s with
    | some x => decide (x ≤ t)
    | none => false
  | .eq f d => (e.fields f).any fun v => v.eq d

/-- The query for one row without `--by` (explorer.cpp:171-224): its cell in the column of timestamps has to be a point in
time. -/
def rowQuery (env : Env) (o : Options) : Option Data → Option (E Pred)
  | some (.time x) => contextExpr env o x none
  | _ => none

/-- The query for one row with `--by`: the cell in that column must not be empty (explorer.cpp:195-206). -/
def rowQueryBy (env : Env) (o : Options) : Option Data → Option Data → Option (E Pred)
  | some (.time _), some .none => none
  | some (.time x), some d => contextExpr env o x (some d)
  | _, _ => none

/-- The queries for one slice of the initial query (explorer.cpp:137-231), row by row.  `full` says that the limit on events is
reached.  The cells of a row are in the order of the columns; `--by` is also given by the parts of the name. -/
def queries (env : Env) (o : Options) (byParts : List Str) (full : Bool) (layout : List Column) (rows : List (List Data)) : List (E Pred) :=
  if full then []
  else match stampColumn layout with
    | none => []
    | some c =>
      match o.by_, findColumn layout byParts with
      | some _, none => []
      | none, _ => rows.filterMap fun row => rowQuery env o.fill row[c]?
      | some _, some k => rows.filterMap fun row => rowQueryBy env o.fill row[c]? row[k]?

/-! ## The end -/

/-- What decides when the explorer ends (explorer.hpp:62-67). -/
structure Life where
  running : Nat
  completed : Bool
  quit : Bool
deriving DecidableEq

/-- Messages: a slice of the initial query that asks for some exporters, the answer to such a request, the end of an exporter,
and the final status of the initial query. -/
inductive Msg where
  | initial (requests : Nat)
  | spawned
  | failed
  | down
  | status
deriving DecidableEq

/-- `quit_if_done` (explorer.cpp:103-107). -/
def quitIfDone (s : Life) : Life := if s.completed = true ∧ s.running = 0 then { s with quit := true } else s

/-- The handlers (explorer.cpp:108-115, 222-240).  After `quit` there are no more messages. -/
def lifeStep (s : Life) (m : Msg) : Life :=
  if s.quit then s
  else match m with
    | .initial n => { s with running := s.running + n }
    | .spawned => s
    | .failed => { s with running := s.running - 1 }
    | .down => quitIfDone { s with running := s.running - 1 }
    | .status => quitIfDone { s with completed := true }

end Verif.Explorer
