import Verif.Reader.Model
import Verif.Reader.LineSpec
/-!
# What a reader should deliver
-/
namespace Verif.Reader

variable {L R : Type} [DecidableEq L]

/-- The rows for layout `l` in a list of lines, in order. -/
def eventsIn (classify : List UInt8 → Parsed L R) (l : L) (ls : List (List UInt8)) : List R :=
  ls.filterMap fun line =>
    match classify line with
    | .event k x => if k = l then some x else none
    | _ => none

/-- The number of events in a list of lines. -/
def eventCount (classify : List UInt8 → Parsed L R) (ls : List (List UInt8)) : Nat :=
  (ls.filter fun line => match classify line with | .event _ _ => true | _ => false).length

/-- The rows for layout `l` in a list of slices, in order. -/
def rowsIn (l : L) (out : List (Slice L R)) : List R :=
  out.flatMap fun (k, rows) => if k = l then rows else []

/-- The number of rows in a list of slices. -/
def total (out : List (Slice L R)) : Nat := (out.map fun s => s.2.length).sum

/-- The number of rows in the builders. -/
def buffered (s : State L R) : Nat := (s.builders.map fun b => b.2.length).sum

end Verif.Reader
