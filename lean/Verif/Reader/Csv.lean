import Verif.Reader.Model
/-!
# The CSV reader

Models `read_impl` of the CSV reader (`libvast/src/format/csv.cpp`), `single_layout_reader::finish`
(`libvast/src/format/single_layout_reader.cpp`) and the row counting of the table slice builder the
reader uses by default (`libvast/src/arrow_table_slice_builder.cpp`).

The parsers of the single columns are parameters.  Parsing the header (csv.cpp:399-419) is not modelled:
the reader starts with its column parsers.
-/
namespace Verif.Reader.Csv

open Verif.Reader

/-- The parser of one column (`csv_parser_factory::operator()`, libvast/src/format/csv.cpp:295-361): it
fails, or yields a cell and the rest of the line.  For most types it is optional and then never fails but
yields the null cell. -/
abbrev Col (V : Type) := List UInt8 → Option (V × List UInt8)

/-- Removes a prefix. -/
def stripPrefix : List UInt8 → List UInt8 → Option (List UInt8)
  | [], s => some s
  | _ :: _, [] => none
  | p :: ps, c :: s => if p = c then stripPrefix ps s else none

variable {V : Type}

/-- Applies the parser of a line, made by `make_csv_parser` (libvast/src/format/csv.cpp:367-380), to a line:
the columns in turn, with the separator between them.  Each column parser is wrapped in `with(add_t…)`
(csv.cpp:287-293), that is, the cell goes into the builder as soon as the column is parsed.  The result is
the list of cells that went into the builder, and whether the line was accepted, which also requires that
nothing of it is left (`f == l`, libvast/vast/concept/parseable/core/parser.hpp:61-67). -/
def parseLine (sep : List UInt8) : List (Col V) → List UInt8 → List V × Bool
  | [], s => ([], s.isEmpty)
  | [c], s =>
    match c s with
    | none => ([], false)
    | some (v, r) => ([v], r.isEmpty)
  | c :: c' :: cs, s =>
    match c s with
    | none => ([], false)
    | some (v, r) =>
      match stripPrefix sep r with
      | none => ([v], false)
      | some r' => let q := parseLine sep (c' :: cs) r'; (v :: q.1, q.2)

/-- Cuts a list of cells into rows of `n`, as the column builders do; `f` is fuel. -/
def chunk (n : Nat) : Nat → List V → List (List V)
  | 0, _ => []
  | f + 1, cells => if cells.length < n ∨ n = 0 then [] else cells.take n :: chunk n f (cells.drop n)

/-- The reader: the lines, the cells in the builder, `batch_events_`, the slices delivered (each a list of
rows), and whether an assertion failed. -/
structure State (V : Type) where
  lines : LineRange
  cells : List V
  batch : Nat
  out : List (List (List V))
  abort : Bool

/-- The parameters: the separator and the columns. -/
structure Cfg (V : Type) where
  sep : List UInt8
  cols : List (Col V)

/-- `arrow_table_slice_builder::rows` (libvast/src/arrow_table_slice_builder.cpp:621-623,650-658): the number
of completed rows. -/
def rows (cfg : Cfg V) (s : State V) : Nat := s.cells.length / cfg.cols.length

/-- `single_layout_reader::finish` (libvast/src/format/single_layout_reader.cpp:30-41).  Finishing the
builder asserts that no row is incomplete (libvast/src/arrow_table_slice_builder.cpp:523). -/
def finish (cfg : Cfg V) (s : State V) : State V :=
  if rows cfg s > 0 then
    if s.cells.length % cfg.cols.length ≠ 0 then { s with batch := 0, abort := true }
    else { s with batch := 0, cells := [], out := s.out ++ [chunk cfg.cols.length (s.cells.length + 1) s.cells] }
  else { s with batch := 0 }

/-- The loop of `read_impl` (libvast/src/format/csv.cpp:443-477). -/
def loop (cfg : Cfg V) (maxSlice maxEvents : Nat) (clock : Nat → Bool) : Nat → Nat → Nat → State V → State V × Res
  | 0, _, _, s => (s, .running)
  | f + 1, i, produced, s =>
    if produced < maxEvents then
      if s.lines.done then (finish cfg s, .endOfInput)
      else if s.batch > 0 && clock i then (finish cfg s, .timeout)
      else
        let q := nextTimeout s.lines
        let s := { s with lines := q.2 }
        if q.1 then (s, .stalled)
        else if q.2.line.isEmpty then loop cfg maxSlice maxEvents clock f (i + 1) produced s
        else
          let p := parseLine cfg.sep cfg.cols q.2.line
          let s := { s with cells := s.cells ++ p.1 }
          if !p.2 then loop cfg maxSlice maxEvents clock f (i + 1) produced s
          else
            let s := { s with batch := s.batch + 1 }
            let s := if rows cfg s = maxSlice then finish cfg s else s
            loop cfg maxSlice maxEvents clock f (i + 1) (produced + 1) s
    else (finish cfg s, .ok)

/-- `read_impl` after the header (libvast/src/format/csv.cpp:441-478). -/
def readImpl (cfg : Cfg V) (maxSlice : Nat) (s : State V) (c : Call) : State V × Res :=
  loop cfg maxSlice c.maxEvents c.clock (s.lines.input.arrivals.length + 4) 0 0 s

/-- A reader with a fresh input. -/
def State.init (a : List Arr) : State V := ⟨.init a, [], 0, [], false⟩

/-- A sequence of calls; none is made after a failed assertion. -/
def calls (cfg : Cfg V) (maxSlice : Nat) : List Call → State V × Res → State V × Res
  | [], q => q
  | c :: cs, q => if q.1.abort then q else calls cfg maxSlice cs (readImpl cfg maxSlice q.1 c)

end Verif.Reader.Csv
