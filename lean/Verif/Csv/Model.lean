import Verif.Number.Model

/-! # The CSV writer

libvast/src/format/csv.cpp:33-131. What the stream does with the bytes is not modelled. -/

namespace Verif.Csv
open Verif.Data Verif.DataText

/-- A table slice: the name of its layout, the keys of its columns and its rows. -/
structure Table where
  name : Str
  keys : List Str
  rows : List (List Data)

/-- detail/escapers.hpp:212-218 `make_double_escaper` with a double quote and a bar (csv.cpp:54-57). -/
def escape (s : Str) : Str := s.flatMap fun b => if b = ch '"' ∨ b = ch '|' then [b, b] else [b]

/-- csv.cpp:54-59: strings. -/
def quote (s : Str) : Str := ch '"' :: (escape s ++ [ch '"'])

/-- defaults.hpp: `export_::csv::set_separator`. -/
def setSeparator : Str := [ch ' ', ch '|', ch ' ']

/-- csv.cpp:49-52: real numbers with six digits. Texts that are undefined are those of `env`. -/
def real (env : Env) (r : Real) : Str := (Number.printReal 6 r).getD (env.printReal r)

mutual
/-- csv.cpp:39-95: the text of a cell, and whether there was no error. An error within a list ends the list and is then
    forgotten (83-86). `records` is the text of records within lists (printable/vast/view.hpp:91-102). Texts of integers
    that are undefined are empty here. -/
def render (env : Env) (records : List Str → List Data → Str) : Data → Str × Bool
  | .none => ([], true)
  | .string s => (quote s, true)
  | .real r => (real env r, true)
  | .list xs => (renderList env records xs, true)
  | .map _ _ => ([], false)
  | .record ns vs => (records ns vs, true)
  | .bool b => ((print (Number.withNumbers env) (.bool b)).getD [], true)
  | .int i => ((print (Number.withNumbers env) (.int i)).getD [], true)
  | .count n => ((print (Number.withNumbers env) (.count n)).getD [], true)
  | .duration d => ((print (Number.withNumbers env) (.duration d)).getD [], true)
  | .time t => ((print (Number.withNumbers env) (.time t)).getD [], true)
  | .pattern s => ((print (Number.withNumbers env) (.pattern s)).getD [], true)
  | .address a => ((print (Number.withNumbers env) (.address a)).getD [], true)
  | .subnet s => ((print (Number.withNumbers env) (.subnet s)).getD [], true)
  | .enum n => ((print (Number.withNumbers env) (.enum n)).getD [], true)
/-- csv.cpp:63-81: the elements of a list. -/
def renderList (env : Env) (records : List Str → List Data → Str) : List Data → Str
  | [] => [ch '"', ch '"']
  | x :: xs => (render env records x).1 ++ if (render env records x).2 then renderMore env records xs else []
/-- csv.cpp:74-79 -/
def renderMore (env : Env) (records : List Str → List Data → Str) : List Data → Str
  | [] => []
  | x :: xs => setSeparator ++ ((render env records x).1 ++ if (render env records x).2 then renderMore env records xs else [])
end

/-- csv.cpp:108-115: the header. -/
def header (keys : List Str) : Str :=
  [ch 't', ch 'y', ch 'p', ch 'e'] ++ keys.flatMap (fun k => ch ',' :: k) ++ [ch '\n']

/-- csv.cpp:121-127: the cells of a row. `none` is an error. -/
def line (env : Env) (records : List Str → List Data → Str) : List Data → Option Str
  | [] => some [ch '\n']
  | x :: xs => if (render env records x).2 then (line env records xs).map fun t => ch ',' :: ((render env records x).1 ++ t) else none

/-- csv.cpp:118-130: the rows. -/
def lines (env : Env) (records : List Str → List Data → Str) (name : Str) : List (List Data) → Option Str
  | [] => some []
  | row :: rows => (line env records row).bind fun t => (lines env records name rows).map fun more => name ++ t ++ more

/-- csv.cpp:103-132 `writer::write`: the text for a slice, given the name of the last layout. `none` is an error; the texts of
    the rows before it are written, which the model leaves out. -/
def write (env : Env) (records : List Str → List Data → Str) (last : Str) (t : Table) : Option Str :=
  (lines env records t.name t.rows).map fun body => (if last = t.name then [] else header t.keys) ++ body

/-- The text for slices, one after the other. -/
def writeAll (env : Env) (records : List Str → List Data → Str) : Str → List Table → Option Str
  | _, [] => some []
  | last, t :: ts => (write env records last t).bind fun s => (writeAll env records t.name ts).map fun more => s ++ more

end Verif.Csv
