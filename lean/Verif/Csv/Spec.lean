import Verif.Csv.Model
import Mathlib.Data.List.Forall2

/-! # How a CSV text is read

Cells are separated by commas and rows by line feeds; neither counts within double quotes. -/

namespace Verif.Csv.Spec
open Verif.Data Verif.DataText

/-- The rows of a text. `inside` tells whether we are within quotes, `cell` is what has been read of the current cell, and
    `row` are the cells before it. -/
def parse (inside : Bool) (cell : Str) (row : List Str) : Str → List (List Str)
  | [] => if cell = [] ∧ row = [] then [] else [row ++ [cell]]
  | b :: s =>
    if b = 34 then parse (!inside) (cell ++ [b]) row s
    else if inside = false ∧ b = 44 then parse false [] (row ++ [cell]) s
    else if inside = false ∧ b = 10 then (row ++ [cell]) :: parse false [] [] s
    else parse inside (cell ++ [b]) row s

/-- The rows of a text. -/
def table (s : Str) : List (List Str) := parse false [] [] s

/-- The string that the body of a quoted text stands for: quotes and bars are doubled. -/
def undouble : Str → Option Str
  | [] => some []
  | [b] => if b = 34 ∨ b = 124 then none else some [b]
  | b :: c :: s =>
    if b = 34 ∨ b = 124 then (if c = b then (undouble s).map (b :: ·) else none) else (undouble (c :: s)).map (b :: ·)

/-- The string that a quoted text stands for. -/
def unquote (t : Str) : Option Str :=
  match t with
  | 34 :: r => if r.getLast? = some 34 then undouble r.dropLast else none
  | _ => none

/-- The elements of a list: what is between ` | `, outside of quotes. -/
def elements (inside : Bool) (cell : Str) (s : Str) : List Str :=
  match s with
  | [] => [cell]
  | b :: r =>
    if inside = false ∧ (b :: r).take 3 = [32, 124, 32] then cell :: elements false [] (r.drop 2)
    else elements (if b = 34 then !inside else inside) (cell ++ [b]) r
termination_by s.length
decreasing_by all_goals (simp only [List.length_cons, List.length_drop]; omega)

/-- Values that are no containers, with a text: patterns only without quotes, bars, commas and line feeds. -/
def Scalar : Data → Prop
  | .list _ => False
  | .map _ _ => False
  | .record _ _ => False
  | .pattern s => ∀ b ∈ s, b ≠ 34 ∧ b ≠ 124 ∧ b ≠ 44 ∧ b ≠ 10
  | .int i => i ≠ -(2 ^ 63)
  | .real r => ∃ t, Number.printReal 6 r = some t
  | .duration d => ∃ t, Number.printDuration d = some t
  | _ => True

/-- The text is one for the value: nothing for null, a quoted text for a string, six digits for a real number, and the
    usual text otherwise. -/
def ScalarText (env : Env) : Data → Str → Prop
  | .none, t => t = []
  | .string s, t => unquote t = some s
  | .real r, t => Number.printReal 6 r = some t
  | d, t => print (Number.withNumbers env) d = some t

/-- The same with lists of such values. -/
def Plain : Data → Prop
  | .list xs => ∀ x ∈ xs, Scalar x
  | d => Scalar d

/-- The text is one for the value; lists are separated by bars. -/
def CellText (env : Env) : Data → Str → Prop
  | .list xs, t => if xs = [] then t = [34, 34] else List.Forall₂ (ScalarText env) xs (elements false [] t)
  | d, t => ScalarText env d t

/-- Names without characters that mean something. -/
def Clean (s : Str) : Prop := ∀ b ∈ s, b ≠ 34 ∧ b ≠ 44 ∧ b ≠ 10

/-- The rows that a reader should find for a slice: a header if the layout is not that of the slice before, then one row per
    event with the name of the layout and a text for each cell. -/
inductive Rows (env : Env) : Str → List Table → List (List Str) → Prop where
  | nil (last : Str) : Rows env last [] []
  | cons (last : Str) (t : Table) (ts : List Table) (head body rest : List (List Str))
      (hh : head = if last = t.name then [] else [str "type" :: t.keys])
      (hb : List.Forall₂ (fun values row => ∃ cells, row = t.name :: cells ∧ List.Forall₂ (CellText env) values cells) t.rows body)
      (hr : Rows env t.name ts rest) : Rows env last (t :: ts) (head ++ body ++ rest)

end Verif.Csv.Spec
