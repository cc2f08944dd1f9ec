import Verif.Zeek.Model
/-!
# The layouts of JSON objects that tell their type

`libvast/vast/format/json/field_selector.hpp`, used for Suricata (`event_type`, suricata_selector.hpp) and for Zeek (`_path`,
zeek_selector.hpp).
-/
namespace Verif.Select
open Verif.Data

variable {R : Type}

/-- The parameters of the template (suricata_selector.hpp:15-20, zeek_selector.hpp:15-20). -/
structure Params where
  field : Str
  pre : Str

/-- `suricata_selector_specification`. -/
def suricata : Params := ⟨str "event_type", str "suricata"⟩

/-- `zeek_selector_specification`. -/
def zeek : Params := ⟨str "_path", str "zeek"⟩

/-- A type of a schema: its name, and its value if it is a record. -/
abbrev Named (R : Type) := Str × Option R

/-- The selector (field_selector.hpp:77-81) with the warnings it printed: names that are unknown, or `none` for a value that is no
string.  The order of the table matters only for `schema()`. -/
structure State (R : Type) where
  types : List (Str × R)
  unknown : List Str
  warnings : List (Option Str)

/-- A selector after construction. -/
def init : State R := ⟨[], [], []⟩

/-- `types[key] = r` (65). -/
def put (k : Str) (r : R) (ts : List (Str × R)) : List (Str × R) := (k, r) :: ts.filter (·.1 ≠ k)

/-- One turn of the loop in `schema` (53-66). -/
def addType (p : Params) (ts : List (Str × R)) (t : Named R) : List (Str × R) :=
  match Zeek.splitAll t.1 (str ".") with
  | [a, b] => match t.2 with
    | none => ts
    | some r => if a = p.pre then put b r ts else ts
  | _ => ts

/-- `schema` (52-68). -/
def setSchema (p : Params) (sch : List (Named R)) (s : State R) : State R := { s with types := sch.foldl (addType p) s.types }

/-- `find` in the table. -/
def find (k : Str) (ts : List (Str × R)) : Option R := (ts.find? (·.1 = k)).map (·.2)

/-- `operator()` (27-50).  The members of an object in order, each with its value if that is a string; `at_key` of simdjson gives
the first of the name. -/
def choose (p : Params) (obj : List (Str × Option Str)) (s : State R) : Option R × State R :=
  match obj.find? (·.1 = p.field) with
  | none => (none, s)
  | some (_, none) => (none, { s with warnings := s.warnings ++ [none] })
  | some (_, some k) => match find k s.types with
    | some r => (some r, s)
    | none =>
      if k ∈ s.unknown then (none, s)
      else (none, { s with unknown := k :: s.unknown, warnings := s.warnings ++ [some k] })

/-- What happens to a selector. -/
inductive Op (R : Type) where
  | schema (sch : List (Named R))
  | object (obj : List (Str × Option Str))

/-- One step, with the layout that is chosen for an object. -/
def step (p : Params) (s : State R) : Op R → Option (Option R) × State R
  | .schema sch => (none, setSchema p sch s)
  | .object obj => (some (choose p obj s).1, (choose p obj s).2)

/-- A history: the layouts that were chosen, and the state. -/
def run (p : Params) : List (Op R) → State R → List (Option R) × State R
  | [], s => ([], s)
  | o :: os, s => ((step p s o).1.toList ++ (run p os (step p s o).2).1, (run p os (step p s o).2).2)

end Verif.Select
