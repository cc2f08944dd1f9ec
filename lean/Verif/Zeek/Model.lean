import Verif.Number.Model
import Verif.Escape.Model
import Verif.Escape.SplitModel
/-!
# Zeek logs

Models the reader and the writer of Zeek logs (`libvast/src/format/zeek.cpp`, `libvast/vast/format/zeek.hpp`) and
`single_layout_reader::finish` (`libvast/src/format/single_layout_reader.cpp:30-41`) on a builder for Arrow
(`libvast/src/arrow_table_slice_builder.cpp`), the default.

The input is a list of lines; `Verif.Reader` models how bytes become lines.  What `zeekify` and a schema change about the types
of columns, names and attributes (zeek.cpp:418-441), is not modelled: the values do not depend on it.
-/
namespace Verif.Zeek
open Verif.Data Verif.DataText Verif.Calendar Verif.Escape

/-- The types of columns.  `port` is a count with the name "port".  Enumerations and maps occur only on export. -/
inductive Ty where
  | bool | int | count | real | time | duration | string | pattern | addr | subnet | port | enum | map
  | list (t : Ty)
deriving DecidableEq

/-! ### Names of types -/

/-- The names of basic types (zeek.cpp:46-74). -/
def basic : List (String × Ty) :=
  [("enum", .string), ("string", .string), ("file", .string), ("bool", .bool), ("int", .int), ("count", .count),
   ("double", .real), ("time", .time), ("interval", .duration), ("pattern", .pattern), ("addr", .addr), ("subnet", .subnet),
   ("port", .port)]

/-- `find("[")`: what is behind the first opening bracket. -/
def behindOpen : Str → Option Str
  | [] => none
  | b :: s => if b = ch '[' then some s else behindOpen s

/-- `rfind("]")`: what is before the last closing bracket. -/
def beforeClose : Str → Option Str
  | [] => none
  | b :: s => match beforeClose s with
    | some p => some (b :: p)
    | none => if b = ch ']' then some [] else none

/-- The text between the brackets (zeek.cpp:82-87).  If the last closing bracket is before the first opening one, the length
wraps and everything behind the opening one is taken. -/
def between (s : Str) : Option Str :=
  match behindOpen s, beforeClose s with
  | some r, some _ => some ((beforeClose r).getD r)
  | _, _ => none

/-- `parse_type` (zeek.cpp:44-93).  `n` bounds the nesting. -/
def parseTypeN : Nat → Str → Option Ty
  | 0, _ => none
  | n + 1, s => match basic.find? fun e => str e.1 = s with
    | some e => some e.2
    | none =>
      if (str "vector").isPrefixOf s || (str "set").isPrefixOf s || (str "table").isPrefixOf s then
        match between s with
        | none => none
        | some r => (parseTypeN n r).map .list
      else none

/-- `parse_type`: every level takes a bracket off. -/
def parseType (s : Str) : Option Ty := parseTypeN (s.length + 1) s

/-- `zeek_type_printer` (zeek.cpp:95-133), with `kind` (src/type.cpp:995-999) for the types it has no case for. -/
def typeName : Ty → Str
  | .bool => str "bool"
  | .int => str "int"
  | .count => str "count"
  | .real => str "double"
  | .time => str "time"
  | .duration => str "interval"
  | .string => str "string"
  | .pattern => str "pattern"
  | .addr => str "addr"
  | .subnet => str "subnet"
  | .port => str "port"
  | .enum => str "enumeration"
  | .map => str "map"
  | .list t => str "vector[" ++ typeName t ++ str "]"

/-! ### Values -/

/-- `+(parsers::any - sep)` (core/difference.hpp:31-38), without a separator `+parsers::any`: the text up to the separator. -/
def upTo (sep : Str) : Str → Str × Str
  | [] => ([], [])
  | b :: s => if sep ≠ [] ∧ sep.isPrefixOf (b :: s) then ([], b :: s) else (b :: (upTo sep s).1, (upTo sep s).2)

/-- The parser of strings and of patterns, which both yield a string (zeek.hpp:149-171).  `byte_unescape` never leaves the
string: it looks at digits only if there are two. -/
def stringP (sep : Str) : P Data := fun s =>
  if (upTo sep s).1 = [] then none else some (.string ((byteUnescape (upTo sep s).1).getD []), (upTo sep s).2)

/-- A literal of bytes. -/
def strip : Str → Str → Option Str
  | [], s => some s
  | _ :: _, [] => none
  | p :: ps, b :: s => if p = b then strip ps s else none

/-- The loop of `list_parser` (core/list.hpp:36-42).  `n` bounds the number of elements. -/
def moreP (p : P Data) (sep : Str) : Nat → Str → List Data × Str
  | 0, s => ([], s)
  | n + 1, s => match (strip sep s).bind p with
    | none => ([], s)
    | some (v, r) => (v :: (moreP p sep n r).1, (moreP p sep n r).2)

/-- `duration_cast<duration>(double_seconds(x))` (zeek.hpp:137-147). -/
def seconds (env : Env) (l : Lit) : Int := env.int64 (trunc (rnd (litVal l * 10 ^ 9)))

/-- Applies a function to what a parser yields. -/
def via {α : Type} (p : P α) (f : α → Data) : P Data := fun s => (p s).map fun q => (f q.1, q.2)

/-- `parsers::tf` (concept/parseable/numeric/bool.hpp). -/
def tfP : P Bool := fun s =>
  match s with
  | [] => none
  | b :: r => if b = ch 'T' then some (true, r) else if b = ch 'F' then some (false, r) else none

/-- `zeek_parser_factory` (zeek.hpp:112-181).  `sep` is empty for types without elements (zeek.hpp:184-189). -/
def cellP (env : Env) (sep : Str) : Ty → P Data
  | .bool => via tfP .bool
  | .real => via (realP true) fun l => .real (.fin (litVal l))
  | .int => via (int64P env) .int
  | .count => via (uintP 64 20 1) .count
  | .port => via (uintP 64 20 1) .count
  | .time => via (realP true) fun l => .time (seconds env l)
  | .duration => via (realP true) fun l => .duration (seconds env l)
  | .string => stringP sep
  | .pattern => stringP sep
  | .addr => via addrP .address
  | .subnet => via netP .subnet
  | .list t => fun s => match cellP env sep t s with
    | none => none
    | some (v, r) => some (.list (v :: (moreP (cellP env sep t) sep r.length r).1), (moreP (cellP env sep t) sep r.length r).2)
  | .enum => fun _ => none
  | .map => fun _ => none

/-- The default value of a type: `construct` (src/type.cpp:969-986). -/
def construct : Ty → Data
  | .bool => .bool false
  | .int => .int 0
  | .count => .count 0
  | .port => .count 0
  | .real => .real (.fin 0)
  | .time => .time 0
  | .duration => .duration 0
  | .string => .string []
  | .pattern => .pattern []
  | .addr => .address Address.Address.default
  | .subnet => .subnet Address.Subnet.default
  | .enum => .enum 0
  | .map => .map [] []
  | .list _ => .list []

/-- What a log header says (zeek.hpp:236-245). -/
structure Header where
  sep : Str
  setSep : Str
  empty : Str
  unset : Str
  /-- The name of the layout. -/
  name : Str
  fields : List (Str × Ty)
deriving DecidableEq

/-- `is_container(t) ? set_separator : ""` (zeek.hpp:187). -/
def inner (setSep : Str) : Ty → Str
  | .list _ => setSep
  | _ => []

/-- The parser of a column with the whole text (`make_zeek_parser`, zeek.hpp:184-189; core/parser.hpp:61-67). -/
def cell (env : Env) (setSep : Str) (t : Ty) (s : Str) : Option Data :=
  match cellP env (inner setSep t) t s with
  | some (v, []) => some v
  | _ => none

/-- One field of a record (zeek.cpp:290-299). -/
def field (env : Env) (h : Header) (t : Ty) (s : Str) : Option Data :=
  if s = h.unset then some .none else if s = h.empty then some (construct t) else cell env h.setSep t s

/-- All fields (zeek.cpp:290-299): `none` is a parse error. -/
def readFields (env : Env) (h : Header) : List Ty → List Str → Option (List Data)
  | t :: ts, s :: ss => match field env h t s with
    | none => none
    | some v => (readFields env h ts ss).map (v :: ·)
  | _, _ => some []

/-- Whether a column builder takes a value (arrow_table_slice_builder.cpp:91-265, 287-313): null, or one of its type. -/
def takes : Ty → Data → Bool
  | _, .none => true
  | .bool, .bool _ => true
  | .int, .int _ => true
  | .count, .count _ => true
  | .port, .count _ => true
  | .real, .real _ => true
  | .time, .time _ => true
  | .duration, .duration _ => true
  | .string, .string _ => true
  | .pattern, .pattern _ => true
  | .addr, .address _ => true
  | .subnet, .subnet _ => true
  | .list t, .list xs => xs.attach.all fun x => takes t x.1
  | _, _ => false

/-- The number of columns that take their value, from the first on (zeek.cpp:300-305). -/
def taken : List Ty → List Data → Nat
  | t :: ts, v :: vs => if takes t v then taken ts vs + 1 else 0
  | _, _ => 0

/-! ### The reader -/

/-- A hexadecimal digit, or nothing. -/
def hexDigit (b : UInt8) : Option Nat := if isXDigit b then some (DataText.hexVal b) else none

/-- `std::stoi(line.substr(pos + 2, 2), nullptr, 16)` (zeek.cpp:350): `none` is an exception.  Unlike the model, `stoi` also
takes a space or a sign for the first character. -/
def stoi16 (s : Str) : Option Nat :=
  match s with
  | [] => none
  | a :: s => match hexDigit a, s.head?.bind hexDigit with
    | none, _ => none
    | some x, none => some x
    | some x, some y => some (x * 16 + y)

/-- The separator: every `\x` with what follows (zeek.cpp:346-355).  `none` is an exception. -/
def separator : Str → Option Str
  | [] => some []
  | b :: s =>
    if b = ch '\\' ∧ s.head? = some (ch 'x') then
      match stoi16 (s.drop 1), separator s with
      | some x, some r => some (x.toUInt8 :: r)
      | _, _ => none
    else separator s

/-- The beginnings of the header lines after the first one (zeek.cpp:357-360). -/
def prefixes : List Str := ["#set_separator", "#empty_field", "#unset_field", "#path", "#open", "#fields", "#types"].map str

/-- What a header line says (zeek.cpp:367-377): `none` is an error. -/
def content (sep pre line : Str) : Option Str :=
  if pre.isPrefixOf line then
    match find sep line with
    | none => none
    | some (_, c) => if c = [] then none else some c
  else none

/-- How reading can end early. -/
inductive Stop where
  /-- An error. -/
  | error
  /-- A failed assertion or an exception. -/
  | abort
deriving DecidableEq

/-- The columns of a header (zeek.cpp:387-397). -/
def columns : List Str → List Str → Option (List (Str × Ty))
  | f :: fs, t :: ts => match parseType t with
    | none => none
    | some ty => (columns fs ts).map ((f, ty) :: ·)
  | _, _ => some []

/-- `detail::split(s, sep)` with the default limit (string.hpp:120-124). -/
def splitAll (s sep : Str) : List Str := split s sep [] (2 ^ 64 - 1) false

/-- The end of `parse_header` (zeek.cpp:380-454).  `split` asserts that the separator is not empty (src/detail/string.cpp:99). -/
def assemble (sep : Str) : List Str → Except Stop Header
  | [setSep, empty, unset, path, _, fields, types] =>
    if sep = [] then .error .abort
    else if (splitAll fields sep).length ≠ (splitAll types sep).length then .error .error
    else match columns (splitAll fields sep) (splitAll types sep) with
      | none => .error .error
      | some cols => .ok ⟨sep, setSep, empty, unset, str "zeek." ++ path, cols⟩
  | _ => .error .error

/-- Where the reader is: before the first line, in a header (with the separator and the contents so far), or in the body. -/
inductive Mode where
  | start
  | header (sep : Str) (got : List Str)
  | body (h : Header)
  | stopped (why : Stop)
deriving DecidableEq

/-- A slice: a header and rows. -/
abbrev Slice := Header × List (List Data)

/-- The reader.  `rows` are those in the builder. -/
structure State where
  mode : Mode
  rows : List (List Data)
  out : List Slice

/-- `finish` (single_layout_reader.cpp:30-41). -/
def finish (s : State) : State :=
  match s.mode with
  | .body h => if s.rows = [] then s else { s with rows := [], out := s.out ++ [(h, s.rows)] }
  | _ => s

/-- `finish` and an error. -/
def fail (s : State) : State := { finish s with mode := .stopped .error }

/-- The beginning of `parse_header` (zeek.cpp:340-355). -/
def startHeader (s : State) (line : Str) : State :=
  if (str "#separator ").isPrefixOf line then
    match separator (line.drop 11) with
    | none => { s with mode := .stopped .abort }
    | some sep => { s with mode := .header sep [] }
  else { s with mode := .stopped .error }

/-- One more header line (zeek.cpp:361-379); after the last one comes the body. -/
def headerLine (s : State) (sep : Str) (got : List Str) (line : Str) : State :=
  match content sep (prefixes.getD got.length []) line with
  | none => { s with mode := .stopped .error }
  | some c =>
    if got.length + 1 < prefixes.length then { s with mode := .header sep (got ++ [c]) }
    else match assemble sep (got ++ [c]) with
      | .ok h => { s with mode := .body h }
      | .error e => { s with mode := .stopped e }

/-- A record (zeek.cpp:270-311).  If a column does not take its value, the cells of the columns before are in the builder, and
finishing a builder that also has complete rows asserts that no row is incomplete (arrow_table_slice_builder.cpp:523).  What a list
that was refused leaves in the builder of its column is not modelled. -/
def record (env : Env) (m : Nat) (s : State) (h : Header) (line : Str) : State :=
  if (splitAll line h.sep).length ≠ h.fields.length then s
  else match readFields env h (h.fields.map (·.2)) (splitAll line h.sep) with
    | none => fail s
    | some vs =>
      if taken (h.fields.map (·.2)) vs = vs.length then
        if s.rows.length + 1 = m then finish { s with rows := s.rows ++ [vs] } else { s with rows := s.rows ++ [vs] }
      else if s.rows ≠ [] ∧ taken (h.fields.map (·.2)) vs ≠ 0 then { s with mode := .stopped .abort }
      else fail s

/-- One line (zeek.cpp:211-311). -/
def line (env : Env) (m : Nat) (s : State) (l : Str) : State :=
  match s.mode with
  | .stopped _ => s
  | .start => startHeader s l
  | .header sep got => headerLine s sep got l
  | .body h =>
    if l = [] then s
    else if (str "#separator").isPrefixOf l then startHeader (finish s) l
    else if (str "#").isPrefixOf l then s
    else record env m s h l

/-- What happens to a reader: the next line, or a call returns after having flushed its rows, because of a limit of events or a
time-out (zeek.cpp:225-237, 315).  A call that returns because there is no input yet changes nothing. -/
inductive Item where
  | line (l : Str)
  | flush
deriving DecidableEq

/-- One of these. -/
def step (env : Env) (m : Nat) (s : State) : Item → State
  | .line l => line env m s l
  | .flush => finish s

/-- Reading from the beginning to the end of the input (zeek.cpp:226-227).  `m` is the greatest number of rows in a slice. -/
def run (env : Env) (m : Nat) (items : List Item) : State := finish (items.foldl (step env m) ⟨.start, [], []⟩)

/-! ### The writer -/

/-- The digits after the dot of `real_printer<real, 6, 6>` (printable/numeric/real.hpp:40-51): digits of which the trailing zeros
have been chopped off are filled up with zeros to six. -/
def fill (s : Str) : Str := s ++ List.replicate (6 - s.length) (ch '0')

/-- `real_printer<real, 6, 6>::print` after the sign (real.hpp:33-51).  The conversion of 2^64 or more to `uint64_t` is undefined. -/
def realAbs (x : Rat) : Option Str :=
  if x < 2 ^ 64 then
    some (printNat x.floor.toNat
      ++ (ch '.' :: (List.replicate (Number.leading 6 (Number.right 6 x)) (ch '0') ++ fill (printNat (Number.chop 7 (Number.right 6 x))))))
  else none

/-- `real_printer<real, 6, 6>::print` (real.hpp:27-55). -/
def printReal : Real → Option Str
  | .fin x => if x < 0 then (realAbs (-x)).map (ch '-' :: ·) else realAbs x
  | _ => none

/-- `convert(duration, double)` (src/time.cpp:17-20). -/
def toSeconds (t : Int) : Rat := rnd (rnd t / 10 ^ 9)

/-- One character of a string (zeek.cpp:516-528). -/
def escapeChar (b : UInt8) : Str :=
  if Escape.isCntrl b ∨ b = 9 ∨ b = ch ',' then [ch '\\', ch 'x', hexHi b, hexLo b] else [b]

mutual
/-- `zeek_printer` (zeek.cpp:467-541): `none` is a failure, or undefined.  Labels of enumerations come as strings. -/
def printCell : Data → Option Str
  | .none => some (str "-")
  | .bool b => some [if b then ch 'T' else ch 'F']
  | .int i => printInt i
  | .count n => some (printNat n)
  | .real r => printReal r
  | .duration d => printReal (.fin (toSeconds d))
  | .time t => printReal (.fin (toSeconds t))
  | .string s => some (s.flatMap escapeChar)
  | .pattern s => some (printPattern s)
  | .address a => some (printAddr a)
  | .subnet n => some (printNet n)
  | .list [] => some (str "(empty)")
  | .list (x :: xs) => match printCell x, printMore xs with
    | some t, some r => some (t ++ r)
    | _, _ => none
  | _ => none
/-- The elements after the first one. -/
def printMore : List Data → Option Str
  | [] => some []
  | x :: xs => match printCell x, printMore xs with
    | some t, some r => some (ch ',' :: (t ++ r))
    | _, _ => none
end

/-- A line (ostream_writer.hpp:74-105 and zeek.cpp:560-564). -/
def printCells : List Data → Option (List Str)
  | [] => some []
  | x :: xs => match printCell x, printCells xs with
    | some t, some ts => some (t :: ts)
    | _, _ => none

/-- The line of a row. -/
def printRow (vs : List Data) : Option Str := (printCells vs).map fun ts => Escape.join ts [9]

/-- `path.substr(5)` (zeek.cpp:166-167). -/
def stripName (name : Str) : Str := if (str "zeek.").isPrefixOf name then name.drop 5 else name

/-- `print_header` (zeek.cpp:157-185): the lines.  The separator is written as it is.  `now` is the local time, if it is shown. -/
def printHeader (name : Str) (now : Option Str) (fields : List (Str × Ty)) : List Str :=
  [str "#separator " ++ [9], str "#set_separator" ++ (9 :: str ","), str "#empty_field" ++ (9 :: str "(empty)"),
    str "#unset_field" ++ (9 :: str "-"), str "#path" ++ (9 :: stripName name)]
  ++ (match now with | some t => [str "#open" ++ (9 :: t)] | none => [])
  ++ [str "#fields" ++ fields.flatMap fun f => 9 :: f.1, str "#types" ++ fields.flatMap fun f => 9 :: typeName f.2]

end Verif.Zeek
