import Verif.SchemaText.Model
import Verif.DataText.Model

/-! # Reading schemas

Models `type_parser` of libvast/src/concept/parseable/vast/type.cpp and `symbol_map_parser` and `schema_parser` of
libvast/vast/concept/parseable/vast/schema.hpp. -/

namespace Verif.SchemaText

open Verif.Types (Name Meta)
open Verif.DataText (ch eat kw isAlnum isSpace isCntrl quotedP)

/-- A text. -/
abbrev Str := List UInt8

/-- The outcome of a parser: a value and the rest of the text, a failure, a recursion without end (which exhausts the
    stack), or not enough fuel. -/
inductive Res (α : Type) where
  | ok (a : α) (rest : Str)
  | fail
  | overflow
  | stuck
  deriving DecidableEq

/-- core/sequence.hpp: one parser after the other -/
def Res.bind {α β : Type} : Res α → (α → Str → Res β) → Res β
  | .ok a r, f => f a r
  | .fail, _ => .fail
  | .overflow, _ => .overflow
  | .stuck, _ => .stuck

/-- core/choice.hpp: the second parser if the first fails -/
def Res.orElse {α : Type} : Res α → (Unit → Res α) → Res α
  | .fail, f => f ()
  | x, _ => x

/-- The outcome of a parser that does not recurse. -/
def Res.ofOption {α : Type} : Option (α × Str) → Res α
  | some (a, r) => .ok a r
  | none => .fail

/-- The outcome of a parser without a value. -/
def Res.unit : Option Str → Res Unit
  | some r => .ok () r
  | none => .fail

/-- parseable/vast/type.hpp:27-33 `skp`: white space and comments; the flag says that a comment has begun. -/
def skpIn : Bool → Str → Str
  | _, [] => []
  | true, b :: s => if b = 10 then skpIn false s else skpIn true s
  | false, [b] => if isSpace b then [] else [b]
  | false, b :: c :: s =>
    if isSpace b then skpIn false (c :: s) else if b = 47 ∧ c = 47 then skpIn true s else b :: c :: s

@[inherit_doc skpIn] def skp (s : Str) : Str := skpIn false s

/-- identifier.hpp:19 `identifier_char` -/
def isIdent (b : UInt8) : Bool := isAlnum b || b == 95 || b == 46

/-- The longest prefix of characters of a class, and the rest. -/
def spanOf (p : UInt8 → Bool) : Str → Str × Str
  | [] => ([], [])
  | b :: s => if p b then (b :: (spanOf p s).1, (spanOf p s).2) else ([], b :: s)

/-- core/plus.hpp for a class of characters -/
def plusOf (p : UInt8 → Bool) (s : Str) : Option (Str × Str) :=
  if (spanOf p s).1.isEmpty then none else some (spanOf p s)

/-- identifier.hpp:20 `identifier` -/
def identP (s : Str) : Option (Name × Str) := plusOf isIdent s

/-- type.cpp:39: what ends an attribute value -/
def isValueChar (b : UInt8) : Bool := !isCntrl b && !isSpace b && b != 44 && b != 62 && b != 125

/-- type.cpp:37-39 `attr_value` -/
def attrValueP (s : Str) : Option (Name × Str) := (quotedP '"' s).or (plusOf isValueChar s)

/-- type.cpp:40-41 `attr` -/
def attrP (s : Str) : Option ((Name × Option Name) × Str) :=
  (eat '#' s).bind fun s1 => (identP s1).map fun (k, s2) =>
    match (eat '=' s2).bind attrValueP with
    | some (v, s3) => ((k, some v), s3)
    | none => ((k, none), s2)

/-- type.cpp:42 `attr_list`; each attribute takes one unit of fuel. -/
def attrsP : Nat → Str → List (Name × Option Name) × Str
  | 0, s => ([], s)
  | n + 1, s =>
    match attrP (skp s) with
    | some (a, r) => (a :: (attrsP n r).1, (attrsP n r).2)
    | none => ([], s)

/-- type.cpp:45-57: the names of the basic types -/
def basicWords : List (List Char × Basic) :=
  [("bool".toList, .bool), ("int".toList, .int), ("count".toList, .count), ("real".toList, .real),
    ("duration".toList, .duration), ("time".toList, .time), ("string".toList, .string), ("pattern".toList, .pattern),
    ("addr".toList, .addr), ("subnet".toList, .subnet)]

/-- type.cpp:45-56: the choice between the names -/
def wordP : List (List Char × Basic) → Str → Option (Basic × Str)
  | [], _ => none
  | (w, b) :: ws, s =>
    match kw w s with
    | some r => some (b, r)
    | none => wordP ws s

/-- type.cpp:57 `&(!parsers::identifier_char)` -/
def noIdent : Str → Bool
  | [] => true
  | b :: _ => !isIdent b

/-- type.cpp:44-58 `basic_type_parser` -/
def basicP (s : Str) : Option (T × Str) :=
  (wordP basicWords s).bind fun (b, r) => if noIdent r then some (.basic b {}, r) else none

/-- core/list.hpp:30-38: the loop of a list separated by commas, for a parser `p` of elements. The fuel bounds the
    number of elements. -/
def commaLoop {α : Type} (p : Str → Res α) : Nat → List α → Str → Res (List α)
  | 0, _, _ => .stuck
  | n + 1, acc, s =>
    match eat ',' s with
    | none => .ok acc s
    | some s1 =>
      match p s1 with
      | .ok a r => commaLoop p n (acc ++ [a]) r
      | .fail => .ok acc s
      | .overflow => .overflow
      | .stuck => .stuck

/-- A list in braces: `'{' >> (p % ',') >> ~(',' >> skp) >> '}'` (type.cpp:64-66, 101-103) -/
def bracesP {α : Type} (p : Str → Res α) (s : Str) : Res (List α) :=
  (Res.unit (eat '{' s)).bind fun _ s1 => (p s1).bind fun a s2 => (commaLoop p (s.length + 1) [a] s2).bind fun as s3 =>
    let s4 := match eat ',' s3 with
      | some r => skp r
      | none => s3
    (Res.unit (eat '}' s4)).bind fun _ s5 => .ok as s5

/-- type.cpp:64-67 `enum_type_parser` -/
def enumP (s : Str) : Res T :=
  (Res.unit (kw "enum".toList s)).bind fun _ s1 =>
    (bracesP (fun s => (Res.ofOption (identP (skp s))).bind fun n r => .ok n (skp r)) (skp s1)).bind fun ls r =>
      .ok (.enum ls {}) r

/-- type.cpp:74-77 `list_type_parser`, for a parser of types -/
def listP (p : Str → Res T) (s : Str) : Res T :=
  (Res.unit (kw "list".toList s)).bind fun _ s1 => (Res.unit (eat '<' (skp s1))).bind fun _ s2 =>
    (p (skp s2)).bind fun t s3 => (Res.unit (eat '>' (skp s3))).bind fun _ s4 => .ok (.list t {}) s4

/-- type.cpp:84-88 `map_type_parser` -/
def mapP (p : Str → Res T) (s : Str) : Res T :=
  (Res.unit (kw "map".toList s)).bind fun _ s1 => (Res.unit (eat '<' (skp s1))).bind fun _ s2 =>
    (p (skp s2)).bind fun k s3 => (Res.unit (eat ',' (skp s3))).bind fun _ s4 =>
      (p (skp s4)).bind fun v s5 => (Res.unit (eat '>' (skp s5))).bind fun _ s6 => .ok (.map k v {}) s6

/-- type.cpp:97 `field_name` -/
def fieldNameP (s : Str) : Option (Name × Str) := (identP s).or (quotedP '"' s)

/-- type.cpp:98: `skp >> field >> skp` -/
def fieldP (p : Str → Res T) (s : Str) : Res (Name × T) :=
  (Res.ofOption (fieldNameP (skp s))).bind fun n s1 => (Res.unit (eat ':' (skp s1))).bind fun _ s2 =>
    (p (skp s2)).bind fun t s3 => .ok (n, t) (skp s3)

/-- A vector of fields. -/
def Fs.ofList : List (Name × T) → Fs
  | [] => .nil
  | (n, t) :: l => .cons n t (ofList l)

/-- type.cpp:99-103 `record_type_parser` -/
def recordP (p : Str → Res T) (s : Str) : Res T :=
  (Res.unit (kw "record".toList s)).bind fun _ s1 =>
    (bracesP (fieldP p) (skp s1)).bind fun fs r => .ok (.record (.ofList fs) {}) r

/-- type.cpp:105-109 `placeholder_parser` -/
def refP (s : Str) : Res T := (Res.ofOption (identP s)).bind fun n r => .ok (.none ⟨n, []⟩) r

/-- type.cpp:110-118 `algebra_operand_parser`: if there is neither a record nor a name, the parser for expressions is
    called again (117), which calls the parser for operands first, and so on. -/
def operandP (p : Str → Res T) (s : Str) : Res T := ((recordP p s).orElse fun _ => refP s).orElse fun _ => .overflow

/-- type.cpp:138 a component of a `qualified_field_name` -/
def pathWordP (s : Str) : Option (Name × Str) := (plusOf (fun b => isAlnum b || b == 95) s).or (quotedP '"' s)

/-- type.cpp:137-138 `qualified_field_name`: the loop -/
def pathLoop : Nat → List Name → Str → List Name × Str
  | 0, acc, s => (acc, s)
  | n + 1, acc, s =>
    match (eat '.' s).bind pathWordP with
    | some (w, r) => pathLoop n (acc ++ [w]) r
    | none => (acc, s)

/-- type.cpp:129-139 `minus_parser`: the path as a record -/
def minusP (s : Str) : Res (Name × T) :=
  (Res.unit (eat '-' s)).bind fun _ s1 => (Res.ofOption (pathWordP (skp s1))).bind fun w s2 =>
    .ok ([45], .record (.ofList ((pathLoop s2.length [w] s2).1.map fun n => (n, .basic .bool {}))) {})
      (pathLoop s2.length [w] s2).2

/-- type.cpp:119-127: an operator and its right operand -/
def opP (p : Str → Res T) (op : List Char) (s : Str) : Res (Name × T) :=
  (Res.unit (kw op s)).bind fun _ s1 => (operandP p (skp s1)).bind fun t s2 => .ok (op.map ch, t) s2

/-- type.cpp:140-144 `algebra_parser` -/
def algebraP (p : Str → Res T) (s : Str) : Res (Name × T) :=
  (((opP p "+>".toList s).orElse fun _ => opP p "+".toList s).orElse fun _ => opP p "<+".toList s).orElse fun _ => minusP s

/-- type.cpp:146 `+(skp >> algebra_parser)`: the loop after the first operator -/
def algebraLoop (p : Str → Res T) : Nat → List (Name × T) → Str → Res (List (Name × T))
  | 0, _, _ => .stuck
  | n + 1, acc, s =>
    match algebraP p (skp s) with
    | .ok a r => algebraLoop p n (acc ++ [a]) r
    | .fail => .ok acc s
    | .overflow => .overflow
    | .stuck => .stuck

/-- type.cpp:146-156 `type_expr_parser` -/
def exprP (p : Str → Res T) (s : Str) : Res T :=
  (operandP p s).bind fun t s1 => (algebraP p (skp s1)).bind fun a s2 =>
    (algebraLoop p (s.length + 1) [a] s2).bind fun as s3 =>
      .ok (.record (.ofList (([], t) :: as)) ⟨[], [(algebraKey, none)]⟩) s3

/-- type.cpp:166-174 `type_type` before the attributes -/
def coreP (p : Str → Res T) (s : Str) : Res T :=
  (exprP p s).orElse fun _ => (Res.ofOption (basicP s)).orElse fun _ => (enumP s).orElse fun _ =>
    (listP p s).orElse fun _ => (mapP p s).orElse fun _ => (recordP p s).orElse fun _ => refP s

/-- type.cpp:166-176 `type_type`; the fuel bounds the nesting. -/
def typeP : Nat → Str → Res T
  | 0, _ => .stuck
  | n + 1, s => (coreP (typeP n) s).bind fun t r => .ok (t.update (attrsP r.length r).1) (attrsP r.length r).2

/-- schema.hpp:200-212 `to_type`: a type that has a name already is a reference and becomes an alias. -/
def define (n : Name) (t : T) : T := if t.name.isEmpty then t.setName n else .alias t ⟨n, []⟩

/-- schema.hpp:216-218 `decl` -/
def declP (s : Str) : Res (Name × T) :=
  (Res.unit (kw "type".toList s)).bind fun _ s1 => (Res.ofOption (identP (skp s1))).bind fun n s2 =>
    (Res.unit (eat '=' (skp s2))).bind fun _ s3 => (typeP (s.length + 1) (skp s3)).bind fun t s4 => .ok (n, define n t) s4

/-- schema.hpp:221: the loop of `+(skp >> decl)`; the symbols and whether there was a second definition of one (the
    first one stays) -/
def declLoop : Nat → List (Name × T) → Bool → Str → Res (List (Name × T) × Bool)
  | 0, _, _, _ => .stuck
  | n + 1, acc, dup, s =>
    match declP (skp s) with
    | .ok (k, t) r => if (assoc k acc).isSome then declLoop n acc true r else declLoop n (acc ++ [(k, t)]) dup r
    | .fail => .ok (acc, dup) s
    | .overflow => .overflow
    | .stuck => .stuck

/-- schema.hpp:190-228 `symbol_map_parser`, with the symbols that are there already; the whole text has to be read
    (core/parser.hpp:62-67). -/
def symbolsP (acc : List (Name × T)) (s : Str) : Res (List (Name × T)) :=
  (declP (skp s)).bind fun (k, t) s1 =>
    (declLoop (s.length + 1) (if (assoc k acc).isSome then acc else acc ++ [(k, t)]) (assoc k acc).isSome s1).bind
      fun r s2 => if r.2 = true ∨ skp s2 ≠ [] then .fail else .ok r.1 []

/-- schema.hpp:243-258 `schema_parser`: the schema, for the order `order` of the symbols in the hash table -/
def schemaP (order : List (Name × T) → List (Name × T)) (s : Str) : Res (R (List T)) :=
  (symbolsP [] s).bind fun symbols r => .ok ((resolve [] (order symbols)).bind fun x => .ok x.1) r

end Verif.SchemaText
