import Verif.Json.Model
import Verif.Zeek.Model
import Verif.SchemaText.Print
import Verif.Reader.LineSpec
/-!
# The `infer` command

Models `libvast/src/system/infer_command.cpp`: a schema out of the beginning of an input.  The printer of schemas is that of
`Verif.SchemaText`, the JSON parser and the types that it gives to numbers are those of `Verif.Json`, and the Zeek reader is
that of `Verif.Zeek`.
-/
namespace Verif.Infer
open Verif.Data Verif.DataText Verif.Json Verif.Json.Spec

/-- The type of a text (infer_command.cpp:82-93).  `parsers::net(x)` and so on have to consume all of the text. -/
def deduceText (env : Env) (s : Str) : Ty :=
  if (full netP s).isSome then .subnet
  else if (full addrP s).isSome then .address
  else if (full (ymdhmsP env) s).isSome then .time
  else if (full (durationP env) s).isSome then .duration
  else .string

/-- The type of a number (infer_command.cpp:76-81).  `simdjson` has no numbers that are too large. -/
def deduceNumber : Number → Ty
  | .int _ => .int
  | .uint _ => .count
  | .double _ => .real
  | .big => .none

mutual
/-- `deduce` (infer_command.cpp:62-101): the first element of an array says what its elements are; an object without members has
no type. -/
def deduce (env : Env) : Value → Ty
  | .arr xs => match xs with
    | [] => .list .none
    | x :: _ => .list (deduce env x)
  | .obj ns vs => match deduceFields env ns vs with
    | .nil => .none
    | .cons n t fs => .record (.cons n t fs)
  | .num n => deduceNumber (classify n)
  | .str s => deduceText env s
  | .bool _ => .bool
  | .null => .none
/-- The members of an object (infer_command.cpp:68-72). -/
def deduceFields (env : Env) : List Str → List Value → Fields
  | _, [] => .nil
  | [], _ :: _ => .nil
  | n :: ns, v :: vs => .cons n (deduce env v) (deduceFields env ns vs)
end

/-- `infer_json` (infer_command.cpp:103-125) without the name of the record, `json`: the fields of the record.  The text is
split at `\r\n`. -/
def inferJson (env : Env) (input : Str) : Option Fields :=
  match Zeek.splitAll input [13, 10] with
  | [] => none
  | l :: _ => match simdjson l with
    | none => none
    | some v => match deduce env v with
      | .record fs => some fs
      | _ => none

/-- What the command finds. -/
inductive Found where
  | zeek (h : Zeek.Header)
  | json (fs : Fields)
  | nothing

/-- `infer<format::zeek::reader>` (infer_command.cpp:46-60): the layout of the first event, if reading gets there without an
error. -/
def inferZeek (env : Env) (input : Str) : Option Zeek.Header :=
  ((Zeek.run env 1 ((Reader.linesOf input).map .line)).out.head?).map (·.1)

/-- `infer_command` (infer_command.cpp:134-167) on an input that is read up to the size of the buffer. -/
def infer (env : Env) (size : Nat) (input : Str) : Found :=
  match inferZeek env (input.take size) with
  | some h => .zeek h
  | none => match inferJson env (input.take size) with
    | some fs => .json fs
    | none => .nothing

/-- defaults.hpp:129 -/
def bufferSize : Nat := 8192

mutual
/-- A type of the JSON model, which has no names and attributes, as a type of the model of schemas. -/
def toT : Ty → SchemaText.T
  | .none => .none {}
  | .bool => .basic .bool {}
  | .int => .basic .int {}
  | .count => .basic .count {}
  | .real => .basic .real {}
  | .duration => .basic .duration {}
  | .time => .basic .time {}
  | .string => .basic .string {}
  | .pattern => .basic .pattern {}
  | .address => .basic .addr {}
  | .subnet => .basic .subnet {}
  | .enum ls => .enum ls {}
  | .list t => .list (toT t) {}
  | .map k v => .map (toT k) (toT v) {}
  | .record fs => .record (toFs fs) {}
  | .alias t => .alias (toT t) {}
/-- The same for fields. -/
def toFs : Fields → SchemaText.Fs
  | .nil => .nil
  | .cons n t fs => .cons n (toT t) (toFs fs)
end

/-- The record that is put into the schema (infer_command.cpp:120-123). -/
def layout (fs : Fields) : SchemaText.T := .record (toFs fs) ⟨str "json", []⟩

/-- `show` (infer_command.cpp:127-130) of a schema out of JSON. -/
def shown (fs : Fields) : Str := SchemaText.schemaText [layout fs]

end Verif.Infer
