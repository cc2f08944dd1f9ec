import Verif.Json.Parse
import Verif.Escape.Model
import Verif.Number.Model
/-!
# JSON export and import

Export: `libvast/vast/concept/printable/vast/json.hpp`, `libvast/vast/format/ostream_writer.hpp`, `libvast/src/format/json.cpp`
(writer).  Import: `libvast/src/format/json.cpp` (`convert`, `lookup`, `add`), `libvast/vast/format/json.hpp` (one line),
`libvast/vast/format/json/default_selector.hpp`.
-/
namespace Verif.Json
open Verif.Data Verif.DataText Verif.Calendar Verif.Json.Spec

mutual
/-- `vast::type` (vast/type.hpp) without names and attributes. -/
inductive Ty where
  | none | bool | int | count | real | duration | time | string | pattern | address | subnet
  | enum (labels : List Str)
  | list (t : Ty)
  | map (k v : Ty)
  | record (fs : Fields)
  | alias (t : Ty)
/-- The fields of a record type (vast/type.hpp `record_type`). -/
inductive Fields where
  | nil
  | cons (name : Str) (t : Ty) (rest : Fields)
end

/-! ## Export -/

/-- A string in quotes (json.hpp:100-103, `printers::escape(detail::json_escaper)`). -/
def jsonString (s : Str) : Str := 34 :: (Escape.escape Escape.jsonEscaper s ++ [34])

/-- `std::to_string` on integers. -/
def intText (i : Int) : Str := if i < 0 then ch '-' :: printNat i.natAbs else printNat i.natAbs

/-- `std::to_string(double)`, that is `%f`, without the sign: the exact value, rounded to six decimals, ties to even.  The
number is not negative. -/
def fixed (x : Rat) : Str :=
  let n := nearest (x.num.toNat * 10 ^ 6) x.den
  printNat (n / 10 ^ 6) ++ (ch '.' :: padNat 6 (n % 10 ^ 6))

/-- Without the zeros at the end (json.hpp:88, `find_last_not_of`). -/
def dropZeros (s : Str) : Str := (s.reverse.dropWhile (· == ch '0')).reverse

/-- A finite number without its sign (json.hpp:80-89). -/
def realAbs (x : Rat) : Str := if x.den = 1 then (fixed x).takeWhile (· != ch '.') else dropZeros (fixed x)

/-- A floating-point number (json.hpp:75-90).  There is no negative zero in the model. -/
def jsonReal : Real → Str
  | .fin x => if x < 0 then ch '-' :: realAbs (-x) else realAbs x
  | _ => Spec.ascii "null"

/-- A duration in seconds (src/time.cpp:17-28). -/
def seconds (d : Int) : Real := .fin (rnd (rnd d / 10 ^ 9))

/-- `print_array` (json.hpp:127-157), one line. -/
def jsonArray (ts : List Str) : Str := ch '[' :: (join comma ts ++ [ch ']'])

/-- One member of an object. -/
def jsonMember (k v : Str) : Str := k ++ (ch ':' :: ch ' ' :: v)

/-- `print_object` (json.hpp:167-206), one line. -/
def jsonObject (ks vs : List Str) : Str := ch '{' :: (join comma (List.zipWith jsonMember ks vs) ++ [ch '}'])

mutual
/-- `json_printer<oneline, ...>::print_visitor` (json.hpp:46-230) with durations as numbers or as text; `none` is undefined
behaviour. -/
def jsonData (numeric : Bool) : Data → Option Str
  | .none => some (Spec.ascii "null")
  | .bool b => some (Spec.ascii (if b then "true" else "false"))
  | .int i => some (intText i)
  | .count n => some (printNat n)
  | .real r => some (jsonReal r)
  | .duration d => if numeric then some (jsonReal (seconds d)) else (Number.printDuration d).map fun t => 34 :: (t ++ [34])
  | .time t => some (34 :: (printTime t ++ [34]))
  | .string s => some (jsonString s)
  | .pattern s => some (jsonString s)
  | .address a => some (jsonString (printAddr a))
  | .subnet n => some (jsonString (printNet n))
  | .enum n => some (printNat n)
  | .list xs => (jsonAll numeric xs).map jsonArray
  | .map ks vs => match jsonAll numeric ks, jsonAll numeric vs with
    | some kt, some vt => some (jsonObject kt vt)
    | _, _ => none
  | .record ns vs => (jsonAll numeric vs).map (jsonObject (ns.map jsonString))
/-- The texts of several values. -/
def jsonAll (numeric : Bool) : List Data → Option (List Str)
  | [] => some []
  | x :: xs => match jsonData numeric x, jsonAll numeric xs with
    | some t, some ts => some (t :: ts)
    | _, _ => none
end

/-- `to_canonical` (src/view.cpp:329-339): enumerations become their labels. -/
def canonical : Ty → Data → Data
  | .enum labels, .enum n => match labels[n]? with
    | some s => .string s
    | none => .none
  | _, x => x

mutual
/-- The value of a field (ostream_writer.hpp:76-86, 93-104): a column or, for a record, an object.  The result has the columns
left. -/
def writeType (numeric : Bool) : Ty → List Data → Option (Str × List Data)
  | .record fs, row => match writeFields numeric fs row with
    | some (ns, ts, r) => some (jsonObject ns ts, r)
    | none => none
  | _, [] => none
  | t, x :: row => match jsonData numeric (canonical t x) with
    | some text => some (text, row)
    | none => none
/-- The fields of a record (ostream_writer.hpp:89-105): names and values. -/
def writeFields (numeric : Bool) : Fields → List Data → Option (List Str × List Str × List Data)
  | .nil, row => some ([], [], row)
  | .cons name t rest, row => match writeType numeric t row with
    | none => none
    | some (text, row') => match writeFields numeric rest row' with
      | none => none
      | some (ns, ts, r) => some (jsonString name :: ns, text :: ts, r)
end

/-- `a` behind `b`. -/
def Fields.append : Fields → Fields → Fields
  | .nil, b => b
  | .cons n t a, b => .cons n t (a.append b)

mutual
/-- A field of `flatten(record_type)` (src/type.cpp:611-618). -/
def flatField (name : Str) : Ty → Fields
  | .record fs => flatten (name ++ [ch '.']) fs
  | t => .cons name t .nil
/-- `flatten(record_type)` (src/type.cpp:607-620), with a prefix for the names. -/
def flatten (pre : Str) : Fields → Fields
  | .nil => .nil
  | .cons n t rest => (flatField (pre ++ n) t).append (flatten pre rest)
end

/-- The options `vast.export.json.flatten` and `vast.export.json.numeric-durations` (src/format/json.cpp:422-427). -/
structure Options where
  flat : Bool
  numeric : Bool

/-- One event (ostream_writer.hpp:129-146, src/format/json.cpp:429-440). -/
def writeRow (o : Options) (layout : Fields) (row : List Data) : Option Str :=
  match writeFields o.numeric (if o.flat then flatten [] layout else layout) row with
  | some (ns, ts, _) => some (jsonObject ns ts ++ [10])
  | none => none

/-- A table slice (ostream_writer.hpp:136-145). -/
def writeSlice (o : Options) (layout : Fields) : List (List Data) → Option Str
  | [] => some []
  | row :: rows => match writeRow o layout row, writeSlice o layout rows with
    | some a, some b => some (a ++ b)
    | _, _ => none

/-! ## Import -/

/-- The types that `simdjson` gives to numbers. -/
inductive Number where
  | int (i : Int)
  | uint (n : Nat)
  | double (x : Rat)
  | big

/-- The type and value of a number: without point and exponent a signed or, if need be, an unsigned integer of 64 bits; else
the nearest `double` (there are no subnormal numbers in the model), unless that is infinite. -/
def classify (n : Num) : Number :=
  if n.frac = [] ∧ n.exp = none then
    let v := value n.int
    if n.neg then (if v ≤ 2 ^ 63 then .int (-(v : Int)) else .big)
    else if v < 2 ^ 63 then .int v else if v < 2 ^ 64 then .uint v else .big
  else if -(2 ^ 1024 - 2 ^ 970) < n.value ∧ n.value < 2 ^ 1024 - 2 ^ 970 then .double (rnd n.value) else .big

mutual
/-- Numbers that are too large make `simdjson` refuse the document. -/
def fits : Value → Bool
  | .num n => match classify n with
    | .big => false
    | _ => true
  | .arr xs => fitsAll xs
  | .obj _ vs => fitsAll vs
  | _ => true
/-- The same for several values. -/
def fitsAll : List Value → Bool
  | [] => true
  | v :: vs => fits v && fitsAll vs
end

/-- `json_parser_.parse(line)` (vast/format/json.hpp:185). -/
def simdjson (s : Str) : Option Value :=
  match document s with
  | some v => if fits v then some v else none
  | none => none

/-- A parser has to consume all of its input (concept/parseable/core/parser.hpp:56-69). -/
def full (p : P α) (s : Str) : Option α :=
  match p s with
  | some (x, []) => some x
  | _ => none

/-- `hex_prefix >> hex64` (numeric/integral.hpp:152-156). -/
def hexP : P Nat := fun s =>
  match (kw ['0', 'x'] s).or (kw ['0', 'X'] s) with
  | none => none
  | some r =>
    let ds := (r.take 16).takeWhile isXDigit
    if ds = [] then none else some (ds.foldl (fun a b => a * 16 + hexVal b) 0, r.drop ds.length)

/-- `parsers::json_count` (parseable/vast/json.hpp:29-31); `u64` takes at most 20 digits and wraps around. -/
def jsonCountP : P Nat := fun s => (hexP s).or (uintP 64 20 1 s)

/-- `parsers::json_number` (parseable/vast/json.hpp:32-35). -/
def jsonNumberP (env : Env) : P Real := fun s =>
  match hexP s with
  | some (n, r) => some (.fin (rnd n), r)
  | none => (realP false s).map fun x => (env.real x.1, x.2)

/-- The conversion of a `double` to an integer; undefined out of range, left to the environment. -/
def narrow (env : Env) : Real → Int
  | .fin x => env.int64 (trunc x)
  | .nan => env.overflow 0
  | .posInf => env.overflow (2 ^ 63)
  | .negInf => env.overflow (-(2 ^ 63) - 1)

/-- The same for `uint64_t`. -/
def narrowCount (env : Env) : Real → Nat
  | .fin x => if 0 ≤ trunc x ∧ trunc x < 2 ^ 64 then (trunc x).toNat else (env.overflow (trunc x)).toNat % 2 ^ 64
  | _ => (env.overflow 0).toNat % 2 ^ 64

/-- Seconds as nanoseconds (`to_duration_convert_impl`, src/format/json.cpp:179-183). -/
def fromSeconds (env : Env) (x : Rat) : Int := env.int64 (trunc (rnd (rnd x * 10 ^ 9)))

/-- Conversions from numbers (src/format/json.cpp:116-121, 137-142, 157-168, 177-219, 226-242).  The text of the least
`int64_t` is taken to be its digits. -/
def convertNumber (env : Env) : Number → Ty → Option Data
  | .int i, .int => some (.int i)
  | .int i, .count => some (.count (i % 2 ^ 64).toNat)
  | .uint n, .count => some (.count n)
  | .int i, .real => some (.real (.fin (rnd i)))
  | .uint n, .real => some (.real (.fin (rnd n)))
  | .double x, .real => some (.real (.fin x))
  | .int i, .duration => some (.duration (fromSeconds env i))
  | .uint n, .duration => some (.duration (fromSeconds env n))
  | .double x, .duration => some (.duration (fromSeconds env x))
  | .int i, .time => some (.time (fromSeconds env i))
  | .uint n, .time => some (.time (fromSeconds env n))
  | .double x, .time => some (.time (fromSeconds env x))
  | .int i, .string => some (.string (intText i))
  | .uint n, .string => some (.string (printNat n))
  | .double x, .string => some (.string (env.printReal (.fin x)))
  | _, _ => none

/-- Conversions from strings (src/format/json.cpp:80-99, 104-113, 123-134, 144-155, 170-176, 244-259). -/
def convertString (env : Env) (s : Str) : Ty → Option Data
  | .bool => if s = Spec.ascii "true" then some (.bool true) else if s = Spec.ascii "false" then some (.bool false) else none
  | .int => match full (int64P env) s with
    | some i => some (.int i)
    | none => (full (jsonNumberP env) s).map fun x => .int (narrow env x)
  | .count => match full jsonCountP s with
    | some n => some (.count n)
    | none => (full (jsonNumberP env) s).map fun x => .count (narrowCount env x)
  | .real => (full (jsonNumberP env) s).map .real
  | .duration => (full (durationP env) s).map .duration
  | .time => (full (timeP env) s).map .time
  | .string => some (.string s)
  | .pattern => (full (quotedP '/') s).map .pattern
  | .address => (full addrP s).map .address
  | .subnet => (full netP s).map .subnet
  | .enum labels => (labels.idxOf? s).map fun i => .enum (i % 256)
  | _ => none

/-- Conversions from booleans (src/format/json.cpp:82-85, 220-224). -/
def convertBool (b : Bool) : Ty → Option Data
  | .bool => some (.bool b)
  | .string => some (.string [if b then ch 'T' else ch 'F'])
  | _ => none

/-- `record_type::find` (src/type.cpp:309-313). -/
def Fields.find (k : Str) : Fields → Option Ty
  | .nil => none
  | .cons n t rest => if n = k then some t else rest.find k

/-- `xs[key] = value` on a map (src/format/json.cpp:291, `vast/detail/vector_map.hpp`): keys are in order, and a later value
replaces an earlier one. -/
def mapSet (k v : Data) : List (Data × Data) → List (Data × Data)
  | [] => [(k, v)]
  | (k', v') :: xs => if k'.lt k then (k', v') :: mapSet k v xs
    else if k.lt k' then (k, v) :: (k', v') :: xs else (k', v) :: xs

/-- A map out of its entries. -/
def mapOf (es : List (Data × Data)) : Data :=
  .map ((es.foldl (fun m e => mapSet e.1 e.2 m) []).map Prod.fst) ((es.foldl (fun m e => mapSet e.1 e.2 m) []).map Prod.snd)

mutual
/-- `convert` (src/format/json.cpp:377-397); `none` is an error. -/
def convert (env : Env) : Value → Ty → Option Data
  | .null, _ => some .none
  | .bool b, t => convertBool b t
  | .num n, t => convertNumber env (classify n) t
  | .str s, t => convertString env s t
  | .arr xs, t => match t with
    | .list e => (convertAll env xs e).map .list
    | _ => none
  | .obj ns vs, t => match t with
    | .map k e => (convertEntries env ns vs k e).map mapOf
    | .record fs => (convertMembers env ns vs fs).map mkRecord
    | _ => none
/-- The elements of an array (src/format/json.cpp:261-274): an error in one is an error of the whole. -/
def convertAll (env : Env) : List Value → Ty → Option (List Data)
  | [], _ => some []
  | x :: xs, t => match convert env x t, convertAll env xs t with
    | some d, some ds => some (d :: ds)
    | _, _ => none
/-- The entries of a map (src/format/json.cpp:276-293). -/
def convertEntries (env : Env) : List Str → List Value → Ty → Ty → Option (List (Data × Data))
  | _, [], _, _ => some []
  | [], _ :: _, _, _ => some []
  | n :: ns, v :: vs, k, t => match convertString env n k, convert env v t, convertEntries env ns vs k t with
    | some a, some b, some es => some ((a, b) :: es)
    | _, _, _ => none
/-- The members of a record (src/format/json.cpp:295-313). -/
def convertMembers (env : Env) : List Str → List Value → Fields → Option (List (Str × Data))
  | _, [], _ => some []
  | [], _ :: _, _ => some []
  | n :: ns, v :: vs, fs => match fs.find n with
    | none => none
    | some t => match convert env v t, convertMembers env ns vs fs with
      | some b, some es => some ((n, b) :: es)
      | _, _ => none
end

/-- `object::at_key`: the first member of that name. -/
def atKey (k : Str) : List Str → List Value → Option Value
  | n :: ns, v :: vs => if n = k then some v else atKey k ns vs
  | _, _ => none

/-- The parts of a name at its first dot (src/format/json.cpp:402-412). -/
def splitDot : Str → Option (Str × Str)
  | [] => none
  | b :: s => if b = ch '.' then some ([], s) else (splitDot s).map fun x => (b :: x.1, x.2)

/-- `lookup` (src/format/json.cpp:399-420).  Every step takes a character of the name. -/
def lookup : Nat → Str → List Str → List Value → Option Value
  | 0, _, _, _ => none
  | f + 1, key, ns, vs => match splitDot key with
    | none => atKey key ns vs
    | some (a, b) => match atKey a ns vs with
      | none => atKey key ns vs
      | some (.obj ns' vs') => lookup f b ns' vs'
      | some _ => none

mutual
/-- `record_type::each` (src/type.cpp:195-230) with `key()` and the type of each leaf: the field of that name and type. -/
def leafOf (name : Str) : Ty → List (Str × Ty)
  | .record fs => leaves (name ++ [ch '.']) fs
  | t => [(name, t)]
/-- All leaves of a record, with a prefix for the names.  A record without fields has no leaf (the code would read beyond its
fields). -/
def leaves (pre : Str) : Fields → List (Str × Ty)
  | .nil => []
  | .cons n t rest => leafOf (pre ++ n) t ++ leaves pre rest
end

mutual
/-- `type_check` (src/type.cpp:922-967, src/view.cpp). -/
def typeCheck : Data → Ty → Bool
  | x, .alias t => match x with
    | .none => true
    | x => typeCheck x t
  | .none, _ => true
  | .bool _, .bool => true
  | .int _, .int => true
  | .count _, .count => true
  | .real _, .real => true
  | .duration _, .duration => true
  | .time _, .time => true
  | .string _, .string => true
  | .pattern _, .pattern => true
  | .address _, .address => true
  | .subnet _, .subnet => true
  | .enum n, .enum labels => decide (n < labels.length)
  | .list xs, .list t => match xs with
    | [] => true
    | x :: _ => typeCheck x t
  | .map ks vs, .map k v => match ks, vs with
    | a :: _, b :: _ => typeCheck a k && typeCheck b v
    | _, _ => true
  | .record ns vs, .record fs => typeCheckFields ns vs fs
  | _, .none => true
  | _, _ => false
/-- The fields of a record: the same names in the same order. -/
def typeCheckFields : List Str → List Data → Fields → Bool
  | [], [], .nil => true
  | n :: ns, v :: vs, .cons m t rest => (n == m) && typeCheck v t && typeCheckFields ns vs rest
  | _, _, _ => false
end

/-- The outcome of adding one event: a row and whether all of its fields were converted, or `type_clash`. -/
inductive Added where
  | row (xs : List Data) (complete : Bool)
  | clash

/-- One field of `add` (src/format/json.cpp:449-465): the value, and whether there was no conversion error. -/
def addField (env : Env) (key : Str) (t : Ty) (ns : List Str) (vs : List Value) : Data × Bool :=
  match lookup (key.length + 1) key ns vs with
  | none => (.none, true)
  | some v => match convert env v t with
    | some d => (d, true)
    | none => (.none, false)

/-- `add` (src/format/json.cpp:446-473). -/
def addLeaves (env : Env) (ns : List Str) (vs : List Value) : List (Str × Ty) → Added
  | [] => .row [] true
  | (key, t) :: rest =>
    let x := addField env key t ns vs
    if typeCheck x.1 t then
      match addLeaves env ns vs rest with
      | .row xs ok => .row (x.1 :: xs) (x.2 && ok)
      | .clash => .clash
    else .clash

/-- One line for a reader with one type (vast/format/json.hpp:178-224): `none` if the line is skipped. -/
def readLine (env : Env) (layout : Fields) (line : Str) : Option Added :=
  match simdjson line with
  | some (.obj ns vs) => some (addLeaves env ns vs (leaves [] layout))
  | _ => none

/-! ## The selector -/

mutual
/-- `make_names_layout_impl` (default_selector.hpp:31-43): the dotted names of everything but objects. -/
def namesOf (name : Str) : Value → List Str
  | .obj ns vs => memberNames (name ++ [ch '.']) ns vs
  | _ => [name]
/-- The members of an object. -/
def memberNames (pre : Str) : List Str → List Value → List Str
  | _, [] => []
  | [], _ :: _ => []
  | n :: ns, v :: vs => namesOf (pre ++ n) v ++ memberNames pre ns vs
end

/-- `operator<` on strings. -/
def strLe (a b : Str) : Bool := !(strCmp b a).1

/-- `std::sort` on strings. -/
def sortNames (ns : List Str) : List Str := ns.mergeSort strLe

/-- The names of the fields at the top (default_selector.hpp:77-79). -/
def Fields.names : Fields → List Str
  | .nil => []
  | .cons n _ rest => n :: rest.names

/-- The cache: `flat_map`; the first entry of a key stays (default_selector.hpp:69-84).  The order of keys matters only for
`schema()`, so that the model keeps the order of insertion. -/
def cacheOf : List Fields → List (List Str × Fields) → List (List Str × Fields)
  | [], cache => cache
  | l :: ls, cache =>
    cacheOf ls (if cache.any (fun e => e.1 == sortNames l.names) then cache else cache ++ [(sortNames l.names, l)])

/-- `operator()` (default_selector.hpp:55-67). -/
def select (cache : List (List Str × Fields)) (ns : List Str) (vs : List Value) : Option Fields :=
  match cache with
  | [] => none
  | [e] => some e.2
  | _ => (cache.find? fun e => e.1 == sortNames (memberNames [] ns vs)).map (·.2)

end Verif.Json
