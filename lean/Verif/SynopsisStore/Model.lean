import Verif.Number.Model
import Verif.Synopsis.Model
import Verif.MetaIndex.Model
/-!
# What is stored about a partition

Models how synopses are made for the columns of a partition (`libvast/vast/{address,string}_synopsis.hpp`,
`src/synopsis_factory.cpp`, `src/bloom_filter_parameters.cpp`, `src/bloom_filter_synopsis.cpp`), how they are shrunk
(`vast/buffered_synopsis.hpp`), written and read again (`src/synopsis.cpp`, `src/partition_synopsis.cpp`,
`src/system/index.cpp:126-153`).  The synopses themselves are those of `Verif.Synopsis`.

Bytes are not modelled: what is written is a structured value, from which the reader takes the same parts in the same order.  A
`double` is a rational number (`Verif.Calendar.Double`); rates are finite.
-/
namespace Verif.SynopsisStore
open Verif.Data Verif.DataText Verif.Calendar Verif.Synopsis

/-- The result of a call: an error is reported to the caller; a violated assertion (they are enabled unless VAST is built for release,
CMakeLists.txt:346-351) and undefined behaviour are not. -/
inductive Res (α : Type) where
  | ok (a : α)
  | error
  | abort
  | undefined

/-- Continue after a success. -/
def Res.bind {α β : Type} : Res α → (α → Res β) → Res β
  | .ok a, f => f a
  | .error, _ => .error
  | .abort, _ => .abort
  | .undefined, _ => .undefined

/-- Concrete types, as far as the factory tells them apart (synopsis_factory.cpp:19-24). -/
inductive Kind where
  | none | bool | time | string | address
  | other (id : Nat)
deriving DecidableEq

/-- `type`: its concrete type, for an alias that of the aliased type (synopsis_factory.hpp:33-42); its name and its attributes. -/
structure Ty where
  kind : Kind
  alias : Bool
  name : Str
  attrs : List (Str × Option Str)
deriving DecidableEq

/-- `.attributes({})` -/
def Ty.clean (t : Ty) : Ty := { t with attrs := [] }

/-- `caf::holds_alternative<string_type>` -/
def Ty.isString (t : Ty) : Bool := t.kind = .string && !t.alias

/-- `has_skip_attribute` (type.cpp) -/
def Ty.skip (t : Ty) : Bool := t.attrs.any fun a => a.1 = str "skip"

/-! ### Parameters -/

/-- What the model leaves open: the floating-point functions of `evaluate` (bloom_filter_parameters.cpp:47-56), from capacity and rate to
the numbers of cells and hash functions, `none` if the conversion to an integer is undefined; and the hash function. -/
structure Env where
  arith : Nat → Rat → Option (Nat × Nat)
  seeded : Nat → Data → Nat

/-- `std::to_string(double)`: six digits after the point, the exact value rounded to the nearest, ties to even. -/
def sixDigits (p : Rat) : Str :=
  let i := nearest (p.num.natAbs * 10 ^ 6) p.den
  (if p < 0 then [ch '-'] else []) ++ printNat (i / 10 ^ 6) ++ (ch '.' :: padNat 6 (i % 10 ^ 6))

/-- `annotate_parameters` (bloom_filter_synopsis.cpp:15-21): replaces all attributes. -/
def annotate (t : Ty) (n : Nat) (p : Rat) : Ty :=
  { t with attrs := [(str "synopsis", some (str "bloomfilter(" ++ printNat n ++ [ch ','] ++ sixDigits p ++ [ch ')']))] }

/-- `parse_parameters` for a text (bloom_filter_parameters.cpp:76-86): the whole text must be read. -/
def parseText (s : Str) : Option (Nat × Rat) :=
  (kw "bloomfilter(".toList s).bind fun s => (uintP 64 20 1 s).bind fun (n, s) => (eat ',' s).bind fun s =>
    (realP false s).bind fun (l, s) => (eat ')' s).bind fun s => if s = [] then some (n, litVal l) else none

/-- `parse_parameters` for a type (bloom_filter_synopsis.cpp:23-32): the first attribute `synopsis` with a value. -/
def parameters (t : Ty) : Option (Nat × Rat) :=
  (t.attrs.find? fun a => a.1 = str "synopsis" && a.2.isSome).bind fun a => a.2.bind parseText

/-- `bloom_filter<xxhash64>` with the parts that are written (bloom_filter.hpp:103-114, hasher.hpp:73-89 and 182-186). -/
structure Filter where
  k : Nat
  seed1 : Nat
  seed2 : Nat
  bits : List Bool

/-- The filter with its hash functions. -/
def Filter.bloom (env : Env) (f : Filter) : Bloom Data := ⟨doubleHasher env.seeded f.k f.seed1 f.seed2, .no, f.bits⟩

/-- `make_bloom_filter` with `evaluate` (bloom_filter.hpp:149-173, bloom_filter_parameters.cpp:23-56) for a capacity and a rate, without
seeds.  `none` is a null pointer. -/
def makeFilter (env : Env) (n : Nat) (p : Rat) : Res (Option Filter) :=
  if n = 0 ∨ p < 0 ∨ p > 1 then .ok none
  else match env.arith n p with
    | none => .undefined
    | some (m, k) => if m = 0 ∨ k = 0 then .ok none else .ok (some ⟨k, 0, 1, List.replicate m false⟩)

/-! ### Synopses -/

/-- A synopsis with its type. -/
inductive Syn where
  | time (t : Ty) (s : MinMax)
  | bool (t : Ty) (s : BoolSyn)
  | bloom (t : Ty) (f : Filter)
  | buffered (t : Ty) (p : Rat) (data : List Data)

/-- The element type of a Bloom filter synopsis. -/
def Ty.elem (t : Ty) : Elem := if t.kind = .string then .string else .address

/-- The options in `caf::settings`: `max-partition-size`, the two rates and `buffer-input-data`. -/
structure Opts where
  cap : Option Nat
  stringRate : Option Rat
  addressRate : Option Rat
  buffered : Bool

/-- `caf::settings{}` -/
def noOpts : Opts := ⟨none, none, none, false⟩

/-- `make_{address,string}_synopsis` with parameters (address_synopsis.hpp:86-97, string_synopsis.hpp:86-97). -/
def makeWith (env : Env) (t : Ty) (n : Nat) (p : Rat) : Res (Option Syn) :=
  if t.alias then .abort else (makeFilter env n p).bind fun f => .ok (f.map (Syn.bloom t))

/-- `make_{address,string}_synopsis` with options (address_synopsis.hpp:123-151, string_synopsis.hpp:123-151).  The default of both rates
is 0.01 (defaults.hpp:254-257). -/
def makeBloomed (env : Env) (cap : Option Nat) (rate : Option Rat) (buffered : Bool) (t : Ty) : Res (Option Syn) :=
  if t.alias then .abort
  else match parameters t with
    | some (n, p) => makeWith env t n p
    | none => match cap with
      | none => .ok none
      | some n =>
        let p := rate.getD (rnd (1 / 100))
        if buffered then .ok (some (.buffered t p [])) else makeWith env (annotate t n p) n p

/-- `factory<synopsis>::make` (synopsis_factory.cpp:19-24; the assertion for Booleans is in bool_synopsis.cpp:17-19).  There is none for other
types. -/
def make (env : Env) (o : Opts) (t : Ty) : Res (Option Syn) :=
  match t.kind with
  | .bool => if t.alias then .abort else .ok (some (.bool t BoolSyn.initial))
  | .time => .ok (some (.time t MinMax.initial))
  | .string => makeBloomed env o.cap o.stringRate o.buffered t
  | .address => makeBloomed env o.cap o.addressRate o.buffered t
  | _ => .ok none

/-- `synopsis::add`.  Values of another type violate an assertion. -/
def Syn.add (env : Env) : Syn → Data → Res Syn
  | .time t s, .time x => .ok (.time t (s.add x))
  | .bool t s, .bool x => .ok (.bool t (s.add x))
  | .bloom t f, x => if t.elem.holds x then
      match (f.bloom env).add x with
      | none => .undefined
      | some (_, b) => .ok (.bloom t { f with bits := b.bits })
    else .abort
  | .buffered t p data, x => if t.elem.holds x then .ok (.buffered t p (bufferedAdd data x)) else .abort
  | _, _ => .abort

/-- Adding several values. -/
def Syn.addAll (env : Env) : Syn → List Data → Res Syn
  | s, [] => .ok s
  | s, x :: xs => (s.add env x).bind fun s => s.addAll env xs

/-- `synopsis::lookup`.  The outer `none` is undefined behaviour. -/
def Syn.lookup (env : Env) : Syn → RelOp → Data → Option (Option Bool)
  | .time _ s, op, x => some (s.lookup op x)
  | .bool _ s, op, x => some (s.lookup op x)
  | .bloom t f, op, x => bloomLookup t.elem (f.bloom env) op x
  | .buffered t _ data, op, x => bufferedLookup t.elem data op x

/-- `synopsis::shrink` and its use (buffered_synopsis.hpp:47-66, partition_synopsis.cpp:17-26): what cannot be shrunk is kept. -/
def Syn.shrink (env : Env) : Syn → Res Syn
  | .buffered t p data =>
    let n := nextPowerOfTwo data.length 1
    (makeWith env (annotate t n p) n p).bind fun
      | none => .ok (.buffered t p data)
      | some s => s.addAll env data
  | s => .ok s

/-! ### The synopses of a partition -/

/-- `qualified_record_field` -/
structure Field where
  layout : Str
  name : Str
  type : Ty
deriving DecidableEq

/-- `partition_synopsis`; `none` is a null pointer. -/
structure PartSyn where
  fields : List (Field × Option Syn)
  types : List (Ty × Option Syn)

/-- A column of a slice: the name and the type of the field, and the values. -/
structure Column where
  name : Str
  type : Ty
  values : List Data

/-- A table slice. -/
structure Slice where
  layout : Str
  columns : List Column

/-- `make_synopsis` (partition_synopsis.cpp:39-42) -/
def makeSynopsis (env : Env) (o : Opts) (t : Ty) : Res (Option Syn) := if t.skip then .ok none else make env o t

/-- `add_column` (partition_synopsis.cpp:48-57), if there is a synopsis. -/
def addColumn (env : Env) (values : List Data) : Option Syn → Res (Option Syn)
  | none => .ok none
  | some s => (s.addAll env (values.filter fun x => match x with | .none => false | _ => true)).bind fun s => .ok (some s)

/-- What is found, or else a new synopsis (partition_synopsis.cpp:61-65 and 74-77). -/
def orMake (env : Env) (o : Opts) (t : Ty) : Option (Option Syn) → Res (Option Syn)
  | some s => .ok s
  | none => makeSynopsis env o t

/-- The loop over the columns (partition_synopsis.cpp:46-81). -/
def PartSyn.addColumn (env : Env) (o : Opts) (layout : Str) (x : PartSyn) (c : Column) : Res PartSyn :=
  let key : Field := ⟨layout, c.name, c.type⟩
  if c.type.isString then
    (orMake env o c.type (MetaIndex.find c.type.clean x.types)).bind fun s =>
    (SynopsisStore.addColumn env c.values s).bind fun s =>
      .ok ⟨MetaIndex.assign key none x.fields, MetaIndex.assign c.type.clean s x.types⟩
  else
    (orMake env o c.type (MetaIndex.find key x.fields)).bind fun s =>
    (SynopsisStore.addColumn env c.values s).bind fun s => .ok { x with fields := MetaIndex.assign key s x.fields }

/-- A loop whose body may fail. -/
def foldRes {α β : Type} (f : β → α → Res β) : β → List α → Res β
  | b, [] => .ok b
  | b, a :: l => (f b a).bind fun b => foldRes f b l

/-- `partition_synopsis::add` (partition_synopsis.cpp:37-82) -/
def PartSyn.add (env : Env) (o : Opts) (x : PartSyn) (s : Slice) : Res PartSyn :=
  foldRes (PartSyn.addColumn env o s.layout) x s.columns

/-- The slices that an active partition gets (partition.cpp:412-416 and 444). -/
def filled (env : Env) (o : Opts) (slices : List Slice) : Res PartSyn :=
  foldRes (PartSyn.add env { o with buffered := true }) ⟨[], []⟩ slices

/-- A loop over the entries of a map. -/
def mapRes {κ α β : Type} (f : α → Res β) : List (κ × α) → Res (List (κ × β))
  | [] => .ok []
  | (k, a) :: l => (f a).bind fun b => (mapRes f l).bind fun l => .ok ((k, b) :: l)

/-- The body of the loops of `partition_synopsis::shrink`. -/
def shrinkOne (env : Env) : Option Syn → Res (Option Syn)
  | none => .ok none
  | some s => (s.shrink env).bind fun s => .ok (some s)

/-- `partition_synopsis::shrink` (partition_synopsis.cpp:17-35) -/
def PartSyn.shrink (env : Env) (x : PartSyn) : Res PartSyn :=
  (mapRes (shrinkOne env) x.fields).bind fun fields => (mapRes (shrinkOne env) x.types).bind fun types => .ok ⟨fields, types⟩

/-! ### Writing and reading -/

/-- `fbs::synopsis::v0`.  In `raw`, there is a type and what `serialize` writes, or the type of a null pointer. -/
inductive Packed where
  | bool (anyTrue anyFalse : Bool)
  | time (min max : Int)
  | raw (content : Option (Ty × Filter))

/-- `pack` of a synopsis (synopsis.cpp:79-113); `serialize` (synopsis.cpp:44-52, bloom_filter_synopsis.hpp:82-84): the number of hash functions
is written with 32 bits (hasher.hpp:75-78).  Buffered synopses cannot be written (buffered_synopsis.hpp:99-103). -/
def packOne : Option Syn → Res Packed
  | none => .ok (.raw none)
  | some (.time _ s) => .ok (.time s.min s.max)
  | some (.bool _ s) => .ok (.bool s.anyTrue s.anyFalse)
  | some (.bloom t f) => .ok (.raw (some (t, { f with k := f.k % 2 ^ 32 })))
  | some (.buffered _ _ _) => .error

/-- `unpack` of a synopsis (synopsis.cpp:115-135) and `deserialize` (54-75): a new synopsis is made for the type, without options. -/
def unpackOne (env : Env) : Packed → Res (Option Syn)
  | .bool t f => .ok (some (.bool ⟨.bool, false, [], []⟩ ⟨t, f⟩))
  | .time min max => .ok (some (.time ⟨.time, false, [], []⟩ ⟨min, max⟩))
  | .raw none => .ok none
  | .raw (some (t, f)) => (make env noOpts t).bind fun
      | some (.bloom t _) => if f.k = 0 then .error else .ok (some (.bloom t f))
      | _ => .error

/-- The name of a type synopsis in a file (partition_synopsis.cpp:102-103). -/
def typeField (t : Ty) : Field := ⟨[], [], t⟩

/-- `pack` of the synopses of a partition (partition_synopsis.cpp:92-114) -/
def PartSyn.pack (x : PartSyn) : Res (List (Field × Packed)) :=
  (mapRes packOne x.fields).bind fun fields =>
    (mapRes packOne (x.types.map fun e => (typeField e.1, e.2))).bind fun types => .ok (fields ++ types)

/-- The body of the loop of `unpack` (partition_synopsis.cpp:120-133) -/
def unpackStep (env : Env) (x : PartSyn) (e : Field × Packed) : Res PartSyn :=
  (unpackOne env e.2).bind fun s =>
    .ok (if e.1.name ≠ [] then { x with fields := MetaIndex.assign e.1 s x.fields }
      else { x with types := MetaIndex.assign e.1.type s x.types })

/-- `unpack` of the synopses of a partition (partition_synopsis.cpp:116-135) -/
def unpack (env : Env) (file : List (Field × Packed)) : Res PartSyn := foldRes (unpackStep env) ⟨[], []⟩ file

/-- The loop of `unpack`, when its error is ignored: what was read before the error stays. -/
def unpackSome (env : Env) : PartSyn → List (Field × Packed) → Res PartSyn
  | x, [] => .ok x
  | x, e :: file => match unpackStep env x e with
    | .ok x => unpackSome env x file
    | .error => .ok x
    | .abort => .abort
    | .undefined => .undefined

/-- `extract_partition_synopsis` (index.cpp:126-153): from the file of a partition, the file with its synopses.  The error of `unpack` is
ignored (141); a failing `pack` would be dereferenced (143). -/
def extract (env : Env) (file : List (Field × Packed)) : Res (List (Field × Packed)) :=
  (unpackSome env ⟨[], []⟩ file).bind fun x => match x.pack with
    | .ok file => .ok file
    | .error => .undefined
    | .abort => .abort
    | .undefined => .undefined

/-- What the catalog can ask: the fields, the types, and the answers of their synopses. -/
def PartSyn.answers (env : Env) (x : PartSyn) : MetaIndex.PartSyn Ty (RelOp → Data → Option (Option Bool)) :=
  ⟨x.fields.map fun e => (⟨e.1.layout, e.1.layout ++ [ch '.'] ++ e.1.name, e.1.type⟩, e.2.map (·.lookup env)),
    x.types.map fun e => (e.1, e.2.map (·.lookup env))⟩

end Verif.SynopsisStore
