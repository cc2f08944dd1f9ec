import Verif.DataText.Model
import Verif.Zeek.Model
/-!
Generating test events.

Models `format::test::reader` (`libvast/src/format/test.cpp` and `libvast/vast/format/test.hpp`), the distribution of Pareto in
`libvast/vast/detail/random.hpp`, and the parts of `multi_layout_reader` (`libvast/src/format/multi_layout_reader.cpp`) it uses.
Line numbers without a file name are those of `test.cpp`.

What random numbers are drawn is left open: a generator is any state with functions that draw from it (`Rng`).  The values that
`bool`, `string` and `addr` fields get from their sample are functions of that sample and are not computed here.  `recursive_add`
is taken to succeed, which holds for all types but aliases of records, and finishing a slice, too.
-/
namespace Verif.TestGen
open Verif.DataText Verif.Data

/-- The types of fields as far as the reader tells them apart: those it draws a sample for (135-182), `subnet`, and those it never
fills (130-133): `none`, `pattern`, `enum`, `list`, `map` and every alias. -/
inductive Kind where
  | bool | int | count | real | time | duration | string | address | subnet | other
deriving DecidableEq

/-- An attribute of a type (`vast/attribute.hpp`). -/
abbrev Attr := Str × Option Str

mutual
/-- A type: a leaf with its attributes or a record. -/
inductive Ty where
  | leaf (k : Kind) (attrs : List Attr)
  | record (fs : Tys)
/-- The types of the fields of a record. -/
inductive Tys where
  | nil
  | cons (t : Ty) (ts : Tys)
end

/-- `distribution` (test.hpp:28-33) with the parameters as they were read. -/
inductive Dist where
  | uniformInt (a b : Lit)
  | uniformCount (a b : Lit)
  | uniformReal (a b : Lit)
  | normal (a b : Lit)
  | pareto (shape scale : Lit)
deriving DecidableEq

/-- `parsers::alpha` (`concept/parseable/string/char_class.hpp`). -/
def isAlpha (b : UInt8) : Bool := (decide (65 ≤ b.toNat) && decide (b.toNat ≤ 90)) || (decide (97 ≤ b.toNat) && decide (b.toNat ≤ 122))

/-- `*alpha`. -/
def letters : Str → Str × Str
  | [] => ([], [])
  | b :: s => if isAlpha b then (b :: (letters s).1, (letters s).2) else ([], b :: s)

/-- `+alpha >> '(' >> real_opt_dot >> ',' >> real_opt_dot >> ')'` on a whole string (41-47). -/
def parseSpec (s : Str) : Option (Str × Lit × Lit) :=
  if (letters s).1 = [] then none
  else (eat '(' (letters s).2).bind fun r => (realP false r).bind fun (p0, r) => (eat ',' r).bind fun r =>
    (realP false r).bind fun (p1, r) => (eat ')' r).bind fun r => if r = [] then some ((letters s).1, p0, p1) else none

/-- The choice of the distribution (48-64). -/
def choose (k : Kind) (name : Str) (p0 p1 : Lit) : Option Dist :=
  if name = str "uniform" then
    match k with
    | .int => some (.uniformInt p0 p1)
    | .bool => some (.uniformCount p0 p1)
    | .count => some (.uniformCount p0 p1)
    | .string => some (.uniformCount p0 p1)
    | _ => some (.uniformReal p0 p1)
  else if name = str "normal" then some (.normal p0 p1)
  else if name = str "pareto" then some (.pareto p0 p1)
  else none

/-- The result of `make_distribution`: an error, `caf::no_error`, or a distribution. -/
inductive Made where
  | error
  | nothing
  | dist (d : Dist)
deriving DecidableEq

/-- `make_distribution` (34-65). -/
def makeDistribution (k : Kind) (attrs : List Attr) : Made :=
  match attrs.find? fun a => a.1 = str "default" with
  | none => .nothing
  | some (_, none) => .nothing
  | some (_, some s) => match parseSpec s with
    | none => .error
    | some (name, p0, p1) => match choose k name p0 p1 with
      | none => .error
      | some d => .dist d

/-- The value of a leaf: null, what `construct` makes, what was computed from a sample, the initial value plus some samples, an
address computed from a sample and a choice of the version, or the subnet of the address `::` with some length. -/
inductive Leaf (S : Type) where
  | null
  | blank
  | drawn (x : S)
  | summed (xs : List S)
  | addr (x : S) (v4 : Bool)
  | net (length : Nat)
deriving DecidableEq

mutual
/-- The data of a blueprint. -/
inductive Val (S : Type) where
  | leaf (x : Leaf S)
  | list (vs : Vals S)
/-- The data of the fields of a record. -/
inductive Vals (S : Type) where
  | nil
  | cons (v : Val S) (vs : Vals S)
end

variable {S G : Type}

mutual
/-- `construct` (`libvast/src/type.cpp:969-986`) and then `initializer` (67-98) with the distributions so far.  A leaf without a
distribution is set to null. -/
def blueprint : Ty → List Dist → Option (Val S × List Dist)
  | .leaf k attrs, ds => match makeDistribution k attrs with
    | .error => none
    | .nothing => some (.leaf .null, ds)
    | .dist d => some (.leaf .blank, ds ++ [d])
  | .record fs, ds => (blueprints fs ds).map fun (vs, ds) => (.list vs, ds)
/-- The fields of a record (84-94). -/
def blueprints : Tys → List Dist → Option (Vals S × List Dist)
  | .nil, ds => some (.nil, ds)
  | .cons t ts, ds => (blueprint t ds).bind fun (v, ds) => (blueprints ts ds).map fun (vs, ds) => (.cons v vs, ds)
end

/-- The source of randomness: a sample of a distribution (198-200), the version of an address (179-180), and the length of a
subnet (188-189). -/
structure Rng (S G : Type) where
  draw : Dist → G → S × G
  version : G → Bool × G
  length : G → Nat × G

/-- What a sampled leaf becomes (135-182): times and durations are added to what was there. -/
def fill (rng : Rng S G) (k : Kind) (x : S) (old : Leaf S) (g : G) : Leaf S × G :=
  match k with
  | .time => match old with
    | .summed xs => (.summed (xs ++ [x]), g)
    | _ => (.summed [x], g)
  | .duration => match old with
    | .summed xs => (.summed (xs ++ [x]), g)
    | _ => (.summed [x], g)
  | .address => (.addr x (rng.version g).1, (rng.version g).2)
  | _ => (.drawn x, g)

mutual
/-- `randomizer` (124-205) with the index of the next distribution and the generator.  `none` means that there is no distribution
at that index: undefined behaviour.  For a subnet, `(*this)(addr_type, addr)` (187) selects the overload that does nothing, because
the static type of `addr_type` is `type`: no sample is drawn and the address stays `::`. -/
def randomize (rng : Rng S G) (ds : List Dist) : Ty → Val S → Nat → G → Option (Val S × Nat × G)
  | .leaf _ _, .leaf .null, i, g => some (.leaf .null, i, g)
  | .leaf k _, .leaf old, i, g => match k with
    | .other => some (.leaf old, i, g)
    | .subnet => some (.leaf (.net (rng.length g).1), i, (rng.length g).2)
    | k => match ds[i]? with
      | none => none
      | some d => some (.leaf (fill rng k (rng.draw d g).1 old (rng.draw d g).2).1, i + 1,
          (fill rng k (rng.draw d g).1 old (rng.draw d g).2).2)
  | .record fs, .list vs, i, g => (randomizes rng ds fs vs i g).map fun (vs, i, g) => (.list vs, i, g)
  | _, v, i, g => some (v, i, g)
/-- The fields of a record (193-196). -/
def randomizes (rng : Rng S G) (ds : List Dist) : Tys → Vals S → Nat → G → Option (Vals S × Nat × G)
  | .cons t ts, .cons v vs, i, g => (randomize rng ds t v i g).bind fun (v, i, g) =>
    (randomizes rng ds ts vs i g).map fun (vs, i, g) => (.cons v vs, i, g)
  | _, vs, i, g => some (vs, i, g)
end

mutual
/-- What `recursive_add` (`libvast/src/table_slice_builder.cpp:34-46`) adds to the builder: the leaves in order. -/
def Val.leaves : Val S → List (Leaf S)
  | .leaf x => [x]
  | .list vs => vs.leaves
/-- The leaves of the fields. -/
def Vals.leaves : Vals S → List (Leaf S)
  | .nil => []
  | .cons v vs => v.leaves ++ vs.leaves
end

/-- A type of the schema with its blueprint. -/
structure Entry (S : Type) where
  name : Str
  type : Ty
  data : Val S
  dists : List Dist

/-- The reader (test.hpp:77-82) with the slices it gave to the consumer: the index of the type and the rows. -/
structure State (S G : Type) where
  entries : List (Entry S)
  next : Nat
  num : Nat
  gen : G
  out : List (Nat × List (List (Leaf S)))

/-- The test for the name of a type (256-258): `test`, a dot, and something without dots. -/
def isTest (name : Str) : Bool :=
  (Zeek.splitAll name (str ".")).length = 2 && (Zeek.splitAll name (str ".")).head? = some (str "test")

/-- The loop of `reader::schema` (255-268): types with other names are skipped.  Names are unique in a schema
(`libvast/src/schema.cpp:63-69`).  `builder` fails if the type is no record. -/
def entriesOf : List (Str × Ty) → Option (List (Entry S))
  | [] => some []
  | (name, t) :: ts =>
    if isTest name then (blueprint t []).bind fun (v, ds) => match t with
      | .leaf _ _ => none
      | .record _ => (entriesOf ts).map (⟨name, t, v, ds⟩ :: ·)
    else entriesOf ts

/-- `reader::schema` (251-275). -/
def setSchema (sch : List (Str × Ty)) (s : State S G) : Option (State S G) :=
  if sch.isEmpty then none
  else (entriesOf sch).bind fun es => if es.isEmpty then none else some { s with entries := es, next := 0 }

/-- The constructor (233-243): without a number of events, there is no limit. -/
def init (maxEvents : Nat) (gen : G) : State S G := ⟨[], 0, if maxEvents = 0 then 2 ^ 64 - 1 else maxEvents, gen, []⟩

/-- The loop that fills a slice (307-315). -/
def fillRows (rng : Rng S G) (t : Ty) (ds : List Dist) : Nat → Val S → G → Option (List (List (Leaf S)) × Val S × G)
  | 0, v, g => some ([], v, g)
  | n + 1, v, g => (randomize rng ds t v 0 g).bind fun (v, _, g) => (fillRows rng t ds n v g).map fun (rows, v', g') =>
    (v.leaves :: rows, v', g')

/-- How `read` ends. -/
inductive Res where
  | ok
  | eof
  | abort
deriving DecidableEq

/-- The loop of `read_impl` (299-329).  `fuel` bounds the number of iterations: each produces an event. -/
def loop (rng : Rng S G) (maxEvents maxSlice : Nat) : Nat → Nat → State S G → Res × State S G
  | 0, _, s => (.ok, s)
  | fuel + 1, produced, s =>
    if produced < maxEvents then
      match s.entries[s.next]? with
      | none => (.abort, s)
      | some e =>
        if min s.num (min (maxEvents - produced) maxSlice) = 0 then (.abort, s)
        else match fillRows rng e.type e.dists (min s.num (min (maxEvents - produced) maxSlice)) e.data s.gen with
          | none => (.abort, s)
          | some (rows, v, g) =>
            if s.num = min s.num (min (maxEvents - produced) maxSlice) then
              (.eof, { s with gen := g, entries := s.entries.set s.next { e with data := v }, out := s.out ++ [(s.next, rows)] })
            else loop rng maxEvents maxSlice fuel (produced + min s.num (min (maxEvents - produced) maxSlice))
              ⟨s.entries.set s.next { e with data := v }, if s.next + 1 = s.entries.length then 0 else s.next + 1,
                s.num - min s.num (min (maxEvents - produced) maxSlice), g, s.out ++ [(s.next, rows)]⟩
    else (.ok, s)

/-- `read` (`libvast/vast/format/reader.hpp:76-97`) and `read_impl` (285-332).  The model has no built-in schema: without one, it
stops. -/
def read (rng : Rng S G) (maxEvents maxSlice : Nat) (s : State S G) : Res × State S G :=
  if maxEvents = 0 ∨ maxSlice = 0 ∨ s.entries.isEmpty then (.abort, s)
  else if s.num = 0 then (.eof, s)
  else loop rng maxEvents maxSlice maxEvents 0 s

/-- Reading again and again until the reader reports the end (`libvast/src/system/source.cpp:213-275`). -/
def reads (rng : Rng S G) : List (Nat × Nat) → State S G → Res × State S G
  | [], s => (.ok, s)
  | (maxEvents, maxSlice) :: cs, s => match read rng maxEvents maxSlice s with
    | (.ok, s) => reads rng cs s
    | r => r

/-- `quantile` of the distribution of Pareto (`libvast/vast/detail/random.hpp:105-114`), for finite parameters, with `std::pow` as a
parameter.  Dividing by zero gives infinity, dividing by infinity zero. -/
def quantile (pow : Rat → Data.Real → Data.Real) (shape scale p : Rat) : Data.Real :=
  if p = 0 then .fin scale
  else if p = 1 then .fin (2 ^ 16384)
  else match pow (1 - p) (if shape = 0 then .posInf else .fin (1 / shape)) with
    | .fin q => if q = 0 then (if scale = 0 then .nan else if 0 < scale then .posInf else .negInf) else .fin (scale / q)
    | .nan => .nan
    | _ => .fin 0

/-- `builtin_schema` (207-220). -/
def builtin : List (Str × Ty) :=
  let f (k : Kind) (d : String) : Ty := .leaf k [(str "default", some (str d))]
  [(str "test.full", .record (.cons (.leaf .other []) (.cons (f .bool "uniform(0,1)") (.cons (f .int "uniform(-42000,1337)")
    (.cons (f .count "pareto(0,1)") (.cons (f .real "normal(0,1)") (.cons (f .string "uniform(0,100)")
    (.cons (f .time "uniform(0,10)") (.cons (f .duration "uniform(100,200)") (.cons (f .address "uniform(0,2000000)")
    (.cons (f .subnet "uniform(1000,2000)") .nil)))))))))))]

end Verif.TestGen
