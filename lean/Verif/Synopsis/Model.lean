import Verif.Data.Model
/-
Model of the synopses: sketches of the values in a column that let the catalog
rule out partitions.

Modelled code: libvast/vast/min_max_synopsis.hpp, vast/time_synopsis.hpp,
src/time_synopsis.cpp, src/bool_synopsis.cpp, vast/bloom_filter.hpp,
vast/hasher.hpp, vast/bloom_filter_synopsis.hpp, vast/buffered_synopsis.hpp.

The answer of a lookup is `std::optional<bool>`: `none` for "cannot tell".
-/
namespace Verif.Synopsis
open Verif.Data

/-! ### min-max synopsis -/

/-- `min_max_synopsis<time>` (vast/min_max_synopsis.hpp:20-29), the only
instantiation of the template. A time is a number of nanoseconds. -/
structure MinMax where
  min : Int
  max : Int

/-- The initial state of a `time_synopsis`: `time::max()` and `time::min()`
(src/time_synopsis.cpp:13-16). -/
def MinMax.initial : MinMax := ⟨2 ^ 63 - 1, -2 ^ 63⟩

/-- `add` (min_max_synopsis.hpp:31-38). -/
def MinMax.add (s : MinMax) (y : Int) : MinMax :=
  { min := if y < s.min then y else s.min
    max := if y > s.max then y else s.max }

/-- `lookup_impl` (min_max_synopsis.hpp:101-139). Other operators never get
here. -/
def MinMax.lookupImpl (s : MinMax) (op : RelOp) (x : Int) : Bool :=
  match op with
  | .equal => decide (s.min ≤ x) && decide (x ≤ s.max)
  | .notEqual => !(decide (s.min ≤ x) && decide (x ≤ s.max))
  | .less => decide (s.min < x)
  | .lessEqual => decide (s.min ≤ x)
  | .greater => decide (s.max > x)
  | .greaterEqual => decide (s.max ≥ x)
  | _ => false

/-- `do_lookup` (min_max_synopsis.hpp:42-48). -/
def MinMax.doLookup (s : MinMax) (op : RelOp) : Data → Option Bool
  | .time x => some (s.lookupImpl op x)
  | _ => none

/-- `membership` (min_max_synopsis.hpp:49-59). -/
def MinMax.membership (s : MinMax) : Data → Option Bool
  | .list xs => some (xs.any fun x => s.doLookup .equal x == some true)
  | _ => none

/-- `lookup` (min_max_synopsis.hpp:40-78). -/
def MinMax.lookup (s : MinMax) (op : RelOp) (rhs : Data) : Option Bool :=
  match op with
  | .in_ => s.membership rhs
  | .notIn => (s.membership rhs).map (!·)
  | .equal | .notEqual | .less | .lessEqual | .greater | .greaterEqual => s.doLookup op rhs
  | _ => none

/-! ### bool synopsis -/

/-- `bool_synopsis` (vast/bool_synopsis.hpp). -/
structure BoolSyn where
  anyTrue : Bool
  anyFalse : Bool

/-- Default member initializers of `bool_synopsis`. -/
def BoolSyn.initial : BoolSyn := ⟨false, false⟩

/-- `bool_synopsis::add` (src/bool_synopsis.cpp:26-32). -/
def BoolSyn.add (s : BoolSyn) (x : Bool) : BoolSyn :=
  if x then { s with anyTrue := true } else { s with anyFalse := true }

/-- `bool_synopsis::lookup` (src/bool_synopsis.cpp:38-47). -/
def BoolSyn.lookup (s : BoolSyn) (op : RelOp) (rhs : Data) : Option Bool :=
  match rhs with
  | .bool b =>
    match op with
    | .equal => some (if b then s.anyTrue else s.anyFalse)
    | .notEqual => some (if b then s.anyFalse else s.anyTrue)
    | _ => none
  | _ => none

/-! ### Bloom filter -/

/-- `policy::partitioning` (vast/bloom_filter.hpp:34). -/
inductive Partitioning where
  | yes | no
deriving DecidableEq

/-- `bloom_filter` (vast/bloom_filter.hpp:46-137). The hasher is the function
from a value to its digests; all theorems hold for any such function. -/
structure Bloom (α : Type) where
  digests : α → List Nat
  policy : Partitioning
  bits : List Bool

/-- `simple_hasher::hash` (vast/hasher.hpp:119-124): one hash function per
seed. -/
def simpleHasher {α : Type} (seeded : Nat → α → Nat) (seeds : List Nat) (x : α) : List Nat :=
  seeds.map fun s => seeded s x % 2 ^ 64

/-- `double_hasher::hash` (vast/hasher.hpp:165-171), in 64-bit arithmetic. -/
def doubleHasher {α : Type} (seeded : Nat → α → Nat) (k seed1 seed2 : Nat) (x : α) : List Nat :=
  (List.range k).map fun i => (seeded seed1 x + i * seeded seed2 x) % 2 ^ 64

/-- `position` (bloom_filter.hpp:125-133); `none` is a division by zero. `k` is
`hasher_.size()`. -/
def position (policy : Partitioning) (size k i d : Nat) : Option Nat :=
  match policy with
  | .no => if size = 0 then none else some (d % size)
  | .yes =>
    let cells := size / k
    if cells = 0 then none else some (i * cells + d % cells)

/-- The loop of `add` (bloom_filter.hpp:69-73) from digest `i` on: for each
digest note whether the bit was clear, then set it. `none` is undefined
behaviour: a division by zero or an access past the end. -/
def addLoop (policy : Partitioning) (k : Nat) : Nat → List Nat → Bool → List Bool →
    Option (Bool × List Bool)
  | _, [], unique, bits => some (unique, bits)
  | i, d :: ds, unique, bits =>
    match position policy bits.length k i d with
    | none => none
    | some p =>
      match bits[p]? with
      | none => none
      | some bit => addLoop policy k (i + 1) ds (unique || bit == false) (bits.set p true)

/-- `bloom_filter::add` (bloom_filter.hpp:65-75): the returned flag and the new
filter. -/
def Bloom.add {α : Type} (b : Bloom α) (x : α) : Option (Bool × Bloom α) :=
  let ds := b.digests x
  (addLoop b.policy ds.length 0 ds false b.bits).map fun (u, bits) => (u, { b with bits })

/-- The loop of `lookup` (bloom_filter.hpp:84-87). -/
def lookupLoop (policy : Partitioning) (k : Nat) (bits : List Bool) : Nat → List Nat → Option Bool
  | _, [] => some true
  | i, d :: ds =>
    match position policy bits.length k i d with
    | none => none
    | some p =>
      match bits[p]? with
      | none => none
      | some bit => if !bit then some false else lookupLoop policy k bits (i + 1) ds

/-- `bloom_filter::lookup` (bloom_filter.hpp:81-88). -/
def Bloom.lookup {α : Type} (b : Bloom α) (x : α) : Option Bool :=
  let ds := b.digests x
  lookupLoop b.policy ds.length b.bits 0 ds

/-- Adding several values. -/
def Bloom.addAll {α : Type} (b : Bloom α) : List α → Option (Bloom α)
  | [] => some b
  | x :: xs => match b.add x with
    | none => none
    | some (_, b') => b'.addAll xs

/-! ### Bloom filter synopsis -/

/-- The two element types Bloom filter synopses exist for. -/
inductive Elem where
  | string | address
deriving DecidableEq

/-- `caf::holds_alternative<view<T>>`. -/
def Elem.holds : Elem → Data → Bool
  | .string, .string _ => true
  | .address, .address _ => true
  | _, _ => false

/-- The loop over a list operand (vast/bloom_filter_synopsis.hpp:56-64), given
the filter's answers. -/
def bloomIn (t : Elem) (lookup : Data → Option Bool) : List Data → Option (Option Bool)
  | [] => some (some false)
  | .none :: _ => some none
  | x :: xs =>
    if !t.holds x then bloomIn t lookup xs
    else match lookup x with
      | none => none
      | some true => some (some true)
      | some false => bloomIn t lookup xs

/-- `bloom_filter_synopsis::lookup` (bloom_filter_synopsis.hpp:40-69). The
outer `none` is undefined behaviour in the filter. -/
def bloomLookup (t : Elem) (b : Bloom Data) (op : RelOp) (rhs : Data) : Option (Option Bool) :=
  match op with
  | .equal =>
    match rhs with
    | .none => some none
    | x => if !t.holds x then some (some false) else (b.lookup x).map some
  | .in_ =>
    match rhs with
    | .list xs => bloomIn t b.lookup xs
    | _ => some none
  | _ => some none

/-! ### Buffered synopsis -/

/-- `buffered_synopsis::add` (vast/buffered_synopsis.hpp:69-73):
`unordered_set::insert`, here on a list without repetitions. -/
def bufferedAdd (data : List Data) (x : Data) : List Data :=
  if data.any (Data.eq x) then data else x :: data

/-- The loop over a list operand (buffered_synopsis.hpp:89-92). `caf::get` on
another alternative is undefined behaviour, here `none`. -/
def bufferedIn (t : Elem) (data : List Data) : List Data → Option (Option Bool)
  | [] => some (some false)
  | x :: xs =>
    if !t.holds x then none
    else if data.any (Data.eq x) then some (some true)
    else bufferedIn t data xs

/-- `buffered_synopsis::lookup` (buffered_synopsis.hpp:79-97). -/
def bufferedLookup (t : Elem) (data : List Data) (op : RelOp) (rhs : Data) :
    Option (Option Bool) :=
  match op with
  | .equal => if !t.holds rhs then none else some (some (data.any (Data.eq rhs)))
  | .in_ =>
    match rhs with
    | .list xs => bufferedIn t data xs
    | _ => some none
  | _ => some none

/-- The loop of `shrink` that computes the filter capacity
(buffered_synopsis.hpp:48-50): doubles `p` until it is at least `n`. `p` stays
positive; overflow of `size_t` is out of reach. -/
def nextPowerOfTwo (n p : Nat) : Nat :=
  if h : n > p ∧ p > 0 then nextPowerOfTwo n (p * 2) else p
termination_by n - p

/-- `buffered_synopsis::shrink` (buffered_synopsis.hpp:47-66). `make n` stands
for `make_bloom_filter` with capacity `n` (floating-point parameters are not
modelled); it may fail. The outer `none` is undefined behaviour. -/
def shrink (make : Nat → Option (Bloom Data)) (data : List Data) : Option (Option (Bloom Data)) :=
  match make (nextPowerOfTwo data.length 1) with
  | none => some none
  | some b => (b.addAll data).map some

end Verif.Synopsis
