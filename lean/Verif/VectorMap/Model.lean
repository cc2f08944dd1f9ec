/-!
The keyed collections of VAST: `libvast/vast/detail/vector_map.hpp` with the policies of `stable_map.hpp` (the maps and records of the
data model, the indexers of a partition, concepts) and of `flat_map.hpp` (the synopses of the meta index, symbol tables).
`vector_set.hpp`, `stable_set.hpp` and `flat_set.hpp` are the same code for elements that are their own keys; they are the case that
the values are `Unit`.

Vectors are lists; iterators are positions.  Keys are compared with `==`, or, for flat maps, with a comparison `lt`.
-/
namespace Verif.VectorMap

variable {κ β : Type} [DecidableEq κ]

/-- `std::lower_bound` (as in libstdc++'s `bits/stl_algobase.h`): `p` tells whether an element is less than what is searched.  `fuel` is the
number of steps; the length of the range is enough. -/
def lowerBound {γ : Type} (p : γ → Bool) (xs : List γ) : (fuel first len : Nat) → Nat
  | 0, first, _ => first
  | fuel + 1, first, len =>
    if len = 0 then first
    else
      let half := len / 2
      match xs[first + half]? with
      | none => first
      | some e => if p e then lowerBound p xs fuel (first + half + 1) (len - half - 1) else lowerBound p xs fuel first half

/-- Where a policy finds a key, if it is there (`lookup`), and what it does with an entry (`add`: the vector, and whether it was
inserted). -/
structure Policy (κ β : Type) where
  lookup : List (κ × β) → κ → Option Nat
  add : List (κ × β) → κ × β → List (κ × β) × Bool

/-- `stable_map_policy` (stable_map.hpp:17-32). -/
def stable : Policy κ β where
  lookup xs k := xs.findIdx? (·.1 = k)
  add xs x := match xs.findIdx? (·.1 = x.1) with
    | none => (xs ++ [x], true)
    | some _ => (xs, false)

/-- `flat_map_policy` (flat_map.hpp:20-41). -/
def flat (lt : κ → κ → Bool) : Policy κ β where
  lookup xs k :=
    let i := lowerBound (fun e => lt e.1 k) xs xs.length 0 xs.length
    match xs[i]? with
    | none => none
    | some e => if lt k e.1 then none else some i
  add xs x :=
    let i := lowerBound (fun e => lt e.1 x.1) xs xs.length 0 xs.length
    match xs[i]? with
    | none => (xs.insertIdx i x, true)
    | some e => if lt x.1 e.1 then (xs.insertIdx i x, true) else (xs, false)

/-- `vector_map::find`, dereferenced (vector_map.hpp:199-206). -/
def find (p : Policy κ β) (xs : List (κ × β)) (k : κ) : Option β := (p.lookup xs k).bind fun i => (xs[i]?).map (·.2)

/-- `vector_map::insert` (vector_map.hpp:100-102). -/
def insert (p : Policy κ β) (xs : List (κ × β)) (x : κ × β) : List (κ × β) × Bool := p.add xs x

/-- An assignment to the entry at a position. -/
def put (xs : List (κ × β)) (i : Nat) (v : β) : List (κ × β) := xs.modify i fun e => (e.1, v)

/-- `m[k] = v` (vector_map.hpp:191-196, where a new entry has the value `d` first). -/
def assign (p : Policy κ β) (d : β) (xs : List (κ × β)) (k : κ) (v : β) : List (κ × β) :=
  match p.lookup xs k with
  | some i => put xs i v
  | none =>
    let ys := (p.add xs (k, d)).1
    match p.lookup ys k with
    | some i => put ys i v
    | none => ys

/-- `vector_map::erase` of a key (vector_map.hpp:149-156): `std::remove_if` moves the other entries to the front, and one entry behind them
is erased.  What `std::remove_if` leaves behind is unspecified: `junk`, of which only the length is known. -/
def erase (junk : List (κ × β)) (xs : List (κ × β)) (k : κ) : List (κ × β) × Nat :=
  let kept := xs.filter (·.1 ≠ k)
  let rest := junk.take (xs.length - kept.length)
  if kept.length = xs.length then (xs, 0) else (kept ++ rest.drop 1, 1)

/-- `operator==` (vector_map.hpp:219-221). -/
def equal [DecidableEq β] (xs ys : List (κ × β)) : Bool := xs = ys

/-- What is done to a map. -/
inductive Op (κ β : Type) where
  | insert (k : κ) (v : β)
  | assign (k : κ) (v : β)
  | erase (k : κ) (junk : List (κ × β))

/-- One operation, and its result: whether something was inserted, or how many were erased. -/
def step (p : Policy κ β) (d : β) (xs : List (κ × β)) : Op κ β → List (κ × β) × Nat
  | .insert k v => let (ys, b) := insert p xs (k, v); (ys, if b then 1 else 0)
  | .assign k v => (assign p d xs k v, 0)
  | .erase k junk => erase junk xs k

/-- A map after operations, from the empty one. -/
def run (p : Policy κ β) (d : β) (ops : List (Op κ β)) : List (κ × β) := ops.foldl (fun xs o => (step p d xs o).1) []

end Verif.VectorMap
