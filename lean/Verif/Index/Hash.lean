import Verif.Index.ValueProps

/-!
# The hash index

Models /repo/libvast/vast/index/hash_index.hpp for an arbitrary type of values `α`, an arbitrary type
of digests `D` and an arbitrary hash function of a (possibly nil) value and a seed. The bitmap
iterator `select(mask())` is the list of positions of the ones that are left (the iterator itself is
modelled and proved in Verif.Bitmap, C05).
-/

namespace Verif.Index

open Verif.Data (RelOp)

/-- hash_index.hpp:260-267, the members. -/
structure HashIndex (α D : Type) where
  digests : List D
  unique : List D
  seeds : List (α × Nat)
  deriving DecidableEq, Repr

/-- The operands `lookup_impl` accepts. -/
inductive HashOperand (α : Type) where
  | val (x : α)
  | list (xs : List (Option α))

namespace HashIndex

variable {α D : Type} [DecidableEq α] [DecidableEq D]

/-- hash_index.hpp:61-62 `max_hash_rounds`. -/
def maxHashRounds : Nat := 32

/-- A fresh index. -/
def make : HashIndex α D := ⟨[], [], []⟩

/-- `seeds_.find`. -/
def findSeed (s : HashIndex α D) (x : α) : Option Nat := s.seeds.lookup x

/-- hash_index.hpp:146-167 `make_digest`, the loop: `n` rounds are left and `i` is the seed. `emplace`
does not overwrite. -/
def makeDigestLoop (hash : Option α → Nat → D) (x : α) : (n i : Nat) → HashIndex α D → Option (D × HashIndex α D)
  | 0, _, _ => none
  | n + 1, i, s =>
    if s.unique.contains (hash (some x) i) = false then
      some (hash (some x) i, { s with
        seeds := if (s.findSeed x).isSome then s.seeds else (x, i) :: s.seeds
        unique := hash (some x) i :: s.unique })
    else match s.findSeed x with
      | some j => some (hash (some x) j, s)
      | none => makeDigestLoop hash x n (i + 1) s

/-- hash_index.hpp:146-167 `make_digest`. -/
def makeDigest (hash : Option α → Nat → D) (s : HashIndex α D) (x : α) : Option (D × HashIndex α D) :=
  makeDigestLoop hash x maxHashRounds 0 s

/-- hash_index.hpp:170-173 `find_digest`; nil is never a key of `seeds_`. -/
def findDigest (hash : Option α → Nat → D) (s : HashIndex α D) (x : Option α) : D :=
  match x with
  | none => hash none 0
  | some y =>
    match s.findSeed y with
    | some j => hash (some y) j
    | none => hash (some y) 0

/-- hash_index.hpp:256-258 `immutable`. -/
def immutable (s : HashIndex α D) : Bool := s.unique.isEmpty && !s.digests.isEmpty

/-- hash_index.hpp:175-184 `append_impl`. -/
def append (hash : Option α → Nat → D) (s : HashIndex α D) (x : α) (_pos : Nat) : Res (HashIndex α D) :=
  if s.immutable then .error
  else match makeDigest hash s x with
    | none => .error
    | some (d, s) => .ok { s with digests := s.digests ++ [d] }

/-- The positions of the ones of a bitmap. -/
def onesFrom : (k : Nat) → Bm → List Nat
  | _, [] => []
  | k, true :: m => k :: onesFrom (k + 1) m
  | k, false :: m => onesFrom (k + 1) m

/-- hash_index.hpp:196-205, the loop of `scan`. Using an exhausted iterator is undefined behaviour. -/
def scanLoop (pred : D → Bool) : (ds : List D) → (i last : Nat) → (rng : List Nat) → Bm → Option Bm
  | [], _, _, _, result => some result
  | d :: ds, i, last, rng, result =>
    if pred d then
      match rng.drop (i - last) with
      | [] => none
      | p :: rest =>
        scanLoop pred ds (i + 1) i (p :: rest) ((result.appendBits false (p - result.length)).appendBits true 1)
    else scanLoop pred ds (i + 1) last rng result

/-- hash_index.hpp:191-207 `scan`. -/
def scan (mask : Bm) (s : HashIndex α D) (pred : D → Bool) : Res Bm :=
  if (onesFrom 0 mask).isEmpty then .ok []
  else Res.ofOption (scanLoop pred s.digests 0 0 (onesFrom 0 mask) [])

/-- hash_index.hpp:186-248 `lookup_impl`. -/
def lookup (hash : Option α → Nat → D) (mask : Bm) (s : HashIndex α D) (op : RelOp) (x : HashOperand α) : Res Bm :=
  match op, x with
  | .equal, .val x => scan mask s fun d => findDigest hash s (some x) == d
  | .notEqual, .val x => scan mask s fun d => findDigest hash s (some x) != d
  | .in_, .list xs => scan mask s fun d => (xs.map (findDigest hash s)).any (· == d)
  | .notIn, .list xs => scan mask s fun d => !(xs.map (findDigest hash s)).any (· == d)
  | _, _ => .error

/-- hash_index as a concrete index. -/
def impl (hash : Option α → Nat → D) : Impl (HashIndex α D) α (HashOperand α) :=
  ⟨append hash, fun _ mask => lookup hash mask⟩

/-- hash_index.hpp:89-97 `serialize` after 99-102 `deserialize` into a fresh index: seeds that are zero
are not written and neither are the unique digests. The bitmaps are written by the base class. -/
def reload (v : ValueIndex (HashIndex α D)) : ValueIndex (HashIndex α D) :=
  { v with impl := { digests := v.impl.digests, unique := [], seeds := v.impl.seeds.filter fun e => decide (0 < e.2) } }

end HashIndex

namespace ValueIndex

variable {σ α ρ : Type}

/-- A history of appends, with the entries whose append succeeded. -/
def runLog (I : Impl σ α ρ) : ValueIndex σ → List (Nat × Option α) → Option (ValueIndex σ × List (Nat × Option α))
  | v, [] => some (v, [])
  | v, (pos, x) :: h =>
    match v.append I x pos with
    | .ok v => (runLog I v h).map fun (v, l) => (v, (pos, x) :: l)
    | .error => runLog I v h
    | .undefined => none

end ValueIndex

end Verif.Index
