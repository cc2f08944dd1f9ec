import Mathlib.Data.List.Forall2
/-!
# What a hash function gets to see of a value

`libvast/vast/concept/hashable/hash_append.hpp`: the bytes that are given to a hash function for a value.  Types whose values have no padding are given as they are in memory; all others
piece by piece.  The machine stores numbers with their lowest byte first.
-/
namespace Verif.HashAppend

/-- The types (52-80): `object` is one with a function `inspect` that names the type and two members; more members are nested. Tuples, C arrays, pointers and vectors of Booleans are not
modelled; sets and maps are given like the `seq` of a type that is not contiguous. -/
inductive Ty
  | bool
  /-- An integer or enumeration of some bytes. -/
  | int (width : Nat)
  | real
  /-- An empty class. -/
  | unit
  | str
  | pair (a b : Ty)
  /-- `std::array` with one element more than the number. -/
  | array (n : Nat) (t : Ty)
  | vec (t : Ty)
  | set (t : Ty)
  | object (name : List UInt8) (a b : Ty)

/-- The values.  Integers are their bits, and so are real numbers; no container has more elements than `size_t` can count. -/
def Val : Ty → Type
  | .bool => Bool
  | .int w => Fin (256 ^ w)
  | .real => Fin (256 ^ 8)
  | .unit => Unit
  | .str => { s : List UInt8 // s.length < 256 ^ 8 }
  | .pair a b => Val a × Val b
  | .array n t => { l : List (Val t) // l.length = n + 1 }
  | .vec t => { l : List (Val t) // l.length < 256 ^ 8 }
  | .set t => { l : List (Val t) // l.length < 256 ^ 8 }
  | .object _ a b => Val a × Val b

/-- The next multiple. -/
def roundUp (n k : Nat) : Nat := (n + k - 1) / k * k

/-- `alignof`. -/
def alignof : Ty → Nat
  | .bool => 1
  | .int w => w
  | .real => 8
  | .unit => 1
  | .str => 8
  | .pair a b => max (alignof a) (alignof b)
  | .array _ t => alignof t
  | .vec _ => 8
  | .set _ => 8
  | .object _ a b => max (alignof a) (alignof b)

/-- `sizeof`; the sizes are those of libstdc++. -/
def sizeof : Ty → Nat
  | .bool => 1
  | .int w => w
  | .real => 8
  | .unit => 1
  | .str => 32
  | .pair a b => roundUp (roundUp (sizeof a) (alignof b) + sizeof b) (max (alignof a) (alignof b))
  | .array n t => (n + 1) * sizeof t
  | .vec _ => 24
  | .set _ => 48
  | .object _ a b => roundUp (roundUp (sizeof a) (alignof b) + sizeof b) (max (alignof a) (alignof b))

/-- `is_uniquely_represented` (52-80). -/
def unique : Ty → Bool
  | .bool => true
  | .int _ => true
  | .pair a b => unique a && unique b && sizeof a + sizeof b == sizeof (.pair a b)
  | .array n t => unique t && sizeof t * (n + 1) == sizeof (.array n t)
  | _ => false

/-- `is_contiguously_hashable` (98-112); `same`: the hash function wants numbers as the machine stores them. -/
def contiguous (same : Bool) (t : Ty) : Bool := unique t && (sizeof t == 1 || same)

/-- The bytes of a number in memory. -/
def littleEndian : Nat → Nat → List UInt8
  | 0, _ => []
  | w + 1, n => UInt8.ofNat (n % 256) :: littleEndian w (n / 256)

/-- What a value may look like in memory: padding has any contents, and those classes that own memory elsewhere have any bytes here. -/
def Memory : (t : Ty) → Val t → List UInt8 → Prop
  | .bool, (b : Bool), m => m = [if b then 1 else 0]
  | .int w, (n : Fin (256 ^ w)), m => m = littleEndian w n.val
  | .real, (n : Fin (256 ^ 8)), m => m = littleEndian 8 n.val
  | .pair a b, (v : Val a × Val b), m => ∃ x p y q, Memory a v.1 x ∧ Memory b v.2 y ∧ m = x ++ p ++ y ++ q ∧
      p.length = roundUp (sizeof a) (alignof b) - sizeof a ∧ m.length = sizeof (.pair a b)
  | .array n t, (l : { l : List (Val t) // l.length = n + 1 }), m => ∃ ms, List.Forall₂ (Memory t) l.val ms ∧ m = ms.flatten
  | t, _, m => m.length = sizeof t

/-- `reverse_bytes` if the hash function wants it (84-96). -/
def order (same : Bool) (m : List UInt8) : List UInt8 := if same then m else m.reverse

/-- `hash_append` of a `size_t`. -/
def size (same : Bool) (n : Nat) : List UInt8 := order same (littleEndian 8 n)

/-- `hash_append` (116-168, 225-307, 339-407): which bytes the hash function may be given for a value. -/
def Appends (same : Bool) : (t : Ty) → Val t → List UInt8 → Prop
  | .bool, v, o => Memory .bool v o
  | .int w, (n : Fin (256 ^ w)), o =>
    if contiguous same (.int w) then Memory (.int w) n o else o = (littleEndian w n.val).reverse
  | .real, (n : Fin (256 ^ 8)), o => o = order same (littleEndian 8 (if n.val = 0 ∨ n.val = 2 ^ 63 then 0 else n.val))
  | .unit, _, o => o = order same (littleEndian 4 0)
  | .str, (s : { s : List UInt8 // s.length < 256 ^ 8 }), o => o = s.val ++ size same s.val.length
  | .pair a b, (v : Val a × Val b), o =>
    if contiguous same (.pair a b) then Memory (.pair a b) v o else ∃ x y, Appends same a v.1 x ∧ Appends same b v.2 y ∧ o = x ++ y
  | .array n t, (l : { l : List (Val t) // l.length = n + 1 }), o =>
    if contiguous same (.array n t) then Memory (.array n t) l o else ∃ os, List.Forall₂ (Appends same t) l.val os ∧ o = os.flatten
  | .vec t, (l : { l : List (Val t) // l.length < 256 ^ 8 }), o =>
    if contiguous same t then ∃ ms, List.Forall₂ (Memory t) l.val ms ∧ o = ms.flatten ++ size same l.val.length
    else ∃ os, List.Forall₂ (Appends same t) l.val os ∧ o = os.flatten ++ size same l.val.length
  | .set t, (l : { l : List (Val t) // l.length < 256 ^ 8 }), o =>
    ∃ os, List.Forall₂ (Appends same t) l.val os ∧ o = os.flatten ++ size same l.val.length
  | .object name a b, (v : Val a × Val b), o => ∃ x y, Appends same a v.1 x ∧ Appends same b v.2 y ∧ o = name ++ (x ++ y)

/-- `hash_append` of an unordered set (309-317), of the elements as they come. -/
def AppendsUnordered (same : Bool) (t : Ty) (l : List (Val t)) (o : List UInt8) : Prop :=
  ∃ os, List.Forall₂ (Appends same t) l os ∧ o = os.flatten ++ size same l.length

/-- Calls of the same `uhash` (uhash.hpp:26-29) for several values: what the hash function has been given after all of them. -/
def Calls (same : Bool) : List ((t : Ty) × Val t) → List UInt8 → Prop
  | [], o => o = []
  | v :: vs, o => ∃ x y, Appends same v.1 v.2 x ∧ Calls same vs y ∧ o = x ++ y

end Verif.HashAppend
