/-!
# Powers of two and the width of digests

Models libvast/vast/detail/bit.hpp for `int64_t`, without negative numbers, and how libvast/src/value_index_factory.cpp:60-124 finds
the number of bytes in the digests of a hash index.
-/
namespace Verif.Digest

/-- `__builtin_clzl`, the zeros in front of the first one in 64 bits, for numbers other than 0. -/
def clzl (x : Nat) : Nat := 63 - x.log2

/-- `countl_zero` (bit.hpp:19-47) for `int64_t`, which has 63 digits: the second case, with `diff = 1`. -/
def countlZero (x : Nat) : Nat := if x = 0 then 63 else clzl x - 1

/-- `ispow2` (bit.hpp:49-52). -/
def ispow2 (x : Nat) : Bool := x != 0 && (x &&& (x - 1)) == 0

/-- `floor2` (bit.hpp:68-74). -/
def floor2 (x : Nat) : Nat := if x = 0 then 0 else 1 <<< (63 - countlZero (x >>> 1))

/-- `ceil2` (bit.hpp:54-66) without the part for types that are promoted.  A shift by 63 overflows: `none`. -/
def ceil2 (x : Nat) : Option Nat :=
  if x = 0 || x = 1 then some 1
  else if 63 - countlZero (x - 1) < 63 then some (1 <<< (63 - countlZero (x - 1))) else none

/-- `log2p1` (bit.hpp:76-79). -/
def log2p1 (x : Nat) : Nat := 63 - countlZero x

/-- The bits of a digest (value_index_factory.cpp:79-83). -/
def digestBits (n : Nat) : Nat := if ispow2 n then (log2p1 n - 1) * 2 else log2p1 n * 2

/-- The bits as bytes (value_index_factory.cpp:84-86). -/
def roundUp (bits : Nat) : Nat := if bits % 8 > 0 then bits / 8 + 1 else bits / 8

/-- The bytes in the digests of an index with the attribute `#index=hash` (value_index_factory.cpp:60-124); `none` is the null pointer.
The cardinality is the capacity of a partition (index.cpp:338), if it is given. -/
def digestBytes : Option Int → Option Nat
  | none => some 5
  | some c =>
    if c < 0 then some 8
    else
      let bytes := roundUp (digestBits c.toNat)
      let bytes := if bytes > 8 then 8 else bytes
      if 1 ≤ bytes ∧ bytes ≤ 8 then some bytes else none

end Verif.Digest
