/-
Model of IP addresses and subnets.

Modelled code: libvast/src/address.cpp, libvast/src/subnet.cpp and the parts of
libvast/vast/word.hpp they use.
-/
namespace Verif.Address

/-- `vast::address` (vast/address.hpp:135): an array of 16 bytes in network
order. -/
structure Address where
  bytes : List (BitVec 8)
  len : bytes.length = 16
deriving DecidableEq

/-- `address::address()` (src/address.cpp:38-40): all zeros. -/
def Address.default : Address := ⟨List.replicate 16 0, by simp⟩

/-- `address::v4_mapped_prefix` (src/address.cpp:25-26). -/
def v4MappedPrefix : List (BitVec 8) :=
  [0, 0, 0, 0, 0, 0, 0, 0, 0, 0, 0xff, 0xff]

/-- `address::v4(bytes, network)` (src/address.cpp:30-47), with the four bytes
given in network order. The `host` order argument only byte-swaps its input
first and is not modelled. -/
def Address.v4 (a b c d : BitVec 8) : Address :=
  ⟨v4MappedPrefix ++ [a, b, c, d], by simp [v4MappedPrefix]⟩

/-- `address::v6(bytes, network)` (src/address.cpp:34-57), network order. -/
def Address.v6 (bytes : List (BitVec 8)) (h : bytes.length = 16) : Address :=
  ⟨bytes, h⟩

/-- `address::is_v4` (src/address.cpp:59-61): `memcmp` of the first 12 bytes. -/
def Address.isV4 (a : Address) : Bool := a.bytes.take 12 == v4MappedPrefix

/-- `bitmask32` (src/address.cpp:89-91). -/
def bitmask32 (bottomBits : Nat) : BitVec 32 :=
  if bottomBits ≥ 32 then 0xffffffff else ((1 : BitVec 32) <<< bottomBits) - 1

/-- The mask words `m[0..3]` of `address::mask` (src/address.cpp:98-103).
Words are read most significant byte first, as `to_network_order` stores
them. The words before `r.quot` are all ones, so their byte order is
irrelevant. -/
def maskWord (quot rem i : Nat) : BitVec 32 :=
  if i < quot then 0xffffffff
  else if i = quot then 0xffffffff &&& ~~~ bitmask32 (32 - rem)
  else 0

/-- The byte `j` (0 = first in memory) of a 32-bit word in network order. -/
def wordByte (w : BitVec 32) (j : Nat) : BitVec 8 := w.extractLsb' (24 - 8 * j) 8

/-- The 16 mask bytes of `address::mask`, see `maskWord`. -/
def maskBytes (k : Nat) : List (BitVec 8) :=
  (List.range 16).map fun n => wordByte (maskWord (k / 32) (k % 32) (n / 4)) (n % 4)

/-- `address::mask` (src/address.cpp:95-108). The Boolean result is `false`
when `top_bits_to_keep > 128`, in which case the address stays as it was. -/
def Address.mask (a : Address) (k : Nat) : Address × Bool :=
  if k > 128 then (a, false)
  else (⟨List.zipWith (· &&& ·) a.bytes (maskBytes k), by
    simp [a.len, maskBytes]⟩, true)

/-- `word<uint8_t>::msb_fill` (vast/word.hpp:125-127). The shift happens on
`int`, so that a shift by 8 gives 0 after truncation. -/
def msbFill8 (i : Nat) : BitVec 8 := BitVec.allOnes 8 <<< (8 - i)

/-- The loop of `address::compare` (src/address.cpp:138-144). The case of
exhausted byte arrays is a read past the end and cannot happen for
`k ≤ 128`. -/
def compareLoop : List (BitVec 8) → List (BitVec 8) → Nat → Bool
  | x :: xs, y :: ys, k =>
    if k > 8 then
      if x != y then false else compareLoop xs ys (k - 8)
    else (x &&& msbFill8 k) == (y &&& msbFill8 k)
  | _, _, _ => false

/-- `address::compare` (src/address.cpp:136-145) as built without assertions
(`VAST_ASSERT(k > 0 && k <= 128)` is compiled out, vast/detail/assert.hpp). -/
def Address.compare (a b : Address) (k : Nat) : Bool := compareLoop a.bytes b.bytes k

/-- Lexicographic `<` on byte arrays (`std::array::operator<`). -/
def bytesLt : List (BitVec 8) → List (BitVec 8) → Bool
  | [], [] => false
  | [], _ :: _ => true
  | _ :: _, [] => false
  | x :: xs, y :: ys => if x.toNat < y.toNat then true
    else if y.toNat < x.toNat then false else bytesLt xs ys

/-- `operator<(address, address)` (src/address.cpp:151-153). -/
def Address.lt (a b : Address) : Bool := bytesLt a.bytes b.bytes

/-- `vast::subnet` (vast/subnet.hpp): the masked network and the prefix length
relative to 128 bits (`length_`). -/
structure Subnet where
  network : Address
  len : Nat
deriving DecidableEq

/-- `subnet::subnet()` (src/subnet.cpp:19-20). -/
def Subnet.default : Subnet := ⟨.default, 0⟩

/-- `subnet::subnet(address, uint8_t)` with `initialize`
(src/subnet.cpp:22-28 and 46-56). The caller's length is a `uint8_t`; the
addition `length_ += 96` happens only for lengths up to 32, so it does not
wrap. -/
def Subnet.make (a : Address) (length : Nat) : Subnet :=
  if a.isV4 then
    if length > 32 then .default
    else ⟨(a.mask (length + 96)).1, length + 96⟩
  else if length > 128 then .default
  else ⟨(a.mask length).1, length⟩

/-- `subnet::contains(const address&)` (src/subnet.cpp:30-32). -/
def Subnet.containsAddr (s : Subnet) (a : Address) : Bool := a.compare s.network s.len

/-- `subnet::contains(const subnet&)` (src/subnet.cpp:34-36). -/
def Subnet.containsSubnet (s other : Subnet) : Bool :=
  decide (s.len ≤ other.len) && s.containsAddr other.network

/-- `subnet::length()` (src/subnet.cpp:42-44); the subtraction is on
`uint8_t`. -/
def Subnet.length (s : Subnet) : Nat :=
  if s.network.isV4 then (s.len + 256 - 96) % 256 else s.len

/-- `operator<(subnet, subnet)` (src/subnet.cpp:62-64). -/
def Subnet.lt (x y : Subnet) : Bool :=
  if x.network.lt y.network then true
  else if y.network.lt x.network then false
  else decide (x.len < y.len)

end Verif.Address
