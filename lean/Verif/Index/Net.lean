import Verif.Index.Text
import Verif.Address.Spec

/-!
# Address and subnet indexes

Models /repo/libvast/src/index/address_index.cpp and /repo/libvast/src/index/subnet_index.cpp.
-/

namespace Verif.Index

open Verif.Data (RelOp)
open Verif.Address (Address Subnet)

/-- The bytes of an address, as the byte indexes store them. -/
def octets (a : Address) : List UInt8 := a.bytes.map UInt8.ofBitVec

/-- address_index.hpp:48-49, the members: sixteen byte indexes and the type index. -/
structure AddressIndex where
  bytes : List VectorCoder
  v4 : Bm
  deriving DecidableEq, Repr

/-- The operands `address_index::lookup_impl` and `subnet_index::lookup_impl` accept. -/
inductive NetOperand where
  | addr (a : Address)
  | net (s : Subnet)

namespace AddressIndex

/-- address_index.cpp:23-26, the constructor. -/
def make : AddressIndex := ⟨List.replicate 16 (VectorCoder.make 8), []⟩

/-- address_index.cpp:38-50 `append_impl`. -/
def append (s : AddressIndex) (a : Address) (pos : Nat) : Res AddressIndex :=
  .ok ⟨List.zipWith (StringIndex.appendChar pos) s.bytes (octets a),
    SingletonCoder.encode (s.v4.appendBits false (pos - s.v4.length)) a.isV4 1⟩

/-- address_index.cpp:63, 90: the bitmap a lookup starts with. -/
def start (offset : Nat) (s : AddressIndex) (isV4 : Bool) : Bm :=
  if isV4 then s.v4 else Bm.fill offset true

/-- address_index.cpp:59-73, the lookup of an address; `ne` is `!=`. The loop over the bytes is the
same as the loop over characters in the string index. -/
def lookupAddr (offset : Nat) (s : AddressIndex) (ne : Bool) (x : Address) : Bm :=
  match StringIndex.equalLoop (s.bytes.drop (if x.isV4 then 12 else 0)) ((octets x).drop (if x.isV4 then 12 else 0))
      (start offset s x.isV4) with
  | none => Bm.fill offset ne
  | some r => if ne then r.not else r

/-- address_index.cpp:95-99, the loop over the bits of the last byte: `n` bits are left, `j` are done.
`none` is an access past the end. -/
def bitLoop (c : VectorCoder) (x : UInt8) : (n j : Nat) → Bm → Option Bm
  | 0, _, result => some result
  | n + 1, j, result =>
    match c.bitmaps[7 - j]? with
    | none => none
    | some bm => bitLoop c x n (j + 1) (result.and (if x.toNat.testBit (7 - j) then bm.not else bm))

/-- address_index.cpp:93-99, the loop over the whole bytes and the remaining bits. -/
def prefixLoop : List VectorCoder → List UInt8 → (topk : Nat) → Bm → Option Bm
  | c :: cs, x :: xs, k, result =>
    if 8 ≤ k then prefixLoop cs xs (k - 8) (result.and (BitsliceCoder.equal c x.toNat))
    else bitLoop c x k 0 result
  | _, _, k, result => if k = 0 then some result else none

/-- address_index.cpp:78-102, the lookup of a subnet; `neg` is `not_in`. -/
def lookupNet (offset : Nat) (s : AddressIndex) (neg : Bool) (x : Subnet) : Res Bm :=
  if x.length = 0 then .error
  else if (if x.network.isV4 then x.length + 96 else x.length) = 128 then .ok (lookupAddr offset s neg x.network)
  else match prefixLoop (s.bytes.drop (if x.network.isV4 then 12 else 0))
      ((octets x.network).drop (if x.network.isV4 then 12 else 0)) x.length (start offset s x.network.isV4) with
    | none => .undefined
    | some r => .ok (if neg then r.not else r)

/-- address_index.cpp:52-107 `lookup_impl`. -/
def lookup (offset : Nat) (s : AddressIndex) (op : RelOp) (x : NetOperand) : Res Bm :=
  match x, op with
  | .addr x, .equal => .ok (lookupAddr offset s false x)
  | .addr x, .notEqual => .ok (lookupAddr offset s true x)
  | .net x, .in_ => lookupNet offset s false x
  | .net x, .notIn => lookupNet offset s true x
  | _, _ => .error

/-- address_index as a concrete index. -/
def impl : Impl AddressIndex Address NetOperand := ⟨append, fun offset _ => lookup offset⟩

/-- An address index after a history of appends. -/
def index (h : List (Nat × Option Address)) : Option (ValueIndex AddressIndex) := (ValueIndex.make make).run impl h

end AddressIndex

/-- subnet_index.hpp:48-49, the members. -/
structure SubnetIndex where
  network : ValueIndex AddressIndex
  length : VectorCoder

namespace SubnetIndex

/-- subnet_index.cpp:23-28, the constructor. -/
def make : SubnetIndex := ⟨ValueIndex.make AddressIndex.make, VectorCoder.make 129⟩

/-- subnet_index.cpp:40-47 `append_impl`. -/
def append (s : SubnetIndex) (x : Subnet) (pos : Nat) : Res SubnetIndex :=
  match EqualityCoder.encode (s.length.skip (pos - s.length.size)) x.length 1 with
  | none => .undefined
  | some l =>
    match s.network.append AddressIndex.impl (some x.network) pos with
    | .ok n => .ok ⟨n, l⟩
    | .error => .error
    | .undefined => .undefined

/-- Combine two lookups as `*result &= length_.lookup(...)` does. -/
def both (net : Res Bm) (len : Option Bm) : Res Bm :=
  match net with
  | .ok n =>
    match len with
    | none => .undefined
    | some l => .ok (n.and l)
  | .error => .error
  | .undefined => .undefined

/-- subnet_index.cpp:62-71, the loop over the prefix lengths: `n` iterations are left, `i` is the
length. -/
def addrLoop (s : SubnetIndex) (x : Address) (bits : Nat) : (n i : Nat) → Bm → Res Bm
  | 0, _, result => .ok result
  | n + 1, i, result =>
    match both (s.network.lookup AddressIndex.impl .equal (.val (.addr (x.mask (128 - bits + i)).1)))
        (EqualityCoder.decode s.length .equal i) with
    | .ok r => addrLoop s x bits n (i + 1) (result.or r)
    | .error => .error
    | .undefined => .undefined

/-- Flip the result of a negated operator. -/
def flipIf (neg : Bool) (r : Res Bm) : Res Bm :=
  match r with
  | .ok r => .ok (if neg then r.not else r)
  | .error => .error
  | .undefined => .undefined

/-- subnet_index.cpp:60-74, `ni` and `not_ni` with an address. -/
def lookupAddr (offset : Nat) (s : SubnetIndex) (neg : Bool) (x : Address) : Res Bm :=
  flipIf neg (addrLoop s x (if x.isV4 then 32 else 128) ((if x.isV4 then 32 else 128) + 1) 0 (Bm.fill offset false))

/-- subnet_index.cpp:80-91, `==` and `!=`. -/
def lookupEqual (s : SubnetIndex) (neg : Bool) (x : Subnet) : Res Bm :=
  flipIf neg (both (s.network.lookup AddressIndex.impl .equal (.val (.addr x.network)))
    (EqualityCoder.decode s.length .equal x.length))

/-- subnet_index.cpp:92-105, `in` and `not_in`. -/
def lookupIn (s : SubnetIndex) (neg : Bool) (x : Subnet) : Res Bm :=
  flipIf neg (both (s.network.lookup AddressIndex.impl .in_ (.val (.net x)))
    (EqualityCoder.decode s.length .greaterEqual x.length))

/-- subnet_index.cpp:112-119, the loop over the prefix lengths: `n` iterations are left, `i` is the
length. -/
def netLoop (s : SubnetIndex) (x : Subnet) : (n i : Nat) → Bm → Res Bm
  | 0, _, result => .ok result
  | n + 1, i, result =>
    match both (s.network.lookup AddressIndex.impl .in_ (.val (.net (Subnet.make x.network i))))
        (EqualityCoder.decode s.length .equal i) with
    | .ok r => netLoop s x n (i + 1) (result.or r)
    | .error => .error
    | .undefined => .undefined

/-- subnet_index.cpp:106-123, `ni` and `not_ni`. -/
def lookupNi (s : SubnetIndex) (neg : Bool) (x : Subnet) : Res Bm :=
  flipIf neg (netLoop s x x.length 1 [])

/-- subnet_index.cpp:49-129 `lookup_impl`. -/
def lookup (offset : Nat) (s : SubnetIndex) (op : RelOp) (x : NetOperand) : Res Bm :=
  match x, op with
  | .addr x, .ni => lookupAddr offset s false x
  | .addr x, .notNi => lookupAddr offset s true x
  | .net x, .equal => lookupEqual s false x
  | .net x, .notEqual => lookupEqual s true x
  | .net x, .in_ => lookupIn s false x
  | .net x, .notIn => lookupIn s true x
  | .net x, .ni => lookupNi s false x
  | .net x, .notNi => lookupNi s true x
  | _, _ => .error

/-- subnet_index as a concrete index. -/
def impl : Impl SubnetIndex Subnet NetOperand := ⟨append, fun offset _ => lookup offset⟩

/-- A subnet index after a history of appends. -/
def index (h : List (Nat × Option Subnet)) : Option (ValueIndex SubnetIndex) := (ValueIndex.make make).run impl h

end SubnetIndex

end Verif.Index
