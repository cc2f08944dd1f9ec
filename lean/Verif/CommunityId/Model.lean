import Verif.Sha1.Model
import Verif.Base64.Model
/-!
# Community IDs

Models `libvast/vast/community_id.hpp`, `libvast/src/icmp.cpp` and the parts of addresses, ports and flows it
uses, on a little-endian host.
-/
namespace Verif.CommunityId

open Verif.Sha1

/-- An address: 16 bytes in network order (libvast/vast/address.hpp:133-134). -/
structure Addr where
  bytes : List UInt8
  len : bytes.length = 16
deriving DecidableEq

/-- The prefix of IPv4 addresses mapped into IPv6 (libvast/src/address.cpp:25-26). -/
def v4Prefix : List UInt8 := [0, 0, 0, 0, 0, 0, 0, 0, 0, 0, 0xff, 0xff]

/-- `address::is_v4` (libvast/vast/address.cpp:59-61). -/
def Addr.isV4 (a : Addr) : Bool := a.bytes.take 12 == v4Prefix

/-- `operator<` on byte arrays, the order of addresses (libvast/src/address.cpp:151-153). -/
def ltBytes : List UInt8 → List UInt8 → Bool
  | [], [] => false
  | [], _ :: _ => true
  | _ :: _, [] => false
  | x :: xs, y :: ys => x < y || (x == y && ltBytes xs ys)

/-- The bytes of an address that are hashed (libvast/vast/address.hpp:140-146). -/
def Addr.hashed (a : Addr) : List UInt8 := if a.isV4 then (a.bytes.drop 12).take 4 else a.bytes.take 16

/-- A flow (libvast/vast/flow.hpp:19-24), as made by `make_flow` (flow.hpp:26-30): both ports have the same
protocol, one of the values of `port_type` (libvast/vast/port.hpp:19-26). -/
structure Flow where
  src : Addr
  dst : Addr
  sport : UInt16
  dport : UInt16
  proto : UInt8

/-- `port_type::icmp` (libvast/vast/port.hpp:20). -/
def icmp : UInt8 := 1
/-- `port_type::icmp6` (libvast/vast/port.hpp:23). -/
def icmp6 : UInt8 := 58

/-- `dual` for ICMP types (libvast/src/icmp.cpp:15-40, libvast/vast/icmp.hpp:19-30). -/
def dualIcmp (x : UInt8) : Option UInt8 :=
  if x = 8 then some 0
  else if x = 0 then some 8
  else if x = 13 then some 14
  else if x = 14 then some 13
  else if x = 15 then some 16
  else if x = 16 then some 15
  else if x = 10 then some 9
  else if x = 9 then some 10
  else if x = 17 then some 18
  else if x = 18 then some 17
  else none

/-- `dual` for ICMP6 types (libvast/src/icmp.cpp:42-71, libvast/vast/icmp.hpp:33-46). -/
def dualIcmp6 (x : UInt8) : Option UInt8 :=
  if x = 128 then some 129
  else if x = 129 then some 128
  else if x = 130 then some 131
  else if x = 131 then some 130
  else if x = 133 then some 134
  else if x = 134 then some 133
  else if x = 135 then some 136
  else if x = 136 then some 135
  else if x = 139 then some 140
  else if x = 140 then some 139
  else if x = 144 then some 145
  else if x = 145 then some 144
  else none

/-- The memory of a port number in network order (libvast/vast/community_id.hpp:79-80): the bytes are swapped,
then stored in host order. -/
def netOrder (x : UInt16) : List UInt8 := storeLE 2 (loadLE (storeLE 2 x.toNat).reverse)

/-- The normalisation of ICMP ports (libvast/vast/community_id.hpp:57-74): the second port, and whether the
flow is one-way.  The type is narrowed to 8 bits. -/
def normalize (x : Flow) : UInt16 × Bool :=
  if x.proto = icmp then
    match dualIcmp x.sport.toUInt8 with
    | some p => (p.toUInt16, false)
    | none => (x.dport, true)
  else if x.proto = icmp6 then
    match dualIcmp6 x.sport.toUInt8 with
    | some p => (p.toUInt16, false)
    | none => (x.dport, true)
  else (x.dport, false)

/-- `community_id_hash_append` (libvast/vast/community_id.hpp:54-97): the pieces fed to the hasher. -/
def hashAppend (x : Flow) : List (List UInt8) :=
  let (dport, oneWay) := normalize x
  let ordered := oneWay || ltBytes x.src.bytes x.dst.bytes || (x.src.bytes == x.dst.bytes && x.sport < dport)
  if ordered then [x.src.hashed, x.dst.hashed, [x.proto], [0], netOrder x.sport, netOrder dport]
  else [x.dst.hashed, x.src.hashed, [x.proto], [0], netOrder dport, netOrder x.sport]

/-- `compute<policy::base64>` (libvast/vast/community_id.hpp:124-152); `junk` is the initial content of the
hasher's buffer. -/
def computeBase64 (junk : List UInt8) (x : Flow) (seed : UInt16) : List UInt8 :=
  [49, 58] ++ Base64.encodeBytes (hashChunks junk (netOrder seed :: hashAppend x))

/-- The digits of `hexify<policy::lowercase>` (libvast/vast/detail/coding.hpp:45-77). -/
def hexDigits : List UInt8 := [48, 49, 50, 51, 52, 53, 54, 55, 56, 57, 97, 98, 99, 100, 101, 102]

/-- `hexify` (libvast/vast/detail/coding.hpp:70-77). -/
def hexify (xs : List UInt8) : List UInt8 :=
  xs.flatMap fun (x : UInt8) => [hexDigits.getD ((x >>> 4) &&& 0x0f).toNat 0, hexDigits.getD (x &&& 0x0f).toNat 0]

/-- `compute<policy::ascii>` (libvast/vast/community_id.hpp:124-152). -/
def computeAscii (junk : List UInt8) (x : Flow) (seed : UInt16) : List UInt8 :=
  [49, 58] ++ hexify (hashChunks junk (netOrder seed :: hashAppend x))

end Verif.CommunityId
