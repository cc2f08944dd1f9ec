import Verif.CommunityId.Model
import Verif.Sha1.Spec
/-!
# Community ID, version 1, as published

The two endpoints are ordered by address, read as a number, then port; the ID is the text `1:` followed by
the SHA-1 digest of seed, addresses, protocol, a zero byte and ports, all big-endian.  An ICMP message has
its type in place of the source port.  If it belongs to a request/reply pair, the destination port is the type
of its counterpart; otherwise the destination port is the code and the flow has only one direction.
-/
namespace Verif.CommunityId

open Verif.Sha1

/-- The number whose big-endian bytes are these. -/
def number (bs : List UInt8) : Nat := bs.foldl (fun n b => 256 * n + b.toNat) 0

/-- The request/reply pairs of ICMP. -/
def icmpPairs : List (UInt8 × UInt8) := [(8, 0), (13, 14), (15, 16), (10, 9), (17, 18)]

/-- The request/reply pairs of ICMP6. -/
def icmp6Pairs : List (UInt8 × UInt8) := [(128, 129), (130, 131), (133, 134), (135, 136), (139, 140), (144, 145)]

/-- Whether two types are counterparts. -/
def Counterparts (proto : UInt8) (t u : UInt8) : Prop :=
  (proto = 1 ∧ ((t, u) ∈ icmpPairs ∨ (u, t) ∈ icmpPairs)) ∨ (proto = 58 ∧ ((t, u) ∈ icmp6Pairs ∨ (u, t) ∈ icmp6Pairs))

/-- Whether a protocol is one of the two kinds of ICMP. -/
def IsIcmp (proto : UInt8) : Prop := proto = 1 ∨ proto = 58

/-- An address in 4 or 16 bytes. -/
def addrBytes (a : Addr) : List UInt8 := if a.bytes.take 12 = v4Prefix then a.bytes.drop 12 else a.bytes

/-- The bytes to hash, for a sender with address `a` and port `p` and a receiver with `b` and `q`, in this
order. -/
def message (seed : UInt16) (proto : UInt8) (a b : Addr) (p q : UInt16) : List UInt8 :=
  bigEndian 2 seed.toNat ++ addrBytes a ++ addrBytes b ++ [proto, 0] ++ bigEndian 2 p.toNat ++ bigEndian 2 q.toNat

/-- Whether endpoint `(a, p)` precedes endpoint `(b, q)`. -/
def Precedes (a b : Addr) (p q : UInt16) : Prop :=
  number a.bytes < number b.bytes ∨ (a = b ∧ p < q)

/-- `m` is the message to hash for the flow `x`. -/
inductive IsMessage (seed : UInt16) (x : Flow) : List UInt8 → Prop where
  /-- a flow between ports, or two ICMP counterparts, with the endpoints in order -/
  | ordered (q : UInt16) (hq : (¬ IsIcmp x.proto ∧ q = x.dport) ∨ (∃ t u, Counterparts x.proto t u ∧ x.sport = t.toUInt16 ∧ q = u.toUInt16))
      (h : ¬ Precedes x.dst x.src q x.sport) : IsMessage seed x (message seed x.proto x.src x.dst x.sport q)
  /-- the same with the endpoints exchanged -/
  | exchanged (q : UInt16) (hq : (¬ IsIcmp x.proto ∧ q = x.dport) ∨ (∃ t u, Counterparts x.proto t u ∧ x.sport = t.toUInt16 ∧ q = u.toUInt16))
      (h : Precedes x.dst x.src q x.sport) : IsMessage seed x (message seed x.proto x.dst x.src q x.sport)
  /-- an ICMP message without counterpart -/
  | oneWay (h : IsIcmp x.proto) (t : UInt8) (ht : x.sport = t.toUInt16) (hn : ∀ u, ¬ Counterparts x.proto t u) :
      IsMessage seed x (message seed x.proto x.src x.dst x.sport x.dport)

/-- The opposite direction of a flow between ports. -/
def Flow.reverse (x : Flow) : Flow := ⟨x.dst, x.src, x.dport, x.sport, x.proto⟩

/-- `y` goes in the opposite direction of `x`: addresses exchanged, and ports exchanged, or, for ICMP, the
types counterparts of each other. -/
def Opposite (x y : Flow) : Prop :=
  x.proto = y.proto ∧ y.src = x.dst ∧ y.dst = x.src ∧
  ((¬ IsIcmp x.proto ∧ y.sport = x.dport ∧ y.dport = x.sport) ∨
   ∃ t u, Counterparts x.proto t u ∧ x.sport = t.toUInt16 ∧ y.sport = u.toUInt16)

end Verif.CommunityId
