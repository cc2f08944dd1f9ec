import Verif.Pcap.Model
/-!
# Frames and flows, seen from outside

How a packet is laid out on the wire, and what a cutoff per flow means.
-/
namespace Verif.Pcap

/-- Two bytes in network order. -/
def be16 (n : Nat) : List UInt8 := [.ofNat (n / 256), .ofNat n]

/-- What precedes the EtherType of the payload: two MAC addresses and up to two VLAN tags. -/
inductive LinkHeader : List UInt8 → Prop where
  | plain (macs : List UInt8) (h : macs.length = 12) : LinkHeader macs
  | tagged (macs tci : List UInt8) (h : macs.length = 12) (ht : tci.length = 2) : LinkHeader (macs ++ be16 0x8100 ++ tci)
  | doubly (macs tci tpid tci' : List UInt8) (h : macs.length = 12) (ht : tci.length = 2) (hp : tpid.length = 2)
      (ht' : tci'.length = 2) : LinkHeader (macs ++ be16 0x9100 ++ tci ++ tpid ++ tci')

/-- An IPv4 header: version and header length, eight bytes of other fields, protocol, checksum, addresses and
options. -/
structure IPv4 where
  ihl : Nat
  mid : List UInt8
  proto : UInt8
  sum : List UInt8
  src : List UInt8
  dst : List UInt8
  opts : List UInt8

/-- The sizes of its parts. -/
structure IPv4.Ok (h : IPv4) : Prop where
  ihl : 5 ≤ h.ihl ∧ h.ihl < 16
  mid : h.mid.length = 8
  sum : h.sum.length = 2
  src : h.src.length = 4
  dst : h.dst.length = 4
  opts : h.opts.length = 4 * h.ihl - 20

/-- Its bytes. -/
def IPv4.bytes (h : IPv4) : List UInt8 :=
  [.ofNat (4 * 16 + h.ihl)] ++ h.mid ++ [h.proto] ++ h.sum ++ h.src ++ h.dst ++ h.opts

/-- A transport header with payload: protocol number, bytes, protocol, ports, size of the payload. -/
inductive Transport : UInt8 → List UInt8 → Proto → Nat → Nat → Nat → Prop where
  /-- TCP: ports, eight bytes, data offset in 32-bit words, the rest of the header, payload -/
  | tcp (a b : Nat) (ha : a < 65536) (hb : b < 65536) (mid : List UInt8) (hm : mid.length = 8) (doff low : Nat)
      (hd : 5 ≤ doff ∧ doff < 16) (hl : low < 16) (hdr payload : List UInt8) (hh : hdr.length = 4 * doff - 13) :
      Transport 6 (be16 a ++ be16 b ++ mid ++ [.ofNat (16 * doff + low)] ++ hdr ++ payload) .tcp a b payload.length
  /-- UDP: ports, length and checksum, payload -/
  | udp (a b : Nat) (ha : a < 65536) (hb : b < 65536) (hdr payload : List UInt8) (hh : hdr.length = 4) :
      Transport 17 (be16 a ++ be16 b ++ hdr ++ payload) .udp a b payload.length
  /-- ICMP: type, code, six more bytes, payload -/
  | icmp (t c : UInt8) (hdr payload : List UInt8) (hh : hdr.length = 6) :
      Transport 1 ([t, c] ++ hdr ++ payload) .icmp t.toNat c.toNat payload.length
  /-- other protocols have no ports; all of layer 4 counts as payload -/
  | other (proto : UInt8) (h : proto ≠ 6 ∧ proto ≠ 17 ∧ proto ≠ 1) (payload : List UInt8) :
      Transport proto payload .unknown 0 0 payload.length

/-- What a cutoff per flow means: a packet of flow `x` is kept if fewer than `cutoff` payload bytes of that flow
precede it; `n` bytes were there before. -/
def kept (cutoff : Nat) (x : Conn) : Nat → List Parsed → List Parsed
  | _, [] => []
  | n, q :: qs =>
    if q.conn = x then
      if n < cutoff then q :: kept cutoff x (n + q.payload) qs else kept cutoff x (n + q.payload) qs
    else kept cutoff x n qs

/-- The packets of flow `x` follow each other within `maxAge` seconds; the last one so far was at `l`. -/
def steady (maxAge : UInt64) (x : Conn) : Option UInt64 → List (Conn × UInt64) → Prop
  | _, [] => True
  | l, (c, t) :: ps =>
    if c = x then (∀ t₀, l = some t₀ → t - t₀ ≤ maxAge) ∧ steady maxAge x (some t) ps else steady maxAge x l ps

end Verif.Pcap
