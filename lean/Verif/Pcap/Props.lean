import Verif.Pcap.Spec
/-!
# C78: packets become the right events
-/
namespace Verif.Pcap

theorem be16_val (n : Nat) (h : n < 65536) :
    (UInt8.ofNat (n / 256)).toNat * 256 + (UInt8.ofNat n).toNat = n := by
  simp only [UInt8.toNat_ofNat']
  omega

theorem rd_append (a b : List UInt8) (n : Nat) (t : UInt64) (i k : Nat) (h : k = a.length + i) :
    rd ⟨a ++ b, n, t⟩ k = rd ⟨b, n, t⟩ i := by
  subst h
  simp [rd, List.getElem?_append_right]

theorem rd16_append (a b : List UInt8) (n : Nat) (t : UInt64) (i k : Nat) (h : k = a.length + i) :
    rd16 ⟨a ++ b, n, t⟩ k = rd16 ⟨b, n, t⟩ i := by
  simp only [rd16]
  rw [rd_append a b n t i k h, rd_append a b n t (i + 1) (k + 1) (by omega)]

theorem rd4_append (a b : List UInt8) (n : Nat) (t : UInt64) (i k : Nat) (h : k = a.length + i) :
    rd4 ⟨a ++ b, n, t⟩ k = rd4 ⟨b, n, t⟩ i := by
  subst h
  simp only [rd4, List.length_append]
  rw [List.drop_append, List.drop_eq_nil_of_le (by omega)]
  simp [Nat.add_assoc]

theorem rd16_be (x : Nat) (b : List UInt8) (n : Nat) (t : UInt64) (h : x < 65536) :
    rd16 ⟨be16 x ++ b, n, t⟩ 0 = .ok x := by
  simp only [rd16, rd, be16, List.cons_append, List.nil_append, List.getElem?_cons_zero, Nat.zero_add,
    List.getElem?_cons_succ]
  rw [be16_val x h]

theorem rd4_here (a b : List UInt8) (n : Nat) (t : UInt64) (h : a.length = 4) :
    rd4 ⟨a ++ b, n, t⟩ 0 = .ok a := by
  simp [rd4, h]

theorem layer4_append (a b : List UInt8) (n : Nat) (t : UInt64) (src dst : List UInt8) (proto : UInt8) (k size : Nat)
    (h : k = a.length) : layer4 ⟨a ++ b, n, t⟩ src dst proto k size = layer4 ⟨b, n, t⟩ src dst proto 0 size := by
  simp only [layer4, rd16_append a b n t 0 k (by omega), rd16_append a b n t (0 + 2) (k + 2) (by omega),
    rd_append a b n t (0 + 12) (k + 12) (by omega), rd_append a b n t 0 k (by omega),
    rd_append a b n t (0 + 1) (k + 1) (by omega)]

/-- Layer 4 is read right. -/
theorem layer4_ok {proto : UInt8} {l4 : List UInt8} {pr : Proto} {a b n : Nat} (h : Transport proto l4 pr a b n)
    (src dst : List UInt8) (len : Nat) (t : UInt64) (hn : l4.length < 2 ^ 64) :
    layer4 ⟨l4, len, t⟩ src dst proto 0 l4.length = .ok (⟨src, dst, a, b, pr⟩, n) := by
  cases h with
  | tcp a b ha hb mid hm doff low hd hl hdr payload hh =>
    have h1 : rd16 ⟨be16 a ++ be16 b ++ mid ++ [.ofNat (16 * doff + low)] ++ hdr ++ payload, len, t⟩ 0 = .ok a := by
      simp only [List.append_assoc]
      exact rd16_be a _ len t ha
    have h2 : rd16 ⟨be16 a ++ be16 b ++ mid ++ [.ofNat (16 * doff + low)] ++ hdr ++ payload, len, t⟩ 2 = .ok b := by
      simp only [List.append_assoc]
      rw [rd16_append (be16 a) _ len t 0 2 (by simp [be16])]
      exact rd16_be b _ len t hb
    have h3 : rd ⟨be16 a ++ be16 b ++ mid ++ [.ofNat (16 * doff + low)] ++ hdr ++ payload, len, t⟩ 12
        = .ok (.ofNat (16 * doff + low)) := by
      simp only [List.append_assoc]
      rw [rd_append (be16 a) _ len t 10 12 (by simp [be16]), rd_append (be16 b) _ len t 8 10 (by simp [be16]),
        rd_append mid _ len t 0 8 (by omega)]
      rfl
    have h4 : ((UInt8.ofNat (16 * doff + low)) >>> 4).toNat = doff := by
      rw [UInt8.toNat_shiftRight]
      simp only [UInt8.toNat_ofNat', Nat.shiftRight_eq_div_pow]
      have : (16 * doff + low) % 2 ^ 8 = 16 * doff + low := by omega
      rw [this]
      have : (4 : UInt8).toNat % 8 = 4 := rfl
      rw [this]
      omega
    simp only [layer4, if_pos, Nat.zero_add, h1, h2, h3, h4]
    rw [if_neg (by simp [be16])]
    simp only [sub64]
    congr 2
    simp only [List.length_append, List.length_cons, List.length_nil, be16] at hn ⊢
    omega
  | udp a b ha hb hdr payload hh =>
    have h1 : rd16 ⟨be16 a ++ be16 b ++ hdr ++ payload, len, t⟩ 0 = .ok a := by
      simp only [List.append_assoc]
      exact rd16_be a _ len t ha
    have h2 : rd16 ⟨be16 a ++ be16 b ++ hdr ++ payload, len, t⟩ 2 = .ok b := by
      simp only [List.append_assoc]
      rw [rd16_append (be16 a) _ len t 0 2 (by simp [be16])]
      exact rd16_be b _ len t hb
    simp only [layer4, Nat.zero_add, h1, h2]
    rw [if_neg (by decide), if_pos trivial, if_neg (by simp [be16])]
    have h5 : sub64 (be16 a ++ be16 b ++ hdr ++ payload).length 8 = payload.length := by
      simp only [sub64, List.length_append, List.length_cons, List.length_nil, be16] at hn ⊢
      omega
    rw [h5]
  | icmp ty c hdr payload hh =>
    simp only [layer4]
    rw [if_neg (by decide), if_neg (by decide), if_pos trivial, if_neg (by simp)]
    have h5 : sub64 ([ty, c] ++ hdr ++ payload).length 8 = payload.length := by
      simp only [sub64, List.length_append, List.length_cons, List.length_nil] at hn ⊢
      omega
    rw [h5]
    simp only [rd, List.cons_append, List.nil_append, List.getElem?_cons_zero, Nat.zero_add, List.getElem?_cons_succ]
  | other _ ho =>
    simp only [layer4, if_neg ho.1, if_neg ho.2.1, if_neg ho.2.2]

/-- An IPv4 packet is read right. -/
theorem layer3_ipv4 (link : List UInt8) (hl : 12 ≤ link.length) (h : IPv4) (hok : h.Ok) (l4 : List UInt8) {pr : Proto}
    {a b n : Nat} (ht : Transport h.proto l4 pr a b n) (t : UInt64)
    (hn : (link ++ be16 0x0800 ++ h.bytes ++ l4).length < 2 ^ 64) :
    layer3 ⟨link ++ be16 0x0800 ++ h.bytes ++ l4, (link ++ be16 0x0800 ++ h.bytes ++ l4).length, t⟩ (link.length - 12)
      ((link ++ be16 0x0800 ++ h.bytes ++ l4).length - (link.length - 12))
      = .ok (⟨h.src, h.dst, a, b, pr⟩, n) := by
  obtain ⟨h1, h2, h3, h4, h5, h6⟩ := hok
  have hb : h.bytes.length = 4 * h.ihl := by
    simp only [IPv4.bytes, List.length_append, List.length_cons, List.length_nil]; omega
  generalize hlen : (link ++ be16 0x0800 ++ h.bytes ++ l4).length = len
  have hlen' : len = link.length + 2 + 4 * h.ihl + l4.length := by
    rw [← hlen]; simp only [List.length_append, be16, List.length_cons, List.length_nil, hb]
  have e0 : rd16 ⟨link ++ be16 0x0800 ++ h.bytes ++ l4, len, t⟩ (link.length - 12 + 12) = .ok 0x0800 := by
    simp only [List.append_assoc]
    rw [rd16_append link _ len t 0 _ (by omega)]
    exact rd16_be _ _ len t (by decide)
  have go : ∀ i k, k = link.length - 12 + 14 + i → rd ⟨link ++ be16 0x0800 ++ h.bytes ++ l4, len, t⟩ k
      = rd ⟨h.bytes ++ l4, len, t⟩ i := by
    intro i k hk
    rw [List.append_assoc]
    exact rd_append (link ++ be16 0x0800) _ len t i k (by simp [be16]; omega)
  have go4 : ∀ i k, k = link.length - 12 + 14 + i → rd4 ⟨link ++ be16 0x0800 ++ h.bytes ++ l4, len, t⟩ k
      = rd4 ⟨h.bytes ++ l4, len, t⟩ i := by
    intro i k hk
    rw [List.append_assoc]
    exact rd4_append (link ++ be16 0x0800) _ len t i k (by simp [be16]; omega)
  have e1 : rd ⟨h.bytes ++ l4, len, t⟩ 0 = .ok (.ofNat (4 * 16 + h.ihl)) := by
    simp [rd, IPv4.bytes]
  have e2 : rd4 ⟨h.bytes ++ l4, len, t⟩ 12 = .ok h.src := by
    simp only [IPv4.bytes, List.append_assoc]
    rw [rd4_append [_] _ len t 11 12 (by simp), rd4_append h.mid _ len t 3 11 (by omega),
      rd4_append [_] _ len t 2 3 (by simp), rd4_append h.sum _ len t 0 2 (by omega)]
    exact rd4_here _ _ len t h4
  have e3 : rd4 ⟨h.bytes ++ l4, len, t⟩ 16 = .ok h.dst := by
    simp only [IPv4.bytes, List.append_assoc]
    rw [rd4_append [_] _ len t 15 16 (by simp), rd4_append h.mid _ len t 7 15 (by omega),
      rd4_append [_] _ len t 6 7 (by simp), rd4_append h.sum _ len t 4 6 (by omega),
      rd4_append h.src _ len t 0 4 (by omega)]
    exact rd4_here _ _ len t h5
  have e4 : rd ⟨h.bytes ++ l4, len, t⟩ 9 = .ok h.proto := by
    simp only [IPv4.bytes, List.append_assoc]
    rw [rd_append [_] _ len t 8 9 (by simp), rd_append h.mid _ len t 0 8 (by omega)]
    rfl
  have e5 : ((UInt8.ofNat (4 * 16 + h.ihl)) &&& 0x0f).toNat = h.ihl := by
    rw [UInt8.toNat_and]
    simp only [UInt8.toNat_ofNat']
    have : (15 : UInt8).toNat = 2 ^ 4 - 1 := rfl
    rw [this, Nat.and_two_pow_sub_one_eq_mod]
    omega
  simp only [layer3]
  rw [if_neg (by omega), e0]
  simp only [if_true]
  rw [if_neg (by omega), go 0 _ (by omega), e1]
  simp only [e5]
  rw [if_neg (by omega), go4 12 _ rfl, e2, go4 16 _ rfl, e3, go 9 _ rfl, e4]
  simp only
  rw [if_neg (by omega), layer4_append (link ++ be16 0x0800 ++ h.bytes) l4 len t _ _ _ _ _
    (by simp [be16, hb]; omega)]
  have : len - (link.length - 12) - 14 - h.ihl * 4 = l4.length := by omega
  rw [this]
  exact layer4_ok ht _ _ len t (by omega)

/-- **C78.**  A completely captured frame with an IPv4 packet, with or without VLAN tags, and a complete transport
header becomes the event with the addresses and ports of its headers and the bytes of layer 3; the payload is
counted right, and no byte outside the frame is read.

Partial: IPv4 only, complete capture, complete headers, no tag types other than those of `LinkHeader`. -/
theorem C78_fields_partial (link : List UInt8) (hl : LinkHeader link) (h : IPv4) (hok : h.Ok) (l4 : List UInt8) {pr : Proto}
    {a b n : Nat} (ht : Transport h.proto l4 pr a b n) (t : UInt64)
    (hn : (link ++ be16 0x0800 ++ h.bytes ++ l4).length < 2 ^ 64) :
    parse ⟨link ++ be16 0x0800 ++ h.bytes ++ l4, (link ++ be16 0x0800 ++ h.bytes ++ l4).length, t⟩
      = .ok ⟨⟨h.src, h.dst, a, b, pr⟩, n, h.bytes ++ l4⟩ := by
  have hlen : 14 ≤ (link ++ be16 0x0800 ++ h.bytes ++ l4).length ∧ 12 ≤ link.length := by
    cases hl <;> simp [be16] <;> omega
  have hd : decapsulate ⟨link ++ be16 0x0800 ++ h.bytes ++ l4, (link ++ be16 0x0800 ++ h.bytes ++ l4).length, t⟩
      = .ok (link.length - 12) := by
    simp only [decapsulate]
    rw [if_neg (by omega)]
    cases hl with
    | plain _ h0 =>
      simp only [List.append_assoc]
      rw [rd16_append link _ _ t 0 12 (by omega), rd16_be _ _ _ t (by decide)]
      simp [h0]
    | tagged macs tci h0 h1 =>
      simp only [List.append_assoc]
      rw [rd16_append macs _ _ t 0 12 (by omega), rd16_be _ _ _ t (by decide)]
      simp [h0, h1, be16]
    | doubly macs tci tpid tci' h0 h1 h2 h3 =>
      simp only [List.append_assoc]
      rw [rd16_append macs _ _ t 0 12 (by omega), rd16_be _ _ _ t (by decide)]
      simp [h0, h1, h2, h3, be16]
  simp only [parse, hd]
  rw [layer3_ipv4 link hlen.2 h hok l4 ht t hn]
  simp only
  congr 2
  have e : link.length - 12 + 14 = (link ++ be16 0x0800).length := by
    simp only [List.length_append, be16, List.length_cons, List.length_nil]; omega
  rw [e, List.append_assoc (link ++ be16 0x0800), List.drop_left]
  apply List.take_of_length_le
  simp only [List.length_append, be16, List.length_cons, List.length_nil]
  omega

deriving instance DecidableEq for Except

/-- An HTTP-like packet: 10.0.0.1:1234 to 10.0.0.2:80, five bytes of payload, behind one VLAN tag. -/
def someMacs : List UInt8 := [1, 2, 3, 4, 5, 6, 7, 8, 9, 10, 11, 12]

/-- Its IPv4 header. -/
def someIp (proto : UInt8) : IPv4 := ⟨5, [0, 0, 0, 0, 0, 0, 0, 64], proto, [0, 0], [10, 0, 0, 1], [10, 0, 0, 2], []⟩

/-- A UDP datagram. -/
def someUdp (payload : List UInt8) : List UInt8 := be16 1234 ++ be16 53 ++ [0, 0, 0, 0] ++ payload

example : LinkHeader (someMacs ++ be16 0x8100 ++ [0, 7]) := .tagged _ _ rfl rfl
example : (someIp 6).Ok := ⟨by decide, rfl, rfl, rfl, rfl, rfl⟩
example : Transport 6 (be16 1234 ++ be16 80 ++ [0, 0, 0, 1, 0, 0, 0, 0] ++ [.ofNat (16 * 5 + 0)] ++
    [0x18, 0, 0, 0, 0, 0, 0] ++ [104, 101, 108, 108, 111]) .tcp 1234 80 5 :=
  .tcp 1234 80 (by decide) (by decide) _ rfl 5 0 (by decide) (by decide) _ [104, 101, 108, 108, 111] rfl
example : parse ⟨someMacs ++ be16 0x8100 ++ [0, 7] ++ be16 0x0800 ++ (someIp 17).bytes ++ someUdp [1, 2, 3], 49, 5⟩
    = .ok ⟨⟨[10, 0, 0, 1], [10, 0, 0, 2], 1234, 53, .udp⟩, 3, (someIp 17).bytes ++ someUdp [1, 2, 3]⟩ := by
  decide +kernel

/-- The bytes of an IPv6 packet. -/
def ipv6 (src dst : List UInt8) (proto : UInt8) (l4 : List UInt8) : List UInt8 :=
  [0x60, 0, 0, 0] ++ be16 l4.length ++ [proto, 64] ++ src ++ dst ++ l4

/-- **C78 refuted (IPv6).**  Only the first four bytes of an IPv6 address are taken: packets of different hosts
get the same addresses. -/
theorem C78_ipv6_refuted :
    ∃ src src' dst l4 : List UInt8, src.length = 16 ∧ src'.length = 16 ∧ dst.length = 16 ∧ src ≠ src'
      ∧ ∃ q q', parse ⟨someMacs ++ be16 0x86dd ++ ipv6 src dst 17 l4, 14 + 40 + l4.length, 0⟩ = .ok q
        ∧ parse ⟨someMacs ++ be16 0x86dd ++ ipv6 src' dst 17 l4, 14 + 40 + l4.length, 0⟩ = .ok q'
        ∧ q.conn = q'.conn :=
  ⟨[0x20, 1, 0xd, 0xb8, 0, 0, 0, 0, 0, 0, 0, 0, 0, 0, 0, 1], [0x20, 1, 0xd, 0xb8, 0, 0, 0, 0, 0, 0, 0, 0, 0, 0, 0, 2],
    [0x20, 1, 0xd, 0xb8, 0, 0, 0, 0, 0, 0, 0, 0, 0, 0, 0, 3], someUdp [1], rfl, rfl, rfl, by decide,
    ⟨⟨[0x20, 1, 0xd, 0xb8], [0x20, 1, 0xd, 0xb8], 1234, 53, .udp⟩, 1, 
      ipv6 [0x20, 1, 0xd, 0xb8, 0, 0, 0, 0, 0, 0, 0, 0, 0, 0, 0, 1]
        [0x20, 1, 0xd, 0xb8, 0, 0, 0, 0, 0, 0, 0, 0, 0, 0, 0, 3] 17 (someUdp [1])⟩,
    ⟨⟨[0x20, 1, 0xd, 0xb8], [0x20, 1, 0xd, 0xb8], 1234, 53, .udp⟩, 1, 
      ipv6 [0x20, 1, 0xd, 0xb8, 0, 0, 0, 0, 0, 0, 0, 0, 0, 0, 0, 2]
        [0x20, 1, 0xd, 0xb8, 0, 0, 0, 0, 0, 0, 0, 0, 0, 0, 0, 3] 17 (someUdp [1])⟩, by decide +kernel, by decide +kernel, rfl⟩

/-- Options that do not get in the way. -/
def roomy : Cfg := ⟨1000, 100, 60, 10⟩

/-- A frame with the IPv4 packet `someIp`, completely captured. -/
def frame (proto : UInt8) (l4 : List UInt8) (t : UInt64) : Packet :=
  ⟨someMacs ++ be16 0x0800 ++ (someIp proto).bytes ++ l4, 34 + l4.length, t⟩

/-- **C78 refuted (truncated capture).**  Of a frame of which only the first bytes were captured, the reader copies
as many bytes as it had on the wire. -/
theorem C78_snaplen_refuted :
    ∃ (cap : Nat) (pick : Nat → Nat),
      let p := frame 17 (someUdp [1, 2, 3, 4]) 1
      34 + 8 ≤ cap ∧ (packet roomy 100 pick .init { p with data := p.data.take cap }).2 = .bad .oob :=
  ⟨42, id, by decide, by decide +kernel⟩

/-- **C78 refuted (short TCP header).**  A packet that ends within its TCP header makes the reader read beyond it. -/
theorem C78_short_tcp_refuted : ∃ l4 : List UInt8, parse (frame 6 l4 1) = .error .oob :=
  ⟨be16 1234 ++ be16 80, by decide +kernel⟩

/-- **C78 refuted (no transport header).**  A packet that ends with its IP header fails an assertion. -/
theorem C78_empty_refuted : parse (frame 6 [] 1) = .error .abort := by decide +kernel

/-- **C78 refuted (short tagged frame).**  A frame that ends with its VLAN tag makes the reader read beyond it. -/
theorem C78_vlan_refuted : ∃ p : Packet, p.data.length = p.len ∧ parse p = .error .oob :=
  ⟨⟨someMacs ++ be16 0x8100, 14, 1⟩, rfl, by decide +kernel⟩

/-- **C78 refuted (wrapped payload).**  The payload of a UDP datagram that ends within its header is counted as
almost 2^64 bytes. -/
theorem C78_payload_refuted : ∃ (l4 : List UInt8) (q : Parsed), parse (frame 17 l4 1) = .ok q ∧ q.payload = 2 ^ 64 - 4 :=
  ⟨be16 1234 ++ be16 53, ⟨⟨[10, 0, 0, 1], [10, 0, 0, 2], 1234, 53, .udp⟩, 2 ^ 64 - 4,
    (someIp 17).bytes ++ (be16 1234 ++ be16 53)⟩, by decide +kernel, rfl⟩

/-- **C78 refuted (malformed frames).**  One malformed frame ends the import, and the events of the frames before
it that had not been delivered yet are not delivered. -/
theorem C78_malformed_refuted :
    ∃ good bad : Packet, (∃ q, parse good = .ok q)
      ∧ let r := trace roomy 100 [(good, id), (bad, id), (good, id)] .init
        r.2 = .bad .fatal ∧ r.1.out = [] ∧ r.1.rows.length = 1 :=
  ⟨frame 17 (someUdp [1]) 1, ⟨[1, 2, 3], 3, 1⟩, ⟨⟨⟨[10, 0, 0, 1], [10, 0, 0, 2], 1234, 53, .udp⟩, 1,
    (someIp 17).bytes ++ someUdp [1]⟩, by decide +kernel⟩,
    by decide +kernel⟩

end Verif.Pcap
