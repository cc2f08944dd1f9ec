import Verif.Index.Net
import Verif.Index.TextProps
import Verif.Address.Props

/-!
# Lemmas about the address index
-/

namespace Verif.Index

open Verif.Data (RelOp)
open Verif.Address (Address Subnet SamePrefix isV4_iff addr_ext)
open Spec (Row)

theorem octets_length (a : Address) : (octets a).length = 16 := by rw [octets, List.length_map, a.len]

theorem octets_getElem? (a : Address) {i : Nat} (hi : i < 16) :
    (octets a)[i]? = some (UInt8.ofBitVec (a.bytes.getD i 0)) := by
  rw [octets, List.getElem?_map, List.getElem?_eq_getElem (by rw [a.len]; exact hi), Option.map_some,
    List.getD_eq_getElem?_getD, List.getElem?_eq_getElem (by rw [a.len]; exact hi)]
  rfl

theorem octets_inj {a b : Address} (h : octets a = octets b) : a = b := by
  obtain ⟨xs, hx⟩ := a
  obtain ⟨ys, hy⟩ := b
  have : xs = ys := (List.map_inj_right fun x y hxy => by simpa using hxy).1 h
  subst this
  rfl

namespace AddressIndex

/-- The index holds a column. -/
structure AddrInv (s : AddressIndex) (col : List (Option Address)) : Prop where
  count : s.bytes.length = 16
  bytes : ∀ (i : Nat) c, s.bytes[i]? = some c →
    KRep .bitslice 8 c (col.map (·.map fun a => (a.bytes.getD i 0).toNat))
  v4 : s.v4 = col.map fun o => o.any (·.isV4)

theorem addrInv_make : AddrInv make [] := by
  refine ⟨by simp [make], ?_, rfl⟩
  intro i c hc
  simp only [make, List.getElem?_replicate] at hc
  split at hc
  · obtain rfl := Option.some.inj hc
    exact kRep_make .bitslice 8
  · simp at hc

theorem addrAppends : Appends impl AddrInv (fun _ => True) := by
  refine ⟨?_⟩
  intro s col a pos h hp _
  refine ⟨_, rfl, ?_, ?_, ?_⟩
  · rw [List.length_zipWith, h.count, octets_length]; rfl
  · intro i c hc
    simp only at hc
    rw [List.getElem?_zipWith] at hc
    cases hd : s.bytes[i]? with
    | none => simp [hd] at hc
    | some d =>
      have hi : i < 16 := by rw [← h.count]; exact lt_of_getElem? hd
      rw [hd, octets_getElem? a hi] at hc
      simp only [Option.some.injEq] at hc
      have hr := h.bytes i d hd
      have hs := kRep_skip hr (pos - col.length)
      obtain ⟨c', e1, e2⟩ := kRep_encode (k := .bitslice) hs (x := (a.bytes.getD i 0).toNat) trivial 1
      have e1' : some (BitsliceCoder.encode (d.skip (pos - col.length)) (a.bytes.getD i 0).toNat 1) = some c' := e1
      have : c = c' := by
        rw [← hc, StringIndex.appendChar, hr.size, List.length_map]
        exact Option.some.inj e1'
      rw [this]
      simpa using e2
  · simp only [SingletonCoder.encode, h.v4, Bm.appendBits]
    simp

/-- Looking up one byte. -/
theorem byte_equal {s : AddressIndex} {col : List (Option Address)} (h : AddrInv s col) {i : Nat} {c : VectorCoder}
    (hc : s.bytes[i]? = some c) (x : UInt8) :
    (BitsliceCoder.equal c x.toNat).length = col.length ∧
    ∀ (j : Nat) a, col[j]? = some (some a) →
      ((BitsliceCoder.equal c x.toNat).bit j = true ↔ (octets a)[i]? = some x) := by
  obtain ⟨h1, h2, _⟩ := bitslice_equal (h.bytes i c hc) x.toNat
  refine ⟨by simpa using h1, ?_⟩
  intro j a hj
  have hi : i < 16 := by rw [← h.count]; exact lt_of_getElem? hc
  rw [h2 j (a.bytes.getD i 0).toNat (by simp [hj]), List.all_eq_true, octets_getElem? a hi, Option.some.injEq]
  generalize a.bytes.getD i 0 = y
  constructor
  · intro hb
    apply UInt8.toNat_inj.1
    apply Nat.eq_of_testBit_eq
    intro k
    by_cases hk : k < 8
    · have := hb k (by simpa using hk)
      simpa using this
    · have e1 : (UInt8.ofBitVec y).toNat < 2 ^ k :=
        Nat.lt_of_lt_of_le (UInt8.toNat_lt _) (Nat.pow_le_pow_right (by omega) (by omega : 8 ≤ k))
      have e2 : x.toNat < 2 ^ k :=
        Nat.lt_of_lt_of_le (UInt8.toNat_lt _) (Nat.pow_le_pow_right (by omega) (by omega : 8 ≤ k))
      rw [Nat.testBit_lt_two_pow e1, Nat.testBit_lt_two_pow e2]
  · rintro rfl k _
    simp

theorem bounded {s : AddressIndex} {col : List (Option Address)} (h : AddrInv s col) (k : Nat) :
    ∀ c ∈ s.bytes.drop k, ∀ x : UInt8, (BitsliceCoder.equal c x.toNat).length ≤ col.length := by
  intro c hc x
  obtain ⟨i, hi⟩ := List.mem_iff_getElem?.1 (List.mem_of_mem_drop hc)
  exact Nat.le_of_eq (byte_equal h hi x).1

theorem start_spec {s : AddressIndex} {col : List (Option Address)} (h : AddrInv s col) {offset : Nat}
    (ho : col.length ≤ offset) (v4 : Bool) :
    (start offset s v4).length ≤ offset ∧ col.length ≤ (start offset s v4).length ∧
    ∀ (j : Nat) a, col[j]? = some (some a) → (start offset s v4).bit j = (!v4 || a.isV4) := by
  unfold start
  cases v4
  · simp only [Bool.false_eq_true, if_false, Bm.fill_length, Bool.not_false, Bool.true_or]
    refine ⟨Nat.le_refl _, ho, ?_⟩
    intro j a hj
    have := lt_of_getElem? hj
    rw [Bm.bit_fill]
    simp only [show j < offset by omega, decide_true, Bool.and_true]
  · simp only [if_true, h.v4, List.length_map, Bool.not_true, Bool.false_or]
    refine ⟨ho, Nat.le_refl _, ?_⟩
    intro j a hj
    exact Bm.bit_of_getElem? (by simp [hj])

/-- All bytes from `k` on match. -/
theorem allB_row {s : AddressIndex} {col : List (Option Address)} (h : AddrInv s col) (x : Address) (k : Nat)
    (j : Nat) (a : Address) (hj : col[j]? = some (some a)) :
    StringIndex.allB (s.bytes.drop k) ((octets x).drop k) j = true ↔ (octets a).drop k = (octets x).drop k := by
  rw [StringIndex.allB_iff _ _ _ (by rw [List.length_drop, List.length_drop, h.count, octets_length]; omega)]
  constructor
  · intro hb
    apply List.ext_getElem?
    intro i
    rw [List.getElem?_drop, List.getElem?_drop]
    by_cases hi : k + i < 16
    · have hc : s.bytes[k + i]? = some (s.bytes[k + i]'(by rw [h.count]; exact hi)) := List.getElem?_eq_getElem _
      have hx := octets_getElem? x hi
      rw [hx]
      have := hb i _ _ (by rw [List.getElem?_drop]; exact hx) (by rw [List.getElem?_drop]; exact hc)
      exact ((byte_equal h hc _).2 j a hj).1 this
    · rw [List.getElem?_eq_none (by rw [octets_length]; omega), List.getElem?_eq_none (by rw [octets_length]; omega)]
  · intro he i y c hy hc
    rw [List.getElem?_drop] at hc
    rw [← he, List.getElem?_drop] at hy
    exact ((byte_equal h hc y).2 j a hj).2 hy

theorem octets_v4 {a x : Address} (ha : a.isV4 = true) (hx : x.isV4 = true)
    (he : (octets a).drop 12 = (octets x).drop 12) : a = x := by
  apply octets_inj
  rw [← List.take_append_drop 12 (octets a), ← List.take_append_drop 12 (octets x), he]
  congr 1
  simp only [Address.isV4, beq_iff_eq] at ha hx
  rw [octets, octets, ← List.map_take, ← List.map_take, ha, hx]

/-- The rows equal to an address. -/
theorem lookupAddr_spec {s : AddressIndex} {col : List (Option Address)} (h : AddrInv s col) {offset : Nat}
    (ho : col.length ≤ offset) (ne : Bool) (x : Address) :
    (lookupAddr offset s ne x).length ≤ offset ∧
    ∀ (j : Nat) a, col[j]? = some (some a) → (lookupAddr offset s ne x).bit j = (decide (a = x) ^^ ne) := by
  obtain ⟨s1, s2, s3⟩ := start_spec h ho x.isV4
  have hall : ∀ (j : Nat) a, col[j]? = some (some a) →
      ((start offset s x.isV4).bit j && StringIndex.allB (s.bytes.drop (if x.isV4 then 12 else 0))
        ((octets x).drop (if x.isV4 then 12 else 0)) j) = decide (a = x) := by
    intro j a hj
    rw [s3 j a hj, Bool.eq_iff_iff, Bool.and_eq_true, allB_row h x _ j a hj, decide_eq_true_eq]
    constructor
    · rintro ⟨h1, h2⟩
      by_cases hx : x.isV4
      · simp only [hx, Bool.not_true, Bool.false_or, if_true] at h1 h2
        exact octets_v4 h1 hx h2
      · simp only [hx, if_false, List.drop_zero] at h2
        exact octets_inj (by simpa using h2)
    · rintro rfl
      exact ⟨by cases a.isV4 <;> rfl, rfl⟩
  unfold lookupAddr
  rcases StringIndex.equalLoop_spec (start offset s x.isV4).length (s.bytes.drop (if x.isV4 then 12 else 0))
      ((octets x).drop (if x.isV4 then 12 else 0)) (start offset s x.isV4)
      (by rw [List.length_drop, List.length_drop, h.count, octets_length]; exact Nat.le_refl _)
      (fun c hc y => Nat.le_trans (bounded h _ c hc y) s2) rfl with ⟨l1, l2⟩ | ⟨r, l1, l2, l3⟩
  · rw [l1]
    refine ⟨by simp, ?_⟩
    intro j a hj
    have := lt_of_getElem? hj
    rw [← hall j a hj, l2 j, Bm.bit_fill]
    simp only [show j < offset by omega, decide_true, Bool.true_and, Bool.false_xor]
  · rw [l1]
    cases ne
    · simp only [Bool.false_eq_true, if_false, Bool.xor_false]
      exact ⟨by omega, fun j a hj => by rw [l3, hall j a hj]⟩
    · simp only [if_true, Bool.xor_true]
      refine ⟨by rw [Bm.not_length]; omega, fun j a hj => ?_⟩
      have := lt_of_getElem? hj
      rw [Bm.bit_not _ (by omega), l3, hall j a hj]

/-! ### Prefixes -/

theorem bitLoop_spec {s : AddressIndex} {col : List (Option Address)} (h : AddrInv s col) {i : Nat} {c : VectorCoder}
    (hc : s.bytes[i]? = some c) (x : Address) (L : Nat) (hL : col.length ≤ L) : ∀ (n j : Nat) (b : Bm), j + n ≤ 8 → b.length = L →
    ∃ r, bitLoop c (UInt8.ofBitVec (x.bytes.getD i 0)) n j b = some r ∧ r.length = L ∧
      ∀ (k : Nat) a, col[k]? = some (some a) →
        (r.bit k = true ↔ b.bit k = true ∧ ∀ t, j ≤ t → t < j + n → a.bit (8 * i + t) = x.bit (8 * i + t)) := by
  intro n
  induction n with
  | zero =>
    intro j b _ hb
    exact ⟨b, rfl, hb, fun k a _ => ⟨fun h => ⟨h, fun t h1 h2 => by omega⟩, fun h => h.1⟩⟩
  | succ n ih =>
    intro j b hj hb
    have hr := h.bytes i c hc
    have hcnt : 7 - j < c.bitmaps.length := by rw [hr.count]; omega
    have hbm := List.getElem?_eq_getElem hcnt
    have hle := hr.le _ _ hbm
    have hsz := hr.size
    rw [List.length_map] at hsz
    rw [bitLoop, hbm]
    simp only
    obtain ⟨r, e1, e2, e3⟩ := ih (j + 1) (b.and (if (UInt8.ofBitVec (x.bytes.getD i 0)).toNat.testBit (7 - j)
      then (c.bitmaps[7 - j]).not else c.bitmaps[7 - j])) (by omega) (by
        rw [Bm.and_length]
        split
        · rw [Bm.not_length]; omega
        · omega)
    refine ⟨r, e1, e2, ?_⟩
    intro k a hk
    have hbit := bitslice_bit hr hbm k
    have hfull := hr.full rfl _ _ hbm k (a.bytes.getD i 0).toNat (by simp [hk])
    rw [List.getElem?_map, hk] at hbit
    simp only [Option.map_some] at hbit
    have hstep : (if (UInt8.ofBitVec (x.bytes.getD i 0)).toNat.testBit (7 - j)
      then (c.bitmaps[7 - j]).not else c.bitmaps[7 - j]).bit k = true ↔ a.bit (8 * i + j) = x.bit (8 * i + j) := by
      have ea : ∀ z : Address, z.bit (8 * i + j) = (z.bytes.getD i 0).toNat.testBit (7 - j) := by
        intro z
        rw [Address.bit, show (8 * i + j) / 8 = i by omega, show (8 * i + j) % 8 = j by omega, BitVec.getMsbD]
        have : j < 8 := by omega
        simp only [this, decide_true, Bool.true_and, BitVec.getLsbD]
      rw [ea a, ea x]
      have ex : (UInt8.ofBitVec (x.bytes.getD i 0)).toNat = (x.bytes.getD i 0).toNat := rfl
      rw [ex]
      split
      · next ht =>
        rw [Bm.bit_not _ hfull, hbit, ht, Bool.not_not]
      · next ht =>
        simp only [Bool.not_eq_true] at ht
        rw [hbit, ht]
        simp
    rw [e3 k a hk, Bm.bit_and, Bool.and_eq_true, hstep]
    constructor
    · rintro ⟨⟨h1, h2⟩, h3⟩
      refine ⟨h1, fun t ht1 ht2 => ?_⟩
      by_cases htj : t = j
      · rw [htj]; exact h2
      · exact h3 t (by omega) (by omega)
    · rintro ⟨h1, h2⟩
      exact ⟨⟨h1, h2 j (by omega) (by omega)⟩, fun t ht1 ht2 => h2 t (by omega) (by omega)⟩

theorem prefixLoop_spec {s : AddressIndex} {col : List (Option Address)} (h : AddrInv s col) (x : Address) (L : Nat)
    (hL : col.length ≤ L) : ∀ (m i k : Nat) (b : Bm), i + m = 16 → k ≤ 8 * m → b.length = L →
    ∃ r, prefixLoop (s.bytes.drop i) ((octets x).drop i) k b = some r ∧ r.length = L ∧
      ∀ (j : Nat) a, col[j]? = some (some a) →
        (r.bit j = true ↔ b.bit j = true ∧ ∀ t, t < k → a.bit (8 * i + t) = x.bit (8 * i + t)) := by
  intro m
  induction m with
  | zero =>
    intro i k b hi hk hb
    rw [List.drop_eq_nil_of_le (by rw [h.count]; omega), List.drop_eq_nil_of_le (by rw [octets_length]; omega)]
    exact ⟨b, by rw [prefixLoop, if_pos (by omega)]; simp, hb, fun j a _ => ⟨fun h => ⟨h, fun t ht => by omega⟩, fun h => h.1⟩⟩
  | succ m ih =>
    intro i k b hi hk hb
    have hc' : i < s.bytes.length := by rw [h.count]; omega
    have hx' : i < (octets x).length := by rw [octets_length]; omega
    have hx := octets_getElem? x (by omega : i < 16)
    rw [List.getElem?_eq_getElem hx', Option.some.injEq] at hx
    rw [List.drop_eq_getElem_cons hc', List.drop_eq_getElem_cons hx', prefixLoop, hx]
    have hc := List.getElem?_eq_getElem hc'
    obtain ⟨q1, q2⟩ := byte_equal h hc (UInt8.ofBitVec (x.bytes.getD i 0))
    split
    · next h8 =>
      obtain ⟨r, e1, e2, e3⟩ := ih (i + 1) (k - 8) (b.and (BitsliceCoder.equal s.bytes[i] (UInt8.ofBitVec (x.bytes.getD i 0)).toNat))
        (by omega) (by omega) (by rw [Bm.and_length]; omega)
      refine ⟨r, e1, e2, ?_⟩
      intro j a hj
      rw [e3 j a hj, Bm.bit_and, Bool.and_eq_true, q2 j a hj, octets_getElem? a (by omega : i < 16), Option.some.injEq]
      have hbyte : UInt8.ofBitVec (a.bytes.getD i 0) = UInt8.ofBitVec (x.bytes.getD i 0) ↔
          ∀ t, t < 8 → a.bit (8 * i + t) = x.bit (8 * i + t) := by
        have ea : ∀ (z : Address) (t : Nat), t < 8 → z.bit (8 * i + t) = (z.bytes.getD i 0).getMsbD t := by
          intro z t ht
          rw [Address.bit, show (8 * i + t) / 8 = i by omega, show (8 * i + t) % 8 = t by omega]
        constructor
        · intro he t ht
          have : a.bytes.getD i 0 = x.bytes.getD i 0 := by simpa using he
          rw [ea a t ht, ea x t ht, this]
        · intro he
          have : a.bytes.getD i 0 = x.bytes.getD i 0 := by
            apply Verif.Address.byte_ext_msb
            intro t ht
            rw [← ea a t ht, ← ea x t ht, he t ht]
          rw [this]
      rw [hbyte]
      constructor
      · rintro ⟨⟨h1, h2⟩, h3⟩
        refine ⟨h1, fun t ht => ?_⟩
        by_cases ht8 : t < 8
        · exact h2 t ht8
        · have := h3 (t - 8) (by omega)
          rw [show 8 * (i + 1) + (t - 8) = 8 * i + t by omega] at this
          exact this
      · rintro ⟨h1, h2⟩
        refine ⟨⟨h1, fun t ht => h2 t (by omega)⟩, fun t ht => ?_⟩
        have := h2 (t + 8) (by omega)
        rw [show 8 * i + (t + 8) = 8 * (i + 1) + t by omega] at this
        exact this
    · next h8 =>
      obtain ⟨r, e1, e2, e3⟩ := bitLoop_spec h hc x L hL k 0 b (by omega) hb
      refine ⟨r, e1, e2, ?_⟩
      intro j a hj
      rw [e3 j a hj]
      constructor
      · rintro ⟨h1, h2⟩; exact ⟨h1, fun t ht => h2 t (by omega) (by omega)⟩
      · rintro ⟨h1, h2⟩; exact ⟨h1, fun t _ ht => h2 t (by omega)⟩

/-- A subnet as the constructor makes it from an address and a prefix length of its family. -/
def _root_.Verif.Index.Spec.IsNet (x : Subnet) : Prop := ∃ a l, Verif.Address.ValidPrefix a l ∧ x = Subnet.make a l

theorem isNet_facts {x : Subnet} (hx : Spec.IsNet x) :
    x.len = (if x.network.isV4 then 96 + x.length else x.length) ∧ x.len ≤ 128 ∧
    (x.network.isV4 = true → x.length ≤ 32) ∧
    ∀ i, i < 128 → x.len ≤ i → x.network.bit i = false := by
  obtain ⟨a, l, hv, rfl⟩ := hx
  obtain ⟨m1, m2, m3⟩ := Verif.Address.make_spec a l hv
  obtain ⟨n1, n2, n3⟩ := Verif.Address.C48_length_network a l hv
  rw [n1, n2, m1]
  refine ⟨rfl, m2, ?_, ?_⟩
  · intro h4
    unfold Verif.Address.ValidPrefix Address.maxLength at hv
    rw [if_pos h4] at hv
    exact hv
  · intro i hi hle
    rw [n3 i hi]
    have : ¬ i < a.fullLength l := by omega
    simp [this]

/-- The rows inside a subnet. -/
theorem lookupNet_spec {s : AddressIndex} {col : List (Option Address)} (h : AddrInv s col) {offset : Nat}
    (ho : col.length ≤ offset) (neg : Bool) (x : Subnet) (hx : Spec.IsNet x) (h0 : x.length ≠ 0) :
    ∃ r, lookupNet offset s neg x = .ok r ∧ r.length ≤ offset ∧
    ∀ (j : Nat) a, col[j]? = some (some a) → r.bit j = (x.containsAddr a ^^ neg) := by
  obtain ⟨f1, f2, f3, f4⟩ := isNet_facts hx
  have hcont : ∀ a : Address, x.containsAddr a = true ↔ SamePrefix x.len a x.network := by
    intro a
    rw [Subnet.containsAddr]
    exact Verif.Address.compare_iff a x.network x.len f2
  unfold lookupNet
  rw [if_neg h0]
  have hsel : (if x.network.isV4 then x.length + 96 else x.length) = x.len := by
    rw [f1]; split <;> omega
  rw [hsel]
  split
  · next hfull =>
    obtain ⟨l1, l2⟩ := lookupAddr_spec h ho neg x.network
    refine ⟨_, rfl, l1, ?_⟩
    intro j a hj
    rw [l2 j a hj]
    congr 1
    rw [Bool.eq_iff_iff, decide_eq_true_eq, hcont a, hfull]
    constructor
    · rintro rfl i _; rfl
    · intro hp; exact addr_ext fun i hi => hp i hi
  · next hfull =>
    obtain ⟨s1, s2, s3⟩ := start_spec h ho x.network.isV4
    have hspec : ∃ r, prefixLoop (s.bytes.drop (if x.network.isV4 then 12 else 0)) ((octets x.network).drop (if x.network.isV4 then 12 else 0))
        x.length (start offset s x.network.isV4) = some r ∧ r.length = (start offset s x.network.isV4).length ∧
        ∀ (j : Nat) a, col[j]? = some (some a) → r.bit j = x.containsAddr a := by
      by_cases h4 : x.network.isV4
      · have hl := f3 h4
        obtain ⟨r, e1, e2, e3⟩ := prefixLoop_spec h x.network _ s2 4 12 x.length (start offset s x.network.isV4) rfl (by omega) rfl
        refine ⟨r, by rw [if_pos h4]; exact e1, e2, ?_⟩
        intro j a hj
        rw [Bool.eq_iff_iff, e3 j a hj, s3 j a hj, hcont a, f1, if_pos h4, h4]
        simp only [Bool.not_true, Bool.false_or]
        have hn := (isV4_iff x.network).1 h4
        constructor
        · rintro ⟨g1, g2⟩ i hi
          have ha := (isV4_iff a).1 g1
          by_cases hi96 : i < 96
          · rw [ha i hi96, hn i hi96]
          · have := g2 (i - 96) (by omega)
            rw [show 8 * 12 + (i - 96) = i by omega] at this
            exact this
        · intro hp
          refine ⟨(isV4_iff a).2 fun i hi => by rw [hp i (by omega), hn i hi], fun t ht => hp _ (by omega)⟩
      · obtain ⟨r, e1, e2, e3⟩ := prefixLoop_spec h x.network _ s2 16 0 x.length (start offset s x.network.isV4) rfl (by
          rw [if_neg h4] at f1; omega) rfl
        refine ⟨r, by rw [if_neg h4]; exact e1, e2, ?_⟩
        intro j a hj
        rw [Bool.eq_iff_iff, e3 j a hj, s3 j a hj, hcont a, f1, if_neg h4]
        have h4' : x.network.isV4 = false := by simpa using h4
        simp only [h4', Bool.not_false, Bool.true_or, true_and, Nat.mul_zero, Nat.zero_add]
        rfl
    obtain ⟨r, e1, e2, e3⟩ := hspec
    rw [e1]
    refine ⟨_, rfl, ?_, ?_⟩
    · split
      · rw [Bm.not_length]; omega
      · omega
    · intro j a hj
      have := lt_of_getElem? hj
      cases neg
      · simp only [Bool.false_eq_true, if_false, Bool.xor_false]; exact e3 j a hj
      · simp only [if_true, Bool.xor_true]
        rw [Bm.bit_not _ (by omega), e3 j a hj]

/-- The answers of the address index. -/
theorem addr_answers {v : ValueIndex AddressIndex} {rs : List (Row Address)} (h : VRep AddrInv v rs) :
    (∀ x, v.lookupVal impl .equal (.addr x) = .ok (Spec.answer rs (fun a => decide (a = x)) false)) ∧
    (∀ x, v.lookupVal impl .notEqual (.addr x) = .ok (Spec.answer rs (fun a => !decide (a = x)) true)) ∧
    (∀ x, Spec.IsNet x → x.length ≠ 0 →
      v.lookupVal impl .in_ (.net x) = .ok (Spec.answer rs (fun a => x.containsAddr a) false)) ∧
    (∀ x, Spec.IsNet x → x.length ≠ 0 →
      v.lookupVal impl .notIn (.net x) = .ok (Spec.answer rs (fun a => !x.containsAddr a) false)) := by
  have ho : ((rs.map Spec.Row.toOption).take v.mask.length).length ≤ v.offset := by rw [h.offset]; exact h.col_length
  refine ⟨?_, ?_, ?_, ?_⟩
  · intro x
    obtain ⟨l1, l2⟩ := lookupAddr_spec h.impl ho false x
    refine lookupVal_frame h .equal _ _ ⟨_, rfl, by rw [← h.offset]; exact l1, ?_⟩
    intro i y hi
    rw [l2 i y ((h.col i y).2 hi), Bool.xor_false]
  · intro x
    obtain ⟨l1, l2⟩ := lookupAddr_spec h.impl ho true x
    refine lookupVal_frame h .notEqual _ _ ⟨_, rfl, by rw [← h.offset]; exact l1, ?_⟩
    intro i y hi
    rw [l2 i y ((h.col i y).2 hi), Bool.xor_true]
  · intro x hx h0
    obtain ⟨r, l0, l1, l2⟩ := lookupNet_spec h.impl ho false x hx h0
    refine lookupVal_frame h .in_ _ _ ⟨r, l0, by rw [← h.offset]; exact l1, ?_⟩
    intro i y hi
    rw [l2 i y ((h.col i y).2 hi), Bool.xor_false]
  · intro x hx h0
    obtain ⟨r, l0, l1, l2⟩ := lookupNet_spec h.impl ho true x hx h0
    refine lookupVal_frame h .notIn _ _ ⟨r, l0, by rw [← h.offset]; exact l1, ?_⟩
    intro i y hi
    rw [l2 i y ((h.col i y).2 hi), Bool.xor_true]

end AddressIndex

end Verif.Index
