import Verif.Index.NetLemmas

/-!
# C14: address and subnet indexes
-/

namespace Verif.Index

open Verif.Data (RelOp)
open Verif.Address (Address Subnet SamePrefix isV4_iff addr_ext)
open Spec (Row)

/-- C14, addresses. For every history of appends, the address index answers `==` and `!=` with an
address, `in` and `not_in` with a subnet of a prefix length other than zero, and `in` and `not_in`
with a list of addresses exactly; null rows are in the result of `!=`. Missing: prefix length zero
(`C14_zero_prefix_refuted`). -/
theorem C14_address_partial (h : List (Nat × Option Address)) :
    ∃ v, AddressIndex.index h = some v ∧
      (∀ x, v.lookup AddressIndex.impl .equal (.val (.addr x))
        = .ok (Spec.answer (Spec.rows h) (fun a => decide (a = x)) false)) ∧
      (∀ x, v.lookup AddressIndex.impl .notEqual (.val (.addr x))
        = .ok (Spec.answer (Spec.rows h) (fun a => !decide (a = x)) true)) ∧
      (∀ x, Spec.IsNet x → x.length ≠ 0 → v.lookup AddressIndex.impl .in_ (.val (.net x))
        = .ok (Spec.answer (Spec.rows h) (fun a => x.containsAddr a) false)) ∧
      (∀ x, Spec.IsNet x → x.length ≠ 0 → v.lookup AddressIndex.impl .notIn (.val (.net x))
        = .ok (Spec.answer (Spec.rows h) (fun a => !x.containsAddr a) false)) ∧
      ∀ xs : List (Option Address),
        v.lookup AddressIndex.impl .in_ (.list (xs.map (·.map .addr)))
          = .ok (Spec.answer (Spec.rows h) (fun a => xs.contains (some a)) false) ∧
        v.lookup AddressIndex.impl .notIn (.list (xs.map (·.map .addr)))
          = .ok (Spec.answer (Spec.rows h) (fun a => !xs.contains (some a)) false) := by
  obtain ⟨v, e1, e2⟩ := vRep_run AddressIndex.addrAppends h (vRep_make AddressIndex.addrInv_make) (fun _ _ _ => trivial)
  obtain ⟨a1, a2, a3, a4⟩ := AddressIndex.addr_answers e2
  refine ⟨v, e1, a1, a2, a3, a4, ?_⟩
  intro xs
  have hany : ∀ y : Address, ((xs.map (·.map NetOperand.addr)).any fun x => x.any fun x => match x with
      | .addr x => decide (y = x) | .net _ => false) = xs.contains (some y) := by
    intro y
    rw [Bool.eq_iff_iff, List.any_eq_true, List.contains_iff_mem]
    constructor
    · rintro ⟨x, hx, he⟩
      obtain ⟨z, hz, rfl⟩ := List.mem_map.1 hx
      cases z with
      | none => simp at he
      | some z =>
        simp only [Option.map_some, Option.any_some, decide_eq_true_eq] at he
        rw [he]; exact hz
    · intro hx
      exact ⟨_, List.mem_map.2 ⟨some y, hx, rfl⟩, by simp⟩
  have := in_general e2 (fun (x : NetOperand) y => match x with | .addr x => decide (y = x) | .net _ => false)
      (xs.map (·.map NetOperand.addr)) (by
    intro x hx
    obtain ⟨z, hz, he⟩ := List.mem_map.1 hx
    cases z with
    | none => simp at he
    | some z =>
      simp only [Option.map_some, Option.some.injEq] at he
      subst he
      exact a1 z)
  simp only [hany] at this
  exact this

/-- 10.0.0.1, null, a gap, 10.1.2.3 and ::1 -/
def demoAddresses : List (Nat × Option Address) :=
  [(0, some (.v4 10 0 0 1)), (1, none), (3, some (.v4 10 1 2 3)), (4, some (.v6 (List.replicate 15 0 ++ [1]) (by simp)))]

example : (AddressIndex.index demoAddresses).map (fun v =>
      (v.lookup AddressIndex.impl .notEqual (.val (.addr (.v4 10 0 0 1))),
       v.lookup AddressIndex.impl .in_ (.val (.net (Subnet.make (.v4 10 1 0 0) 16))),
       v.lookup AddressIndex.impl .notIn (.val (.net (Subnet.make (.v4 10 1 0 0) 15)))))
    = some (.ok [false, true, false, true, true], .ok [false, false, false, true, false],
      .ok [false, false, false, false, true]) := by decide +kernel

example : Spec.IsNet (Subnet.make (.v4 10 1 0 0) 16) ∧ (Subnet.make (.v4 10 1 0 0) 16).length ≠ 0 :=
  ⟨⟨_, _, by unfold Verif.Address.ValidPrefix; decide, rfl⟩, by decide⟩

/-- C14, refuted for prefix length zero: `in 0.0.0.0/0` is an error, although every IPv4 address is
in this subnet. -/
theorem C14_zero_prefix_refuted :
    Spec.IsNet (Subnet.make (.v4 0 0 0 0) 0) ∧
    (Subnet.make (.v4 0 0 0 0) 0).containsAddr (.v4 10 0 0 1) = true ∧
    (AddressIndex.index demoAddresses).map (fun v =>
      v.lookup AddressIndex.impl .in_ (.val (.net (Subnet.make (.v4 0 0 0 0) 0)))) = some .error :=
  ⟨⟨_, _, by unfold Verif.Address.ValidPrefix; decide, rfl⟩, by decide, by decide +kernel⟩

/-! ## Subnets -/

namespace SubnetIndex

/-- The row of the network index that belongs to a row of the subnet index. -/
def netRow : Option Subnet → Row Address
  | none => .absent
  | some x => .value x.network

/-- The index holds a column. -/
structure SubInv (s : SubnetIndex) (col : List (Option Subnet)) : Prop where
  network : VRep AddressIndex.AddrInv s.network (col.map netRow)
  length : KRep .equality 129 s.length (col.map (·.map Subnet.length))
  valid : ∀ (j : Nat) x, col[j]? = some (some x) → Spec.IsNet x

theorem subInv_make : SubInv make [] :=
  ⟨vRep_make AddressIndex.addrInv_make, kRep_make .equality 129, by intro j x hj; simp at hj⟩

theorem isNet_length {x : Subnet} (hx : Spec.IsNet x) : x.length ≤ 128 := by
  obtain ⟨f1, f2, f3, _⟩ := AddressIndex.isNet_facts hx
  by_cases h4 : x.network.isV4
  · have := f3 h4; omega
  · rw [if_neg h4] at f1; omega

theorem subAppends : Appends impl SubInv Spec.IsNet := by
  refine ⟨?_⟩
  intro s col x pos h hp hx
  have hlen := isNet_length hx
  have hs := kRep_skip h.length (pos - col.length)
  obtain ⟨c', e1, e2⟩ := kRep_encode (k := .equality) hs (x := x.length) (by simp only [Kind.accepts]; omega) 1
  have e1' : EqualityCoder.encode (s.length.skip (pos - col.length)) x.length 1 = some c' := e1
  have hsz := h.length.size
  rw [List.length_map] at hsz
  rcases vRep_append AddressIndex.addrAppends h.network pos (some x.network) (fun _ _ => trivial) with ⟨hp', _⟩ | ⟨_, v', he, hr⟩
  · rw [List.length_map] at hp'; omega
  · refine ⟨⟨v', c'⟩, ?_, ?_, ?_, ?_⟩
    · simp only [impl, append, hsz, e1', he]
    · simp only
      rw [Spec.appendRow, if_neg (by rw [List.length_map]; omega)] at hr
      simpa [netRow, Row.of] using hr
    · simpa using e2
    · intro j y hj
      rw [List.getElem?_append] at hj
      split at hj
      · rw [List.getElem?_append] at hj
        split at hj
        · exact h.valid j y hj
        · rw [List.getElem?_replicate] at hj
          split at hj <;> simp at hj
      · have := lt_of_getElem? hj
        rw [List.length_singleton] at this
        rw [show j - (col ++ List.replicate (pos - col.length) (none : Option Subnet)).length = 0 by omega] at hj
        simp only [List.getElem?_cons_zero, Option.some.injEq] at hj
        rw [← hj]; exact hx

/-- The outcome of a lookup in both members. -/
theorem both_spec {s : SubnetIndex} {col : List (Option Subnet)} (h : SubInv s col) (f : Address → Bool) (b : Bool)
    (net : Res Bm) (hn : net = .ok (Spec.answer (col.map netRow) f b)) (op : RelOp) (n : Nat) (hn' : n < 129)
    (hop : Spec.compare op 0 0 ≠ none) :
    ∃ r, both net (EqualityCoder.decode s.length op n) = .ok r ∧ r.length = col.length ∧
      ∀ (j : Nat) y, col[j]? = some (some y) → r.bit j = (f y.network && (Spec.compare op y.length n == some true)) := by
  obtain ⟨l, l1, l2, l3, _⟩ := equality_decode h.length op n hn' hop
  refine ⟨_, by rw [hn, l1]; rfl, ?_, ?_⟩
  · rw [Bm.and_length, l2]; simp [Spec.answer]
  · intro j y hj
    rw [Bm.bit_and]
    congr 1
    · exact Bm.bit_of_getElem? (by simp [Spec.answer, hj, netRow])
    · have := isNet_length (h.valid j y hj)
      have := l3 j y.length (by simp [hj]) (by omega)
      rw [← this]
      cases l.bit j <;> rfl

theorem flipIf_spec {L : Nat} {r : Res Bm} {col : List (Option Subnet)} (hL : col.length ≤ L) (f : Subnet → Bool) (neg : Bool)
    (h : ∃ b, r = .ok b ∧ b.length = L ∧ ∀ (j : Nat) y, col[j]? = some (some y) → b.bit j = f y) :
    ∃ b, flipIf neg r = .ok b ∧ b.length = L ∧ ∀ (j : Nat) y, col[j]? = some (some y) → b.bit j = (f y ^^ neg) := by
  obtain ⟨b, rfl, h2, h3⟩ := h
  cases neg
  · exact ⟨b, rfl, h2, fun j y hj => by rw [h3 j y hj, Bool.xor_false]⟩
  · refine ⟨_, rfl, ?_, ?_⟩
    · simp only [if_true]; rw [Bm.not_length]; exact h2
    · intro j y hj
      have := lt_of_getElem? hj
      simp only [if_true]
      rw [Bm.bit_not _ (by omega), h3 j y hj, Bool.xor_true]

theorem net_ext {x y : Subnet} (hx : Spec.IsNet x) (hy : Spec.IsNet y) :
    (decide (y.network = x.network) && (Spec.compare .equal y.length x.length == some true)) = decide (y = x) := by
  rw [Bool.eq_iff_iff]
  simp only [Bool.and_eq_true, decide_eq_true_eq, Spec.compare, beq_iff_eq, Option.some.injEq]
  constructor
  · rintro ⟨h1, h2⟩
    have fx := (AddressIndex.isNet_facts hx).1
    have fy := (AddressIndex.isNet_facts hy).1
    rw [h1, h2, ← fx] at fy
    obtain ⟨nx, lx⟩ := x
    obtain ⟨ny, ly⟩ := y
    simp only at h1 fy
    rw [h1, fy]
  · rintro rfl; exact ⟨rfl, rfl⟩

theorem lookupEqual_spec {s : SubnetIndex} {col : List (Option Subnet)} (h : SubInv s col) (neg : Bool) (x : Subnet)
    (hx : Spec.IsNet x) : ∃ r, lookupEqual s neg x = .ok r ∧ r.length = col.length ∧
      ∀ (j : Nat) y, col[j]? = some (some y) → r.bit j = (decide (y = x) ^^ neg) := by
  apply flipIf_spec (Nat.le_refl _) (fun y => decide (y = x))
  have := isNet_length hx
  obtain ⟨r, r1, r2, r3⟩ := both_spec h _ _ _ ((AddressIndex.addr_answers h.network).1 x.network) .equal x.length (by omega) (by simp [Spec.compare])
  exact ⟨r, r1, r2, fun j y hj => by rw [r3 j y hj, net_ext hx (h.valid j y hj)]⟩

/-- Two subnets of the same family. -/
def _root_.Verif.Index.Spec.sameFamily (x y : Address) : Bool := x.isV4 == y.isV4

theorem family_len {x y : Subnet} (hx : Spec.IsNet x) (hy : Spec.IsNet y) (hf : Spec.sameFamily x.network y.network = true) :
    (x.len ≤ y.len ↔ x.length ≤ y.length) := by
  have fx := (AddressIndex.isNet_facts hx).1
  have fy := (AddressIndex.isNet_facts hy).1
  simp only [Spec.sameFamily, beq_iff_eq] at hf
  rw [hf] at fx
  split at fx <;> simp_all

theorem lookupIn_spec {s : SubnetIndex} {col : List (Option Subnet)} (h : SubInv s col) (neg : Bool) (x : Subnet)
    (hx : Spec.IsNet x) (h0 : x.length ≠ 0) : ∃ r, lookupIn s neg x = .ok r ∧ r.length = col.length ∧
      ∀ (j : Nat) y, col[j]? = some (some y) → Spec.sameFamily x.network y.network = true →
        r.bit j = (x.containsSubnet y ^^ neg) := by
  have := isNet_length hx
  have hcmp : Spec.compare .greaterEqual 0 0 ≠ none := by simp [Spec.compare]
  obtain ⟨r, r1, r2, r3⟩ := flipIf_spec (Nat.le_refl _) _ neg
    (both_spec h _ _ _ ((AddressIndex.addr_answers h.network).2.2.1 x hx h0) .greaterEqual x.length (by omega) hcmp)
  refine ⟨r, r1, r2, ?_⟩
  intro j y hj hf
  rw [r3 j y hj, Subnet.containsSubnet, Bool.and_comm]
  congr 2
  rw [Bool.eq_iff_iff]
  simp only [Spec.compare, beq_iff_eq, Option.some.injEq, decide_eq_true_eq]
  rw [family_len hx (h.valid j y hj) hf]

theorem netLoop_spec {s : SubnetIndex} {col : List (Option Subnet)} (h : SubInv s col) (x : Subnet) (hx : Spec.IsNet x) :
    ∀ (n i : Nat) (b : Bm), 1 ≤ i → i + n = x.length + 1 → (n = 0 ∨ b.length ≤ col.length) →
    ∃ r, netLoop s x n i b = .ok r ∧ (0 < n → r.length = col.length) ∧ (n = 0 → r = b) ∧
      ∀ (j : Nat) y, col[j]? = some (some y) → (r.bit j = true ↔ b.bit j = true ∨
        ∃ l, i ≤ l ∧ l < i + n ∧ y.length = l ∧ SamePrefix (x.network.fullLength l) y.network x.network) := by
  have hlen := isNet_length hx
  have fx := AddressIndex.isNet_facts hx
  intro n
  induction n with
  | zero =>
    intro i b _ _ _
    exact ⟨b, rfl, by omega, fun _ => rfl, fun j y hj => ⟨Or.inl, fun h => h.elim id (fun ⟨l, h1, h2, _⟩ => by omega)⟩⟩
  | succ n ih =>
    intro i b hi hn hb
    have hb' : b.length ≤ col.length := by omega
    have hvalid : Verif.Address.ValidPrefix x.network i := by
      unfold Verif.Address.ValidPrefix Address.maxLength
      split
      · next h4 => have := fx.2.2.1 h4; omega
      · omega
    have hnet : Spec.IsNet (Subnet.make x.network i) := ⟨_, _, hvalid, rfl⟩
    have hl := (Verif.Address.C48_length_network x.network i hvalid).1
    obtain ⟨r, r1, r2, r3⟩ := both_spec h _ _ _ ((AddressIndex.addr_answers h.network).2.2.1 _ hnet (by omega)) .equal i (by omega)
      (by simp [Spec.compare])
    obtain ⟨r', q1, q2, q3, q4⟩ := ih (i + 1) (b.or r) (by omega) (by omega) (by right; rw [Bm.or_length]; omega)
    refine ⟨r', ?_, ?_, by omega, ?_⟩
    · rw [netLoop]
      have r1' : both (s.network.lookup AddressIndex.impl .in_ (.val (.net (Subnet.make x.network i))))
          (EqualityCoder.decode s.length .equal i) = .ok r := r1
      rw [r1']
      exact q1
    · intro _
      by_cases hn0 : n = 0
      · rw [q3 hn0, Bm.or_length]; omega
      · exact q2 (by omega)
    · intro j y hj
      rw [q4 j y hj, Bm.bit_or, Bool.or_eq_true, r3 j y hj, Bool.and_eq_true, Verif.Address.C48_contains_address _ _ _ hvalid]
      simp only [Spec.compare, beq_iff_eq, Option.some.injEq]
      constructor
      · rintro ((g | ⟨g1, g2⟩) | ⟨l, g1, g2, g3, g4⟩)
        · exact Or.inl g
        · exact Or.inr ⟨i, by omega, by omega, g2, g1⟩
        · exact Or.inr ⟨l, by omega, by omega, g3, g4⟩
      · rintro (g | ⟨l, g1, g2, g3, g4⟩)
        · exact Or.inl (Or.inl g)
        · by_cases hli : l = i
          · subst hli; exact Or.inl (Or.inr ⟨g4, g3⟩)
          · exact Or.inr ⟨l, by omega, by omega, g3, g4⟩

theorem lookupNi_spec {s : SubnetIndex} {col : List (Option Subnet)} (h : SubInv s col) (neg : Bool) (x : Subnet)
    (hx : Spec.IsNet x) (h0 : x.length ≠ 0) : ∃ r, lookupNi s neg x = .ok r ∧ r.length = col.length ∧
      ∀ (j : Nat) y, col[j]? = some (some y) → Spec.sameFamily x.network y.network = true → y.length ≠ 0 →
        r.bit j = (y.containsSubnet x ^^ neg) := by
  obtain ⟨b, b1, b2, _, b4⟩ := netLoop_spec h x hx x.length 1 [] (by omega) (by omega) (by simp)
  classical
  obtain ⟨r, r1, r2, r3⟩ := flipIf_spec (r := netLoop s x x.length 1 []) (Nat.le_refl col.length)
    (fun y => decide (∃ l, 1 ≤ l ∧ l < 1 + x.length ∧ y.length = l ∧ SamePrefix (x.network.fullLength l) y.network x.network)) neg
    ⟨b, b1, b2 (by omega), fun j y hj => by
      rw [Bool.eq_iff_iff, b4 j y hj, decide_eq_true_eq]
      simp [Bm.bit]⟩
  refine ⟨r, r1, r2, ?_⟩
  intro j y hj hf hy0
  have hy := h.valid j y hj
  rw [r3 j y hj]
  congr 1
  have hff := hf
  simp only [Spec.sameFamily, beq_iff_eq] at hf
  have fy := AddressIndex.isNet_facts hy
  have hlen : y.len = x.network.fullLength y.length := by
    rw [fy.1, Address.fullLength, hf]
  have hfl : Spec.sameFamily y.network x.network = true := by simp [Spec.sameFamily, hf]
  rw [Bool.eq_iff_iff, decide_eq_true_eq, Subnet.containsSubnet, Bool.and_eq_true, decide_eq_true_eq, family_len hy hx hfl,
    Subnet.containsAddr, Verif.Address.compare_iff _ _ _ fy.2.1, hlen]
  constructor
  · rintro ⟨l, g1, g2, rfl, g4⟩
    exact ⟨by omega, fun i hi => (g4 i hi).symm⟩
  · rintro ⟨g1, g2⟩
    exact ⟨y.length, by omega, by omega, rfl, fun i hi => (g2 i hi).symm⟩

theorem addrLoop_spec {s : SubnetIndex} {col : List (Option Subnet)} (h : SubInv s col) (x : Address) (L : Nat) (hL : col.length ≤ L)
    (bits : Nat) (hbits : bits ≤ 128) :
    ∀ (n i : Nat) (b : Bm), i + n = bits + 1 → b.length = L →
    ∃ r, addrLoop s x bits n i b = .ok r ∧ r.length = L ∧
      ∀ (j : Nat) y, col[j]? = some (some y) → (r.bit j = true ↔ b.bit j = true ∨
        ∃ l, i ≤ l ∧ l ≤ bits ∧ y.length = l ∧ y.network = (x.mask (128 - bits + l)).1) := by
  intro n
  induction n with
  | zero =>
    intro i b hn hb
    exact ⟨b, rfl, hb, fun j y hj => ⟨Or.inl, fun h => h.elim id (fun ⟨l, h1, h2, _⟩ => by omega)⟩⟩
  | succ n ih =>
    intro i b hn hb
    obtain ⟨r, r1, r2, r3⟩ := both_spec h _ _ _ ((AddressIndex.addr_answers h.network).1 (x.mask (128 - bits + i)).1) .equal i (by omega)
      (by simp [Spec.compare])
    obtain ⟨r', q1, q2, q3⟩ := ih (i + 1) (b.or r) (by omega) (by rw [Bm.or_length]; omega)
    refine ⟨r', ?_, q2, ?_⟩
    · rw [addrLoop]
      have r1' : both (s.network.lookup AddressIndex.impl .equal (.val (.addr (x.mask (128 - bits + i)).1)))
          (EqualityCoder.decode s.length .equal i) = .ok r := r1
      rw [r1']
      exact q1
    · intro j y hj
      rw [q3 j y hj, Bm.bit_or, Bool.or_eq_true, r3 j y hj, Bool.and_eq_true]
      simp only [Spec.compare, beq_iff_eq, Option.some.injEq, decide_eq_true_eq]
      constructor
      · rintro ((g | ⟨g1, g2⟩) | ⟨l, g1, g2, g3, g4⟩)
        · exact Or.inl g
        · exact Or.inr ⟨i, by omega, by omega, g2, g1⟩
        · exact Or.inr ⟨l, by omega, by omega, g3, g4⟩
      · rintro (g | ⟨l, g1, g2, g3, g4⟩)
        · exact Or.inl (Or.inl g)
        · by_cases hli : l = i
          · subst hli; exact Or.inl (Or.inr ⟨g4, g3⟩)
          · exact Or.inr ⟨l, by omega, by omega, g3, g4⟩

theorem mask_iff {x : Address} {y : Subnet} (hy : Spec.IsNet y) :
    (∃ l, 0 ≤ l ∧ l ≤ x.maxLength ∧ y.length = l ∧ y.network = (x.mask (128 - x.maxLength + l)).1) ↔
      (Spec.sameFamily y.network x && y.containsAddr x) = true := by
  obtain ⟨f1, f2, f3, f4⟩ := AddressIndex.isNet_facts hy
  have hmax : x.maxLength ≤ 128 := by unfold Address.maxLength; split <;> omega
  rw [Bool.and_eq_true, Subnet.containsAddr, Verif.Address.compare_iff _ _ _ f2]
  simp only [Spec.sameFamily, beq_iff_eq]
  constructor
  · rintro ⟨l, _, g1, g2, g3⟩
    have hk : 128 - x.maxLength + l ≤ 128 := by omega
    have hbit : ∀ i, i < 128 → y.network.bit i = (x.bit i && decide (i < 128 - x.maxLength + l)) := by
      intro i hi; rw [g3, Verif.Address.mask_bit _ _ _ hk hi]
    have hfam : y.network.isV4 = x.isV4 := by
      rw [Bool.eq_iff_iff, isV4_iff, isV4_iff]
      constructor
      · intro hh i hi
        have h95 := hh 95 (by omega)
        rw [hbit 95 (by omega)] at h95
        have h95' : 95 < 128 - x.maxLength + l := by
          have := h95
          simp only [show (80 ≤ 95) by omega, decide_true, Bool.and_eq_true, decide_eq_true_eq] at this
          exact this.2
        have := hh i hi
        rw [hbit i (by omega)] at this
        simpa [show i < 128 - x.maxLength + l by omega] using this
      · intro hh i hi
        have h4 : x.isV4 = true := (isV4_iff x).2 hh
        rw [hbit i (by omega), hh i hi]
        have : i < 128 - x.maxLength + l := by unfold Address.maxLength; rw [if_pos h4]; omega
        simp [this]
    have hlen : y.len = 128 - x.maxLength + l := by
      rw [f1, hfam, g2, Address.maxLength]
      split <;> omega
    refine ⟨hfam, ?_⟩
    intro i hi
    rw [hbit i (by omega)]
    have : i < 128 - x.maxLength + l := by omega
    simp [this]
  · rintro ⟨g1, g2⟩
    have hlen : y.len = 128 - x.maxLength + y.length := by
      rw [f1, g1, Address.maxLength]
      split <;> omega
    have hle : y.length ≤ x.maxLength := by
      unfold Address.maxLength
      split
      · next h4 => exact f3 (by rw [g1]; exact h4)
      · next h4 => rw [g1, if_neg h4] at f1; omega
    refine ⟨y.length, Nat.zero_le _, hle, rfl, ?_⟩
    apply addr_ext
    intro i hi
    rw [Verif.Address.mask_bit _ _ _ (by omega) hi, ← hlen]
    by_cases hil : i < y.len
    · rw [g2 i hil]; simp [hil]
    · rw [f4 i hi (by omega)]; simp [hil]

theorem lookupAddr_spec {s : SubnetIndex} {col : List (Option Subnet)} (h : SubInv s col) {offset : Nat} (ho : col.length ≤ offset)
    (neg : Bool) (x : Address) : ∃ r, lookupAddr offset s neg x = .ok r ∧ r.length = offset ∧
      ∀ (j : Nat) y, col[j]? = some (some y) → r.bit j = ((Spec.sameFamily y.network x && y.containsAddr x) ^^ neg) := by
  have hmax : x.maxLength ≤ 128 := by unfold Address.maxLength; split <;> omega
  apply flipIf_spec ho (fun y => Spec.sameFamily y.network x && y.containsAddr x)
  obtain ⟨r, r1, r2, r3⟩ := addrLoop_spec h x offset ho x.maxLength hmax (x.maxLength + 1) 0 (Bm.fill offset false) (by omega) (by simp)
  refine ⟨r, r1, r2, ?_⟩
  intro j y hj
  rw [Bool.eq_iff_iff, r3 j y hj, mask_iff (h.valid j y hj), Bm.bit_fill]
  simp

end SubnetIndex

/-- The result `r` of a lookup is right on the rows `ok`: it has one bit per row, `f y` for a value
`y` with `ok y`, false for null and absent rows. -/
def Spec.RightOn {α : Type} (rs : List (Row α)) (ok : α → Prop) (f : α → Bool) (r : Res Bm) : Prop :=
  ∃ b, r = .ok b ∧ b.length = rs.length ∧
    (∀ (i : Nat) y, rs[i]? = some (.value y) → ok y → b[i]? = some (f y)) ∧
    ∀ i : Nat, (rs[i]? = some .null ∨ rs[i]? = some .absent) → b[i]? = some false

theorem rightOn_frame {σ α ρ : Type} {I : Impl σ α ρ} {inv : σ → List (Option α) → Prop}
    {v : ValueIndex σ} {rs : List (Row α)} (h : VRep inv v rs) (op : RelOp) (hop : op ≠ .notEqual) (x : ρ) (ok : α → Prop) (f : α → Bool)
    (hl : ∃ r, I.lookup v.offset v.mask v.impl op x = .ok r ∧ r.length ≤ rs.length ∧
      ∀ (i : Nat) y, rs[i]? = some (.value y) → ok y → r.bit i = f y) :
    Spec.RightOn rs ok f (v.lookupVal I op x) := by
  obtain ⟨r, h1, h2, h3⟩ := hl
  obtain ⟨f1, f2⟩ := finish_spec h op r h2
  refine ⟨_, by rw [ValueIndex.lookupVal, h1], f1, ?_, ?_⟩
  · intro i y hi hok
    have := lt_of_getElem? hi
    rw [Bm.getElem?_of_bit (by omega), f2 i _ hi, h3 i y hi hok]
  · rintro i (hi | hi)
    · have := lt_of_getElem? hi
      rw [Bm.getElem?_of_bit (by omega), f2 i _ hi]
      simp [hop]
    · have := lt_of_getElem? hi
      rw [Bm.getElem?_of_bit (by omega), f2 i _ hi]

/-- C14, subnets. For every history of appends of subnets, the subnet index answers `==` and `!=`
exactly. It answers `ni` and `not_ni` with an address, and `in`, `not_in`, `ni` and `not_ni` with a
subnet whose prefix length is not zero, exactly on the rows of the address family of the operand,
for `ni` and `not_ni` with a subnet only on rows whose prefix length is not zero. Missing: prefix
length zero and mixed families, where the answers are wrong (`C14_subnet_zero_refuted`,
`C14_subnet_family_refuted`). -/
theorem C14_subnet_partial (h : List (Nat × Option Subnet)) (hv : ∀ pos x, (pos, some x) ∈ h → Spec.IsNet x) :
    ∃ v, SubnetIndex.index h = some v ∧
      (∀ x, Spec.IsNet x → v.lookup SubnetIndex.impl .equal (.val (.net x))
        = .ok (Spec.answer (Spec.rows h) (fun y => decide (y = x)) false)) ∧
      (∀ x, Spec.IsNet x → v.lookup SubnetIndex.impl .notEqual (.val (.net x))
        = .ok (Spec.answer (Spec.rows h) (fun y => !decide (y = x)) true)) ∧
      (∀ x, Spec.RightOn (Spec.rows h) (fun y => y.network.isV4 = x.isV4) (fun y => y.containsAddr x)
        (v.lookup SubnetIndex.impl .ni (.val (.addr x)))) ∧
      (∀ x, Spec.RightOn (Spec.rows h) (fun y => y.network.isV4 = x.isV4) (fun y => !y.containsAddr x)
        (v.lookup SubnetIndex.impl .notNi (.val (.addr x)))) ∧
      (∀ x, Spec.IsNet x → x.length ≠ 0 →
        Spec.RightOn (Spec.rows h) (fun y => y.network.isV4 = x.network.isV4) (fun y => x.containsSubnet y)
          (v.lookup SubnetIndex.impl .in_ (.val (.net x)))) ∧
      (∀ x, Spec.IsNet x → x.length ≠ 0 →
        Spec.RightOn (Spec.rows h) (fun y => y.network.isV4 = x.network.isV4) (fun y => !x.containsSubnet y)
          (v.lookup SubnetIndex.impl .notIn (.val (.net x)))) ∧
      (∀ x, Spec.IsNet x → x.length ≠ 0 →
        Spec.RightOn (Spec.rows h) (fun y => y.network.isV4 = x.network.isV4 ∧ y.length ≠ 0) (fun y => y.containsSubnet x)
          (v.lookup SubnetIndex.impl .ni (.val (.net x)))) ∧
      (∀ x, Spec.IsNet x → x.length ≠ 0 →
        Spec.RightOn (Spec.rows h) (fun y => y.network.isV4 = x.network.isV4 ∧ y.length ≠ 0) (fun y => !y.containsSubnet x)
          (v.lookup SubnetIndex.impl .notNi (.val (.net x)))) := by
  obtain ⟨v, e1, e2⟩ := vRep_run SubnetIndex.subAppends h (vRep_make SubnetIndex.subInv_make) hv
  have hcl := e2.col_length
  have ho : ((Spec.rows h).map Spec.Row.toOption |>.take v.mask.length).length ≤ v.offset := by rw [e2.offset]; exact hcl
  refine ⟨v, e1, ?_, ?_, ?_, ?_, ?_, ?_, ?_, ?_⟩
  · intro x hx
    obtain ⟨r, r1, r2, r3⟩ := SubnetIndex.lookupEqual_spec e2.impl false x hx
    refine lookupVal_frame e2 .equal _ _ ⟨r, r1, by rw [r2]; exact hcl, ?_⟩
    intro i y hi
    rw [r3 i y ((e2.col i y).2 hi), Bool.xor_false]
  · intro x hx
    obtain ⟨r, r1, r2, r3⟩ := SubnetIndex.lookupEqual_spec e2.impl true x hx
    refine lookupVal_frame e2 .notEqual _ _ ⟨r, r1, by rw [r2]; exact hcl, ?_⟩
    intro i y hi
    rw [r3 i y ((e2.col i y).2 hi), Bool.xor_true]
  · intro x
    obtain ⟨r, r1, r2, r3⟩ := SubnetIndex.lookupAddr_spec e2.impl ho false x
    refine rightOn_frame e2 .ni (by simp) _ _ _ ⟨r, r1, by rw [r2, e2.offset]; exact Nat.le_refl _, ?_⟩
    intro i y hi hf
    rw [r3 i y ((e2.col i y).2 hi), Spec.sameFamily, hf]
    simp
  · intro x
    obtain ⟨r, r1, r2, r3⟩ := SubnetIndex.lookupAddr_spec e2.impl ho true x
    refine rightOn_frame e2 .notNi (by simp) _ _ _ ⟨r, r1, by rw [r2, e2.offset]; exact Nat.le_refl _, ?_⟩
    intro i y hi hf
    rw [r3 i y ((e2.col i y).2 hi), Spec.sameFamily, hf]
    simp
  · intro x hx h0
    obtain ⟨r, r1, r2, r3⟩ := SubnetIndex.lookupIn_spec e2.impl false x hx h0
    refine rightOn_frame e2 .in_ (by simp) _ _ _ ⟨r, r1, by rw [r2]; exact hcl, ?_⟩
    intro i y hi hf
    rw [r3 i y ((e2.col i y).2 hi) (by simp [Spec.sameFamily, hf]), Bool.xor_false]
  · intro x hx h0
    obtain ⟨r, r1, r2, r3⟩ := SubnetIndex.lookupIn_spec e2.impl true x hx h0
    refine rightOn_frame e2 .notIn (by simp) _ _ _ ⟨r, r1, by rw [r2]; exact hcl, ?_⟩
    intro i y hi hf
    rw [r3 i y ((e2.col i y).2 hi) (by simp [Spec.sameFamily, hf]), Bool.xor_true]
  · intro x hx h0
    obtain ⟨r, r1, r2, r3⟩ := SubnetIndex.lookupNi_spec e2.impl false x hx h0
    refine rightOn_frame e2 .ni (by simp) _ _ _ ⟨r, r1, by rw [r2]; exact hcl, ?_⟩
    rintro i y hi ⟨hf, hy⟩
    rw [r3 i y ((e2.col i y).2 hi) (by simp [Spec.sameFamily, hf]) hy, Bool.xor_false]
  · intro x hx h0
    obtain ⟨r, r1, r2, r3⟩ := SubnetIndex.lookupNi_spec e2.impl true x hx h0
    refine rightOn_frame e2 .notNi (by simp) _ _ _ ⟨r, r1, by rw [r2]; exact hcl, ?_⟩
    rintro i y hi ⟨hf, hy⟩
    rw [r3 i y ((e2.col i y).2 hi) (by simp [Spec.sameFamily, hf]) hy, Bool.xor_true]

/-- 10.0.0.0/8, null, a gap, 10.1.0.0/16 and 192.168.0.0/24 -/
def demoSubnets : List (Nat × Option Subnet) :=
  [(0, some (.make (.v4 10 0 0 0) 8)), (1, none), (3, some (.make (.v4 10 1 0 0) 16)), (4, some (.make (.v4 192 168 0 0) 24))]

example : ∀ pos x, (pos, some x) ∈ demoSubnets → Spec.IsNet x := by
  intro pos x hx
  simp only [demoSubnets, List.mem_cons, Prod.mk.injEq, Option.some.injEq, List.not_mem_nil, or_false, reduceCtorEq, and_false,
    false_or] at hx
  rcases hx with ⟨_, rfl⟩ | ⟨_, rfl⟩ | ⟨_, rfl⟩ <;> exact ⟨_, _, by unfold Verif.Address.ValidPrefix; decide, rfl⟩

example : (SubnetIndex.index demoSubnets).map (fun v =>
      (v.lookup SubnetIndex.impl .ni (.val (.addr (.v4 10 1 2 3))), v.lookup SubnetIndex.impl .in_ (.val (.net (.make (.v4 10 0 0 0) 8))),
       v.lookup SubnetIndex.impl .notNi (.val (.net (.make (.v4 10 1 2 0) 24)))))
    = some (.ok [true, false, false, true, false], .ok [true, false, false, true, false], .ok [false, false, false, false, true]) := by
  decide +kernel

/-- C14, refuted for prefix length zero: a row 0.0.0.0/0 is lost for `ni 10.0.0.0/8`, and `not_ni
0.0.0.0/0` returns no row at all. -/
theorem C14_subnet_zero_refuted :
    (Subnet.make (.v4 0 0 0 0) 0).containsSubnet (.make (.v4 10 0 0 0) 8) = true ∧
    (Subnet.make (.v4 10 0 0 0) 8).containsSubnet (.make (.v4 0 0 0 0) 0) = false ∧
    (SubnetIndex.index [(0, some (.make (.v4 0 0 0 0) 0)), (1, some (.make (.v4 10 0 0 0) 8))]).map (fun v =>
      (v.lookup SubnetIndex.impl .ni (.val (.net (.make (.v4 10 0 0 0) 8))),
       v.lookup SubnetIndex.impl .notNi (.val (.net (.make (.v4 0 0 0 0) 0)))))
      = some (.ok [false, true], .ok [false, false]) := by
  refine ⟨by decide, by decide, by decide +kernel⟩

/-- C14, refuted for mixed address families: ::/64 contains 10.0.0.0/8 (as the mapped address), but
the row 10.0.0.0/8 is lost for `in ::/64`, is returned for `ni ::/64`, and the row ::/64 is lost for
`ni 10.0.0.1`. -/
theorem C14_subnet_family_refuted :
    (Subnet.make .default 64).containsSubnet (.make (.v4 10 0 0 0) 8) = true ∧
    (Subnet.make (.v4 10 0 0 0) 8).containsSubnet (.make .default 64) = false ∧
    (Subnet.make .default 64).containsAddr (.v4 10 0 0 1) = true ∧
    (SubnetIndex.index [(0, some (.make (.v4 10 0 0 0) 8)), (1, some (.make .default 64))]).map (fun v =>
      (v.lookup SubnetIndex.impl .in_ (.val (.net (.make .default 64))),
       v.lookup SubnetIndex.impl .ni (.val (.net (.make .default 64))),
       v.lookup SubnetIndex.impl .ni (.val (.addr (.v4 10 0 0 1)))))
      = some (.ok [false, true], .ok [true, true], .ok [true, false]) := by
  refine ⟨by decide, by decide, by decide, by decide +kernel⟩

end Verif.Index
