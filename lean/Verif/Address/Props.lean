import Verif.Address.Lemmas
/-
C48: subnet construction and membership.
-/
namespace Verif.Address

/-- An address and prefix length the user may combine. -/
def ValidPrefix (a : Address) (length : Nat) : Prop := length ≤ a.maxLength

theorem make_spec (a : Address) (l : Nat) (h : ValidPrefix a l) :
    (Subnet.make a l).len = a.fullLength l ∧ a.fullLength l ≤ 128 ∧
    (Subnet.make a l).network = (a.mask (a.fullLength l)).1 := by
  unfold ValidPrefix Address.maxLength at h
  unfold Subnet.make Address.fullLength
  by_cases h4 : a.isV4
  · simp only [h4, if_true] at h ⊢
    rw [if_neg (by omega), Nat.add_comm]
    exact ⟨rfl, by omega, rfl⟩
  · simp only [h4, if_false, Bool.false_eq_true] at h ⊢
    rw [if_neg (by omega)]
    exact ⟨rfl, by omega, rfl⟩

/-- **C48.** A subnet contains exactly the addresses that share its prefix:
`make a l` contains `b` iff `b` agrees with `a` on the first `l` bits (counted
after the v4-mapped prefix for IPv4). -/
theorem C48_contains_address (a b : Address) (l : Nat) (h : ValidPrefix a l) :
    (Subnet.make a l).containsAddr b = true ↔ SamePrefix (a.fullLength l) b a := by
  obtain ⟨h1, h2, h3⟩ := make_spec a l h
  unfold Subnet.containsAddr
  rw [h1, h3, compare_iff _ _ _ h2]
  constructor
  · intro hp i hi
    have := hp i hi
    rw [mask_bit _ _ _ h2 (by omega)] at this
    simpa [hi] using this
  · intro hp i hi
    rw [mask_bit _ _ _ h2 (by omega), hp i hi]
    simp [hi]

/-- **C48.** Subnet containment is set containment of the addresses. -/
theorem C48_contains_subnet (a b : Address) (l m : Nat)
    (ha : ValidPrefix a l) (hb : ValidPrefix b m) :
    (Subnet.make a l).containsSubnet (Subnet.make b m) = true ↔
      ∀ c, (Subnet.make b m).containsAddr c = true → (Subnet.make a l).containsAddr c = true := by
  obtain ⟨a1, a2, a3⟩ := make_spec a l ha
  obtain ⟨b1, b2, b3⟩ := make_spec b m hb
  have netIn : (Subnet.make a l).containsAddr (Subnet.make b m).network = true ↔
      SamePrefix (a.fullLength l) (Subnet.make b m).network a := C48_contains_address a _ l ha
  have netEq : ∀ i, i < b.fullLength m → (Subnet.make b m).network.bit i = b.bit i := by
    intro i hi
    rw [b3, mask_bit _ _ _ b2 (by omega)]; simp [hi]
  unfold Subnet.containsSubnet
  rw [Bool.and_eq_true, decide_eq_true_iff, a1, b1, netIn]
  constructor
  · rintro ⟨hle, hnet⟩ c hc
    rw [C48_contains_address b c m hb] at hc
    rw [C48_contains_address a c l ha]
    intro i hi
    rw [hc i (by omega), ← netEq i (by omega), hnet i hi]
  · intro hall
    have hself : (Subnet.make b m).containsAddr (Subnet.make b m).network = true :=
      (C48_contains_address b _ m hb).2 netEq
    have hnet := (C48_contains_address a _ l ha).1 (hall _ hself)
    refine ⟨?_, hnet⟩
    by_cases hle : a.fullLength l ≤ b.fullLength m
    · exact hle
    · exfalso
      obtain ⟨c, hc⟩ := exists_differ (Subnet.make b m).network (b.fullLength m) (by omega)
      have hcb : (Subnet.make b m).containsAddr c = true := by
        rw [C48_contains_address b c m hb]
        intro i hi
        rw [hc i (by omega), if_neg (by omega)]
        exact netEq i hi
      have := (C48_contains_address a c l ha).1 (hall c hcb) (b.fullLength m) (by omega)
      rw [hc _ (by omega), if_pos rfl, ← hnet _ (by omega)] at this
      simp at this

/-- **C48.** Equality of subnets is extensional: two validly constructed
subnets are equal iff they contain the same addresses. In particular the host
bits the user wrote do not matter. -/
theorem C48_extensional (a b : Address) (l m : Nat)
    (ha : ValidPrefix a l) (hb : ValidPrefix b m) :
    Subnet.make a l = Subnet.make b m ↔
      ∀ c, (Subnet.make a l).containsAddr c = (Subnet.make b m).containsAddr c := by
  constructor
  · intro h c; rw [h]
  · intro h
    have h1 := (C48_contains_subnet a b l m ha hb).2 (fun c hc => by rw [h c]; exact hc)
    have h2 := (C48_contains_subnet b a m l hb ha).2 (fun c hc => by rw [← h c]; exact hc)
    obtain ⟨a1, a2, a3⟩ := make_spec a l ha
    obtain ⟨b1, b2, b3⟩ := make_spec b m hb
    simp only [Subnet.containsSubnet, Bool.and_eq_true, decide_eq_true_iff] at h1 h2
    have hlen : (Subnet.make a l).len = (Subnet.make b m).len := by omega
    have hnet : (Subnet.make a l).network = (Subnet.make b m).network := by
      apply addr_ext
      intro i hi
      have hp := (compare_iff _ _ _ (by omega)).1 h1.2
      by_cases hik : i < (Subnet.make a l).len
      · exact (hp i hik).symm
      · have hik1 : ¬ i < a.fullLength l := by omega
        have hik2 : ¬ i < b.fullLength m := by omega
        rw [a3, b3, mask_bit _ _ _ a2 hi, mask_bit _ _ _ b2 hi]
        simp [hik1, hik2]
    cases hA : Subnet.make a l
    cases hB : Subnet.make b m
    simp_all

/-- **C48.** The prefix length and the address family survive construction:
`length()` returns what the user wrote, and the network is the address with
all bits after the prefix cleared. -/
theorem C48_length_network (a : Address) (l : Nat) (h : ValidPrefix a l) :
    (Subnet.make a l).length = l ∧
    (Subnet.make a l).network.isV4 = a.isV4 ∧
    ∀ i, i < 128 → (Subnet.make a l).network.bit i = (a.bit i && decide (i < a.fullLength l)) := by
  obtain ⟨h1, h2, h3⟩ := make_spec a l h
  have hbits : ∀ i, i < 128 →
      (Subnet.make a l).network.bit i = (a.bit i && decide (i < a.fullLength l)) := by
    intro i hi; rw [h3, mask_bit _ _ _ h2 hi]
  have hfam : (Subnet.make a l).network.isV4 = a.isV4 := by
    rw [Bool.eq_iff_iff, isV4_iff, isV4_iff]
    constructor
    · intro hh i hi
      by_cases hlt : i < a.fullLength l
      · have := hh i hi
        rw [hbits i (by omega)] at this
        simpa [hlt] using this
      · exfalso
        have h95 := hh 95 (by omega)
        rw [hbits 95 (by omega)] at h95
        have : ¬ 95 < a.fullLength l := by omega
        simp [this] at h95
    · intro hh i hi
      rw [hbits i (by omega), hh i hi]
      have h4 : a.isV4 = true := (isV4_iff a).2 hh
      have : i < a.fullLength l := by
        unfold Address.fullLength; rw [if_pos h4]; omega
      simp [this]
  refine ⟨?_, hfam, hbits⟩
  unfold Subnet.length
  rw [hfam, h1]
  unfold ValidPrefix Address.maxLength at h
  unfold Address.fullLength
  by_cases h4 : a.isV4
  · simp only [h4, if_true] at h ⊢; omega
  · simp [h4]

/-- **C48.** Constructing a subnet again from its own network and length
changes nothing. -/
theorem C48_idempotent (a : Address) (l : Nat) (h : ValidPrefix a l) :
    Subnet.make (Subnet.make a l).network (Subnet.make a l).length = Subnet.make a l := by
  obtain ⟨h1, h2, h3⟩ := C48_length_network a l h
  have hv : ValidPrefix (Subnet.make a l).network l := by
    unfold ValidPrefix Address.maxLength at h ⊢; rw [h2]; exact h
  have hf : (Subnet.make a l).network.fullLength l = a.fullLength l := by
    unfold Address.fullLength; rw [h2]
  rw [h1, C48_extensional _ _ _ _ hv h]
  intro c
  rw [Bool.eq_iff_iff, C48_contains_address _ _ _ hv, C48_contains_address _ _ _ h, hf]
  have hle := (make_spec a l h).2.1
  have hb : ∀ i, i < a.fullLength l → (Subnet.make a l).network.bit i = a.bit i := by
    intro i hi; rw [h3 i (by omega)]; simp [hi]
  constructor
  · intro hp i hi; rw [hp i hi, hb i hi]
  · intro hp i hi; rw [hp i hi, hb i hi]

/-- **C48.** An invalid length silently produces `::/0`, the subnet that
contains every address. -/
theorem C48_invalid_length (a : Address) (l : Nat) (h : ¬ ValidPrefix a l) :
    Subnet.make a l = Subnet.default ∧ ∀ c, Subnet.default.containsAddr c = true := by
  constructor
  · unfold ValidPrefix Address.maxLength at h
    unfold Subnet.make
    by_cases h4 : a.isV4
    · simp only [h4, if_true] at h ⊢; rw [if_pos (by omega)]
    · simp only [h4, if_false, Bool.false_eq_true] at h ⊢; rw [if_pos (by omega)]
  · intro c
    exact (compare_iff _ _ _ (by simp [Subnet.default])).2 (fun i hi => by simp [Subnet.default] at hi)

/-- Non-vacuity: 10.1.2.3/8 contains 10.200.0.1 but not 11.0.0.1, and contains
10.1.0.0/16. -/
example : ValidPrefix (.v4 10 1 2 3) 8 := by unfold ValidPrefix; decide
example : (Subnet.make (.v4 10 1 2 3) 8).containsAddr (.v4 10 200 0 1) = true := by decide
example : (Subnet.make (.v4 10 1 2 3) 8).containsAddr (.v4 11 0 0 1) = false := by decide
example : (Subnet.make (.v4 10 1 2 3) 8).containsSubnet (.make (.v4 10 1 0 0) 16) = true := by decide
example : ¬ ValidPrefix (.v4 10 1 2 3) 33 := by unfold ValidPrefix; decide
example : Subnet.make (.v4 10 1 2 3) 8 = Subnet.make (.v4 10 9 9 9) 8 := by decide

end Verif.Address
