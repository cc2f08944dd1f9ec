import Verif.CommunityId.Spec
import Verif.Sha1.Props
import Verif.Base64.Props
/-!
# Lemmas for Community IDs
-/
namespace Verif.CommunityId

open Verif.Sha1

theorem number_acc (bs : List UInt8) (n : Nat) :
    bs.foldl (fun n b => 256 * n + b.toNat) n = 256 ^ bs.length * n + number bs := by
  induction bs generalizing n with
  | nil => simp [number]
  | cons b bs ih =>
    simp only [number, List.foldl_cons, List.length_cons]
    rw [ih, ih (256 * 0 + b.toNat), Nat.pow_succ, Nat.mul_add]
    simp only [Nat.mul_zero, Nat.zero_add]
    rw [Nat.mul_assoc, Nat.add_assoc]

theorem number_cons (b : UInt8) (bs : List UInt8) : number (b :: bs) = 256 ^ bs.length * b.toNat + number bs := by
  simp only [number, List.foldl_cons, Nat.mul_zero, Nat.zero_add]
  exact number_acc bs _

theorem number_lt (bs : List UInt8) : number bs < 256 ^ bs.length := by
  induction bs with
  | nil => simp [number]
  | cons b bs ih =>
    rw [number_cons, List.length_cons, Nat.pow_succ]
    have := b.toNat_lt
    have h1 : 256 ^ bs.length * b.toNat + 256 ^ bs.length = 256 ^ bs.length * (b.toNat + 1) := by rw [Nat.mul_add, Nat.mul_one]
    have h2 : 256 ^ bs.length * (b.toNat + 1) ≤ 256 ^ bs.length * 256 := Nat.mul_le_mul_left _ (by omega)
    omega

theorem ltBytes_iff : ∀ (a b : List UInt8), a.length = b.length → (ltBytes a b = true ↔ number a < number b) := by
  intro a
  induction a with
  | nil => intro b h; cases b with
    | nil => simp [ltBytes]
    | cons => simp at h
  | cons x xs ih =>
    intro b h
    cases b with
    | nil => simp at h
    | cons y ys =>
      simp at h
      rw [number_cons, number_cons, h]
      have l1 := number_lt xs
      have l2 := number_lt ys
      rw [h] at l1
      simp only [ltBytes, Bool.or_eq_true, decide_eq_true_eq, Bool.and_eq_true, beq_iff_eq, ih ys h]
      rw [UInt8.lt_iff_toNat_lt, ← UInt8.toNat_inj]
      rcases Nat.lt_trichotomy x.toNat y.toNat with c | c | c
      · have : 256 ^ ys.length * (x.toNat + 1) ≤ 256 ^ ys.length * y.toNat := Nat.mul_le_mul_left _ c
        rw [Nat.mul_add, Nat.mul_one] at this
        simp only [c, true_or, true_iff]
        omega
      · rw [c]; simp
      · have : 256 ^ ys.length * (y.toNat + 1) ≤ 256 ^ ys.length * x.toNat := Nat.mul_le_mul_left _ c
        rw [Nat.mul_add, Nat.mul_one] at this
        constructor
        · rintro (h | ⟨h, _⟩) <;> omega
        · omega

theorem number_inj : ∀ (a b : List UInt8), a.length = b.length → number a = number b → a = b := by
  intro a
  induction a with
  | nil => intro b h _; cases b with
    | nil => rfl
    | cons => simp at h
  | cons x xs ih =>
    intro b h e
    cases b with
    | nil => simp at h
    | cons y ys =>
      simp at h
      rw [number_cons, number_cons, h] at e
      have l1 := number_lt xs
      have l2 := number_lt ys
      rw [h] at l1
      have hx : x.toNat = y.toNat := by
        rcases Nat.lt_trichotomy x.toNat y.toNat with c | c | c
        · have : 256 ^ ys.length * (x.toNat + 1) ≤ 256 ^ ys.length * y.toNat := Nat.mul_le_mul_left _ c
          rw [Nat.mul_add, Nat.mul_one] at this
          omega
        · exact c
        · have : 256 ^ ys.length * (y.toNat + 1) ≤ 256 ^ ys.length * x.toNat := Nat.mul_le_mul_left _ c
          rw [Nat.mul_add, Nat.mul_one] at this
          omega
      rw [UInt8.toNat_inj.mp hx, ih ys h (by rw [hx] at e; omega)]

theorem hashed_eq (a : Addr) : a.hashed = addrBytes a := by
  have h := a.len
  simp only [Addr.hashed, Addr.isV4, addrBytes, beq_iff_eq]
  split
  · apply List.take_of_length_le; simp; omega
  · apply List.take_of_length_le; omega

theorem netOrder_eq (x : UInt16) : netOrder x = bigEndian 2 x.toNat := by
  have e := store_load (storeLE 2 x.toNat).reverse
  rw [List.length_reverse, storeLE_length] at e
  rw [netOrder, e, bigEndian_eq]

theorem toUInt16_inj {t u : UInt8} (h : t.toUInt16 = u.toUInt16) : t = u := by
  apply UInt8.toNat_inj.mp
  have := congrArg UInt16.toNat h
  simpa using this

theorem toUInt8_toUInt16 (t : UInt8) : t.toUInt16.toUInt8 = t := by
  apply UInt8.toNat_inj.mp
  simp

theorem dualIcmp_iff : ∀ t u : UInt8, dualIcmp t = some u ↔ ((t, u) ∈ icmpPairs ∨ (u, t) ∈ icmpPairs) := by
  intro t u
  unfold dualIcmp
  repeat' split
  all_goals first
    | (subst_vars; simp [icmpPairs, eq_comm (b := u)]; done)
    | simp_all [icmpPairs]

theorem dualIcmp6_iff : ∀ t u : UInt8, dualIcmp6 t = some u ↔ ((t, u) ∈ icmp6Pairs ∨ (u, t) ∈ icmp6Pairs) := by
  intro t u
  unfold dualIcmp6
  repeat' split
  all_goals first
    | (subst_vars; simp [icmp6Pairs, eq_comm (b := u)]; done)
    | simp_all [icmp6Pairs]

theorem counterparts_symm {p t u : UInt8} (h : Counterparts p t u) : Counterparts p u t := by
  rcases h with ⟨h1, h2⟩ | ⟨h1, h2⟩
  · exact .inl ⟨h1, h2.symm⟩
  · exact .inr ⟨h1, h2.symm⟩

theorem counterparts_icmp {p t u : UInt8} (h : Counterparts p t u) : IsIcmp p := by
  rcases h with ⟨h1, _⟩ | ⟨h1, _⟩
  · exact .inl h1
  · exact .inr h1

/-- Normalisation in terms of the specification. -/
theorem normalize_pair (x : Flow) {t u : UInt8} (h : Counterparts x.proto t u) (hs : x.sport = t.toUInt16) :
    normalize x = (u.toUInt16, false) := by
  rcases h with ⟨h1, h2⟩ | ⟨h1, h2⟩
  · simp only [normalize, h1, icmp, ↓reduceIte, hs, toUInt8_toUInt16, (dualIcmp_iff t u).mpr h2]
  · simp [normalize, h1, icmp, icmp6, hs, toUInt8_toUInt16, (dualIcmp6_iff t u).mpr h2]

theorem normalize_other (x : Flow) (h : ¬ IsIcmp x.proto) : normalize x = (x.dport, false) := by
  simp only [IsIcmp, not_or] at h
  simp [normalize, icmp, icmp6, h.1, h.2]

theorem normalize_one (x : Flow) (h : IsIcmp x.proto) {t : UInt8} (ht : x.sport = t.toUInt16)
    (hn : ∀ u, ¬ Counterparts x.proto t u) : normalize x = (x.dport, true) := by
  rcases h with h | h
  · have : dualIcmp t = none := by
      cases hd : dualIcmp t with
      | none => rfl
      | some u => exact absurd (.inl ⟨h, (dualIcmp_iff t u).mp hd⟩) (hn u)
    simp [normalize, h, icmp, ht, this]
  · have : dualIcmp6 t = none := by
      cases hd : dualIcmp6 t with
      | none => rfl
      | some u => exact absurd (.inr ⟨h, (dualIcmp6_iff t u).mp hd⟩) (hn u)
    simp [normalize, h, icmp, icmp6, ht, this]

theorem addr_eq_iff (a b : Addr) : a.bytes = b.bytes ↔ a = b := by
  constructor
  · intro h; cases a; cases b; simp at h; subst h; rfl
  · rintro rfl; rfl

/-- The message for both endpoints, as the code orders them. -/
theorem hashAppend_two (seed : UInt16) (x : Flow) (q : UInt16) (h : normalize x = (q, false)) :
    (netOrder seed :: hashAppend x).flatten =
      if ltBytes x.src.bytes x.dst.bytes || (x.src.bytes == x.dst.bytes && x.sport < q) then
        message seed x.proto x.src x.dst x.sport q else message seed x.proto x.dst x.src q x.sport := by
  simp only [hashAppend, h, Bool.false_or]
  split
  · simp [message, netOrder_eq, hashed_eq]
  · simp [message, netOrder_eq, hashed_eq]

theorem hashAppend_one (seed : UInt16) (x : Flow) (q : UInt16) (h : normalize x = (q, true)) :
    (netOrder seed :: hashAppend x).flatten = message seed x.proto x.src x.dst x.sport q := by
  simp [hashAppend, h, message, netOrder_eq, hashed_eq]

/-- The order in the code, and the order of the specification. -/
theorem order_iff (a b : Addr) (p q : UInt16) :
    (ltBytes a.bytes b.bytes || (a.bytes == b.bytes && decide (p < q))) = true ↔ Precedes a b p q := by
  simp only [Bool.or_eq_true, Bool.and_eq_true, beq_iff_eq, decide_eq_true_eq, Precedes, addr_eq_iff,
    ltBytes_iff a.bytes b.bytes (by rw [a.len, b.len])]

/-- Either order holds, or the endpoints are the same. -/
theorem precedes_total (a b : Addr) (p q : UInt16) : Precedes a b p q ∨ Precedes b a q p ∨ (a = b ∧ p = q) := by
  rcases Nat.lt_trichotomy (number a.bytes) (number b.bytes) with c | c | c
  · exact .inl (.inl c)
  · have e := (addr_eq_iff a b).mp (number_inj _ _ (by rw [a.len, b.len]) c)
    subst e
    rcases Nat.lt_trichotomy p.toNat q.toNat with d | d | d
    · exact .inl (.inr ⟨rfl, UInt16.lt_iff_toNat_lt.mpr d⟩)
    · exact .inr (.inr ⟨rfl, UInt16.toNat_inj.mp d⟩)
    · exact .inr (.inl (.inr ⟨rfl, UInt16.lt_iff_toNat_lt.mpr d⟩))
  · exact .inr (.inl (.inl c))

theorem precedes_asymm (a b : Addr) (p q : UInt16) (h : Precedes a b p q) : ¬ Precedes b a q p := by
  rintro (c | ⟨c1, c2⟩)
  · rcases h with d | ⟨d, _⟩
    · omega
    · subst d; omega
  · rcases h with d | ⟨_, d⟩
    · subst c1; omega
    · rw [UInt16.lt_iff_toNat_lt] at *; omega

/-- The code hashes the message of the specification. -/
theorem isMessage (seed : UInt16) (x : Flow) (h : IsIcmp x.proto → x.sport.toNat < 256) :
    IsMessage seed x (netOrder seed :: hashAppend x).flatten := by
  have two : ∀ q, normalize x = (q, false) → ((¬ IsIcmp x.proto ∧ q = x.dport) ∨
      (∃ t u, Counterparts x.proto t u ∧ x.sport = t.toUInt16 ∧ q = u.toUInt16)) →
      IsMessage seed x (netOrder seed :: hashAppend x).flatten := by
    intro q hn hq
    rw [hashAppend_two seed x q hn]
    by_cases hp : Precedes x.src x.dst x.sport q
    · rw [if_pos ((order_iff _ _ _ _).mpr hp)]
      exact .ordered q hq (precedes_asymm _ _ _ _ hp)
    · rw [if_neg (fun c => hp ((order_iff _ _ _ _).mp c))]
      rcases precedes_total x.src x.dst x.sport q with c | c | ⟨c1, c2⟩
      · exact absurd c hp
      · exact .exchanged q hq c
      · have := IsMessage.ordered (seed := seed) q hq (by
          rw [← c1, ← c2] at hp ⊢; exact hp)
        rw [← c1, ← c2] at this ⊢
        exact this
  by_cases hi : IsIcmp x.proto
  · have hs : x.sport = (UInt8.ofNat x.sport.toNat).toUInt16 := by
      apply UInt16.toNat_inj.mp
      have := h hi
      simp only [UInt8.toNat_toUInt16, UInt8.toNat_ofNat']
      omega
    generalize UInt8.ofNat x.sport.toNat = t at hs
    by_cases hc : ∃ u, Counterparts x.proto t u
    · obtain ⟨u, hc⟩ := hc
      exact two _ (normalize_pair x hc hs) (.inr ⟨t, u, hc, hs, rfl⟩)
    · have hc' : ∀ u, ¬ Counterparts x.proto t u := fun u c => hc ⟨u, c⟩
      rw [hashAppend_one seed x _ (normalize_one x hi hs hc')]
      exact .oneWay hi t hs hc'
  · exact two _ (normalize_other x hi) (.inl ⟨hi, rfl⟩)

/-- Opposite directions give the same message. -/
theorem opposite_message (seed : UInt16) (x y : Flow) (h : Opposite x y) :
    (netOrder seed :: hashAppend x).flatten = (netOrder seed :: hashAppend y).flatten := by
  obtain ⟨h1, h2, h3, h4⟩ := h
  have key : ∀ q, normalize x = (q, false) → normalize y = (x.sport, false) → y.sport = q →
      (netOrder seed :: hashAppend x).flatten = (netOrder seed :: hashAppend y).flatten := by
    intro q e1 e2 e3
    rw [hashAppend_two seed x q e1, hashAppend_two seed y x.sport e2, e3, h2, h3, ← h1]
    rcases precedes_total x.src x.dst x.sport q with c | c | ⟨c1, c2⟩
    · rw [if_pos ((order_iff _ _ _ _).mpr c),
        if_neg (fun d => precedes_asymm _ _ _ _ c ((order_iff _ _ _ _).mp d))]
    · rw [if_neg (fun d => precedes_asymm _ _ _ _ c ((order_iff _ _ _ _).mp d)),
        if_pos ((order_iff _ _ _ _).mpr c)]
    · rw [c1, c2]
  rcases h4 with ⟨i, e1, e2⟩ | ⟨t, u, hc, e1, e2⟩
  · exact key x.dport (normalize_other x i) (by rw [normalize_other y (by rw [← h1]; exact i), e2]) e1
  · exact key u.toUInt16 (normalize_pair x hc e1)
      (by rw [normalize_pair y (by rw [← h1]; exact counterparts_symm hc) e2, e1]) e2

theorem bigEndian2_inj (x y : UInt16) (h : bigEndian 2 x.toNat = bigEndian 2 y.toNat) : x = y := by
  have hx := x.toNat_lt
  have hy := y.toNat_lt
  simp only [bigEndian, List.cons.injEq, and_true, Nat.pow_one, Nat.pow_zero, Nat.div_one] at h
  have h1 := congrArg UInt8.toNat h.1
  have h2 := congrArg UInt8.toNat h.2
  simp only [UInt8.toNat_ofNat'] at h1 h2
  apply UInt16.toNat_inj.mp
  omega

/-- Same family. -/
def SameFamily (x : Flow) : Prop := x.src.isV4 = x.dst.isV4

theorem addrBytes_length (a : Addr) : (addrBytes a).length = if a.isV4 then 4 else 16 := by
  have := a.len
  simp only [addrBytes, Addr.isV4, beq_iff_eq]
  split
  · simp; omega
  · omega

theorem addrBytes_inj (a b : Addr) (h : a.isV4 = b.isV4) (e : addrBytes a = addrBytes b) : a = b := by
  rw [← addr_eq_iff]
  simp only [Addr.isV4] at h
  simp only [addrBytes] at e
  by_cases ha : a.bytes.take 12 = v4Prefix
  · have hb : b.bytes.take 12 = v4Prefix := by
      rw [ha] at h; simpa using h.symm
    rw [if_pos ha, if_pos hb] at e
    rw [← List.take_append_drop 12 a.bytes, ← List.take_append_drop 12 b.bytes, ha, hb, e]
  · have hb : ¬ b.bytes.take 12 = v4Prefix := by
      intro hb
      rw [hb] at h
      simp at h
      exact ha h
    rw [if_neg ha, if_neg hb] at e
    exact e

theorem message_inj (s1 s2 : UInt16) (p1 p2 : UInt8) (a b c d : Addr) (i j k l : UInt16)
    (hab : a.isV4 = b.isV4) (hcd : c.isV4 = d.isV4)
    (h : message s1 p1 a b i j = message s2 p2 c d k l) :
    s1 = s2 ∧ p1 = p2 ∧ a = c ∧ b = d ∧ i = k ∧ j = l := by
  have hl := congrArg List.length h
  simp only [message, List.length_append, bigEndian_length, addrBytes_length, List.length_cons, List.length_nil] at hl
  have hac : a.isV4 = c.isV4 := by
    rw [← hab, ← hcd] at hl
    cases ha : a.isV4 <;> cases hc : c.isV4 <;> simp [ha, hc] at hl ⊢
  have hbd : b.isV4 = d.isV4 := by rw [← hab, ← hcd, hac]
  simp only [message, List.append_assoc] at h
  have e1 := List.append_inj h (by simp [bigEndian_length])
  have e2 := List.append_inj e1.2 (by simp [addrBytes_length, hac])
  have e3 := List.append_inj e2.2 (by simp [addrBytes_length, hbd])
  simp only [List.cons_append, List.nil_append, List.cons.injEq, true_and] at e3
  have e4 := List.append_inj e3.2.2 (by simp [bigEndian_length])
  exact ⟨bigEndian2_inj _ _ e1.1, e3.2.1, addrBytes_inj _ _ hac e2.1, addrBytes_inj _ _ hbd e3.1,
    bigEndian2_inj _ _ e4.1, bigEndian2_inj _ _ e4.2⟩

theorem hexDigit_inj : ∀ x y : Fin 16, hexDigits.getD x.val 0 = hexDigits.getD y.val 0 → x = y := by decide

end Verif.CommunityId
