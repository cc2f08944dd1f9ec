import Verif.Broker.Spec
import Verif.Zeek.Round
import Verif.Address.Props
/-!
Numbers, addresses and points in time in the binary format of Zeek.
-/
namespace Verif.Broker
open Verif.Data Verif.Calendar Spec

theorem Out.bind_ok {α β : Type} {o : Out α} {f : α → Bytes → Out β} {y : β} {r : Bytes} (h : o.bind f = .ok y r) :
    ∃ x r', o = .ok x r' ∧ f x r' = .ok y r := by
  cases o with
  | ok x r' => exact ⟨x, r', rfl, h⟩
  | error => cases h
  | thrown => cases h
  | undefined => cases h

@[simp] theorem big_length (k n : Nat) : (big k n).length = k := by
  induction k generalizing n with
  | zero => rfl
  | succ k ih => simp [big, ih]

theorem number_snoc (bs : Bytes) (b : UInt8) : number (bs ++ [b]) = number bs * 256 + b.toNat := by simp [number]

theorem number_lt (bs : Bytes) : number bs < 256 ^ bs.length := by
  induction bs using List.reverseRecOn with
  | nil => simp [number]
  | append_singleton bs b ih =>
    rw [number_snoc, List.length_append, List.length_singleton, pow_succ]
    have := b.toNat_lt
    omega

theorem number_big (k n : Nat) (h : n < 256 ^ k) : number (big k n) = n := by
  induction k generalizing n with
  | zero => simp [big, number] at h ⊢; omega
  | succ k ih =>
    rw [big, number_snoc, ih _ (by rw [pow_succ] at h; omega)]
    have : ((n % 256).toUInt8).toNat = n % 256 := by
      simp [Nat.toUInt8]
    omega

theorem big_number (bs : Bytes) : big bs.length (number bs) = bs := by
  induction bs using List.reverseRecOn with
  | nil => rfl
  | append_singleton bs b ih =>
    rw [List.length_append, List.length_singleton, big, number_snoc]
    have hb := b.toNat_lt
    have e1 : (number bs * 256 + b.toNat) / 256 = number bs := by omega
    have e2 : (number bs * 256 + b.toNat) % 256 = b.toNat := by omega
    rw [e1, e2, ih]
    congr
    simp

theorem uintE_big (k n : Nat) (r : Bytes) (h : n < 256 ^ k) : uintE k (big k n ++ r) = .ok n r := by
  rw [uintE, if_neg (by simp)]
  rw [List.take_left' (by simp), List.drop_left' (by simp), number_big k n h]

theorem uintE_ok {k n : Nat} {bs r : Bytes} (h : uintE k bs = .ok n r) : bs = big k n ++ r ∧ n < 256 ^ k := by
  rw [uintE] at h
  split at h
  · cases h
  · cases h
    have hl : (bs.take k).length = k := by simp; omega
    have h1 := big_number (bs.take k)
    rw [hl] at h1
    have h2 := number_lt (bs.take k)
    rw [hl] at h2
    exact ⟨by rw [h1, List.take_append_drop], h2⟩

theorem intE_big (n : Nat) (r : Bytes) (h : n < 2 ^ 32) : intE (big 4 n ++ r) = .ok (signed 4 n) r := by
  rw [intE, uintE_big 4 n r (by norm_num; omega)]; rfl

theorem intE_ok {i : Int} {bs r : Bytes} (h : intE bs = .ok i r) : ∃ n, bs = big 4 n ++ r ∧ n < 2 ^ 32 ∧ i = signed 4 n := by
  obtain ⟨n, r', h1, h2⟩ := Out.bind_ok h
  cases h2
  obtain ⟨h3, h4⟩ := uintE_ok h1
  exact ⟨n, h3, by norm_num at h4; omega, rfl⟩

theorem longE_big (n : Nat) (r : Bytes) (h : n < 2 ^ 64) : longE (big 8 n ++ r) = .ok (signed 8 n) r := by
  rw [longE, uintE_big 8 n r (by norm_num; omega)]; rfl

theorem longE_ok {i : Int} {bs r : Bytes} (h : longE bs = .ok i r) : ∃ n, bs = big 8 n ++ r ∧ n < 2 ^ 64 ∧ i = signed 8 n := by
  obtain ⟨n, r', h1, h2⟩ := Out.bind_ok h
  cases h2
  obtain ⟨h3, h4⟩ := uintE_ok h1
  exact ⟨n, h3, by norm_num at h4; omega, rfl⟩

theorem signed_mod {n : Nat} {i : Int} (h0 : -(2 ^ 63) ≤ i) (h1 : i < 2 ^ 63) (h : (n : Int) = i % 2 ^ 64) : signed 8 n = i := by
  rw [signed]
  norm_num at *
  split <;> omega

theorem signed_range {n : Nat} (h : n < 2 ^ 64) : -(2 ^ 63) ≤ signed 8 n ∧ signed 8 n < 2 ^ 63 ∧ (n : Int) = signed 8 n % 2 ^ 64 := by
  rw [signed]
  norm_num at *
  split <;> omega

theorem signed_zero {n : Nat} (h : n < 2 ^ 64) : signed 8 n = 0 ↔ n = 0 := by
  rw [signed]
  norm_num at *
  split <;> omega

/-! ### Doubles -/

theorem double_lt {n : Nat} {x : Real} (h : Double n x) : n < 2 ^ 64 := by
  cases h <;> norm_num at * <;> omega

theorem two_zpow (e : Nat) : (2 : Rat) ^ ((e : Int) - 1023) = 2 ^ e / 2 ^ 1023 := by
  rw [zpow_sub₀ (by norm_num)]
  norm_cast

theorem neg_one (s : Nat) (h : s < 2) : ((-1) ^ s : Rat) = if s = 0 then 1 else -1 := by
  rcases s with _ | _ | s
  · rfl
  · norm_num
  · omega

theorem ieee_double {n : Nat} {x : Real} (h : Double n x) : ieee n = x := by
  cases h with
  | normal s e f q h1 h2 h3 h4 h5 =>
    have e1 : (s * 2 ^ 63 + e * 2 ^ 52 + f) / 2 ^ 52 % 2 ^ 11 = e := by norm_num at *; omega
    have e2 : (s * 2 ^ 63 + e * 2 ^ 52 + f) % 2 ^ 52 = f := by norm_num at *; omega
    have e3 : s * 2 ^ 63 + e * 2 ^ 52 + f < 2 ^ 63 ↔ s = 0 := by norm_num at *; omega
    unfold ieee
    simp only [e1, e2, e3]
    rw [if_neg (by omega), if_neg (by omega), h5, two_zpow, neg_one s h1]
    congr 1
    generalize (if s = 0 then (1 : Rat) else -1) = g
    have : (2 : Rat) ^ 1075 = 2 ^ 52 * 2 ^ 1023 := by rw [← pow_add]
    rw [this]
    have h0 : (2 : Rat) ^ 1023 ≠ 0 := by positivity
    generalize (2 : Rat) ^ 1023 = z at *
    generalize (2 : Rat) ^ e = y
    field_simp
  | subnormal s f q h1 h4 h5 =>
    have e1 : (s * 2 ^ 63 + f) / 2 ^ 52 % 2 ^ 11 = 0 := by norm_num at *; omega
    have e2 : (s * 2 ^ 63 + f) % 2 ^ 52 = f := by norm_num at *; omega
    have e3 : s * 2 ^ 63 + f < 2 ^ 63 ↔ s = 0 := by norm_num at *; omega
    unfold ieee
    simp only [e1, e2, e3]
    rw [if_neg (by omega), if_pos trivial, h5, neg_one s h1]
    congr 1
    generalize (if s = 0 then (1 : Rat) else -1) = g
    have : (2 : Rat) ^ 1074 = 2 ^ 52 * 2 ^ 1022 := by rw [← pow_add]
    rw [this]
    have e4 : (2 : Rat) ^ (-1022 : Int) = 1 / 2 ^ 1022 := by
      rw [zpow_neg, one_div]; norm_cast
    rw [e4]
    have h0 : (2 : Rat) ^ 1022 ≠ 0 := by positivity
    generalize (2 : Rat) ^ 1022 = z at *
    field_simp
  | posInf => decide +kernel
  | negInf => decide +kernel
  | nan s f h1 h2 h3 =>
    have e1 : (s * 2 ^ 63 + 2047 * 2 ^ 52 + f) / 2 ^ 52 % 2 ^ 11 = 2047 := by norm_num at *; omega
    have e2 : (s * 2 ^ 63 + 2047 * 2 ^ 52 + f) % 2 ^ 52 = f := by norm_num at *; omega
    unfold ieee
    simp only [e1, e2]
    rw [if_pos trivial, if_pos (by omega)]

theorem double_exists {n : Nat} (h : n < 2 ^ 64) : Double n (ieee n) := by
  obtain ⟨s, e, f, hs, he, hf, rfl⟩ : ∃ s e f, s < 2 ∧ e < 2048 ∧ f < 2 ^ 52 ∧ n = s * 2 ^ 63 + e * 2 ^ 52 + f :=
    ⟨n / 2 ^ 63, n / 2 ^ 52 % 2 ^ 11, n % 2 ^ 52, by norm_num at *; omega, by norm_num at *; omega, by norm_num at *; omega,
      by norm_num at *; omega⟩
  by_cases e2047 : e = 2047
  · subst e2047
    by_cases f0 : f = 0
    · subst f0
      rcases s with _ | _ | s
      · have := Double.posInf
        rw [ieee_double (by simpa using this)]
        simpa using this
      · have := Double.negInf
        rw [ieee_double (by simpa using this)]
        simpa using this
      · omega
    · have := Double.nan s f hs (by omega) hf
      rwa [ieee_double this]
  · by_cases e0 : e = 0
    · subst e0
      have := Double.subnormal s f _ hs hf rfl
      rw [Nat.zero_mul, Nat.add_zero]
      rwa [ieee_double this]
    · have := Double.normal s e f _ hs (by omega) (by omega) hf rfl
      rwa [ieee_double this]

/-! ### Times -/

theorem trunc_near (y : Rat) : |((trunc (rnd y) : Int) : Rat) - y| ≤ |y| / 2 ^ 53 + 1 := by
  have h1 := Zeek.rnd_all y
  have h2 := Zeek.trunc_abs (rnd y)
  have h4 : |((trunc (rnd y) : Int) : Rat) - y| ≤ |((trunc (rnd y) : Int) : Rat) - rnd y| + |rnd y - y| := abs_sub_le _ _ _
  exact h4.trans (by rw [add_comm]; exact add_le_add h1 h2.le)

theorem nanoseconds_near (q : Rat) : |((trunc (rnd (q * 10 ^ 9)) : Int) : Rat) - q * 10 ^ 9| ≤ |q * 10 ^ 9| / 2 ^ 53 + 1 := trunc_near _

theorem nanoseconds_some {q : Rat} (h : |q| ≤ 9 * 10 ^ 9) : ∃ t, nanoseconds (.fin q) = some t ∧ Seconds False q t := by
  have h1 := nanoseconds_near q
  have h2 : |q * 10 ^ 9| ≤ 9 * 10 ^ 18 := by
    rw [abs_mul, abs_of_pos (by norm_num : (0 : Rat) < 10 ^ 9)]
    calc |q| * 10 ^ 9 ≤ (9 * 10 ^ 9) * 10 ^ 9 := by gcongr
      _ = _ := by norm_num
  refine ⟨trunc (rnd (q * 10 ^ 9)), ?_, h1, .inl h⟩
  rw [nanoseconds, if_pos]
  have h3 : |q * 10 ^ 9| / 2 ^ 53 ≤ 1000 := by
    rw [div_le_iff₀ (by norm_num)]
    refine h2.trans ?_
    norm_num
  have h4 := abs_le.mp h1
  have h5 := abs_le.mp h2
  generalize trunc (rnd (q * 10 ^ 9)) = t at *
  generalize q * 10 ^ 9 = y at *
  generalize |y| / 2 ^ 53 = z at *
  have a : (-(2 ^ 63) : Rat) ≤ (t : Int) := by
    have : (-(2 ^ 63) : Rat) ≤ - (9 * 10 ^ 18) - 1001 := by norm_num
    linarith [h4.1, h5.1]
  have b : (t : Rat) < 2 ^ 63 := by
    have : (9 * 10 ^ 18 + 1001 : Rat) < 2 ^ 63 := by norm_num
    linarith [h4.2, h5.2]
  exact ⟨by exact_mod_cast a, by exact_mod_cast b⟩

theorem nanoseconds_seconds {x : Real} {t : Int} (h : nanoseconds x = some t) : ∃ q, x = .fin q ∧ Seconds True q t := by
  cases x with
  | fin q =>
    rw [nanoseconds] at h
    split at h
    · cases h
      exact ⟨q, rfl, nanoseconds_near q, .inr trivial⟩
    · cases h
  | nan => cases h
  | posInf => cases h
  | negInf => cases h

/-! ### Addresses and subnets -/

theorem addr_ext {x y : Address.Address} (h : x.bytes = y.bytes) : x = y := by
  cases x; cases y; simp at h; subst h; rfl

theorem addrE_addr {bs : Bytes} {a : Address.Address} (h : Addr bs a) (r : Bytes) : addrE (bs ++ r) = .ok a r := by
  cases h with
  | v4 x y z w _ he =>
    show Out.ok _ _ = _
    congr 1
    exact addr_ext (by rw [he]; rfl)
  | v6 bs _ he =>
    have hl : bs.length = 16 := by
      have := a.len
      rw [he] at this
      simpa using this
    rw [addrE, List.cons_append, charE, Out.bind, if_neg (by decide), if_pos rfl, dif_neg (by simp [hl])]
    congr 1
    · exact addr_ext (by rw [he]; simp [Address.Address.v6, List.take_left' hl])
    · exact List.drop_left' hl

theorem addrE_ok {bs r : Bytes} {a : Address.Address} (h : addrE bs = .ok a r) : ∃ b, bs = b ++ r ∧ Addr b a := by
  rw [addrE] at h
  obtain ⟨f, r', h1, h2⟩ := Out.bind_ok h
  cases bs with
  | nil => cases h1
  | cons f' bs =>
    cases h1
    split at h2
    · rename_i hf
      split at h2
      · cases h2
        rw [hf]
        exact ⟨[4, _, _, _, _], rfl, .v4 _ _ _ _ _ rfl⟩
      · cases h2
    · split at h2
      · rename_i hf
        split at h2
        · cases h2
        · cases h2
          rw [hf]
          exact ⟨6 :: r'.take 16, by simp, .v6 _ _ rfl⟩
      · cases h2

theorem net_make {a : Address.Address} {k : Nat} {s : Address.Subnet} (h : Net a k s) : Address.Subnet.make a k = s := by
  obtain ⟨h1, h2, h3⟩ := h
  have key : ∀ m, m ≤ 128 → s.len = m → (∀ i, i < 128 → s.network.bit i = (a.bit i && decide (i < m))) →
      (⟨(a.mask m).1, m⟩ : Address.Subnet) = s := by
    intro m hm h2 h3
    cases s with
    | mk net len =>
      simp only at h2 h3
      subst h2
      congr 1
      exact Address.addr_ext fun i hi => by rw [Address.mask_bit a _ i hm hi, h3 i hi]
  unfold Address.Address.maxLength at h1 h2 h3
  unfold Address.Subnet.make
  by_cases h4 : a.isV4
  · rw [if_pos h4] at h1 h2 h3 ⊢
    rw [if_neg (by omega)]
    exact key (k + 96) (by omega) (by omega) (fun i hi => by have := h3 i hi; simpa using this)
  · rw [if_neg h4] at h1 h2 h3 ⊢
    rw [if_neg (by omega)]
    exact key k (by omega) (by omega) (fun i hi => by have := h3 i hi; simpa using this)

theorem make_net (a : Address.Address) (k : Nat) : (k ≤ a.maxLength ∧ Net a k (.make a k)) ∨ (a.maxLength < k ∧ Address.Subnet.make a k = .default) := by
  unfold Net Address.Address.maxLength Address.Subnet.make
  by_cases h4 : a.isV4 = true
  · rw [if_pos h4, if_pos h4]
    by_cases h : k > 32
    · right
      exact ⟨h, if_pos h⟩
    · left
      rw [if_neg h]
      refine ⟨by omega, by omega, rfl, fun i hi => by rw [Address.mask_bit a _ i (by omega) hi]⟩
  · rw [if_neg h4, if_neg h4]
    by_cases h : k > 128
    · right
      exact ⟨h, if_pos h⟩
    · left
      rw [if_neg h]
      exact ⟨by omega, by omega, rfl, fun i hi => by rw [Address.mask_bit a _ i (by omega) hi]; simp⟩

end Verif.Broker
