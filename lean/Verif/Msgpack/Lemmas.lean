import Verif.Msgpack.Model

/-! Lemmas on MessagePack. -/

namespace Verif.Msgpack

/-! ### Numbers -/

theorem be_length : ∀ (k n : Nat), (be k n).length = k
  | 0, _ => rfl
  | k + 1, n => by simp [be, be_length k n]

theorem foldl_be : ∀ (k n acc : Nat),
    (be k n).foldl (fun (m : Nat) (b : UInt8) => m * 256 + b.toNat) acc = acc * 256 ^ k + n % 256 ^ k
  | 0, n, acc => by simp [be, Nat.mod_one]
  | k + 1, n, acc => by
    rw [be, List.foldl_cons, foldl_be k n]
    have h1 : (UInt8.ofNat (n / 256 ^ k)).toNat = n / 256 ^ k % 256 := by simp
    have h2 : n % 256 ^ (k + 1) = n % 256 ^ k + 256 ^ k * (n / 256 ^ k % 256) := by
      rw [Nat.pow_succ, Nat.mod_mul]
    rw [h1, h2, Nat.pow_succ, Nat.add_mul, Nat.mul_assoc, Nat.mul_comm 256 (256 ^ k),
      Nat.mul_comm (n / 256 ^ k % 256)]
    omega

theorem ofBe_be (k n : Nat) : ofBe (be k n) = n % 256 ^ k := by
  rw [ofBe, foldl_be]; simp

theorem toUnsigned_lt (k : Nat) (x : Int) : toUnsigned k x < 256 ^ k := by
  have hp : 0 < 256 ^ k := Nat.pow_pos (by decide)
  have h1 : x % (256 ^ k : Nat) < (256 ^ k : Nat) := Int.emod_lt_of_pos _ (by omega)
  have h2 : 0 ≤ x % (256 ^ k : Nat) := Int.emod_nonneg _ (by omega)
  rw [toUnsigned]
  omega

theorem toUnsigned_nat {k n : Nat} (h : n < 256 ^ k) : toUnsigned k (n : Int) = n := by
  rw [toUnsigned, ← Int.natCast_emod, Int.toNat_natCast, Nat.mod_eq_of_lt h]

theorem toSigned_toUnsigned {k : Nat} {x : Int} (h1 : -(256 ^ k : Nat) ≤ 2 * x) (h2 : 2 * x < (256 ^ k : Nat)) :
    toSigned k (toUnsigned k x) = x := by
  have hp : 0 < 256 ^ k := Nat.pow_pos (by decide)
  rw [toUnsigned, toSigned]
  generalize (256 ^ k : Nat) = m at *
  by_cases hx : 0 ≤ x
  · rw [Int.emod_eq_of_lt hx (by omega)]
    rw [if_pos (by omega)]
    omega
  · have : x % (m : Int) = x + m := by
      rw [← Int.add_emod_right, Int.emod_eq_of_lt (by omega) (by omega)]
    rw [this, if_neg (by omega)]
    omega

/-! ### Reading -/

theorem rd_mid (a s tail : List UInt8) : rd (a ++ (s ++ tail)) a.length s.length = some s := by
  rw [rd, if_pos (by simp), List.drop_left, List.take_left]

theorem rd_mid' {a s tail : List UInt8} {o k : Nat} (ho : a.length = o) (hk : s.length = k) :
    rd (a ++ (s ++ tail)) o k = some s := by subst ho; subst hk; exact rd_mid a s tail

theorem num_be (b : UInt8) (k n : Nat) (tail : List UInt8) :
    num (b :: (be k n ++ tail)) k = some (n % 256 ^ k) := by
  have := rd_mid' (a := [b]) (s := be k n) (tail := tail) (o := 1) (k := k) rfl (be_length k n)
  rw [num]
  rw [show (b :: (be k n ++ tail)) = [b] ++ (be k n ++ tail) from rfl, this]
  simp [ofBe_be]

theorem text_be (b : UInt8) (k : Nat) (s tail : List UInt8) (h : s.length < 256 ^ k) :
    text (b :: (be k s.length ++ (s ++ tail))) k = some s := by
  rw [text, num_be, Nat.mod_eq_of_lt h]
  simp only [Option.bind_some]
  by_cases hs : s.length = 0
  · rw [if_pos hs, List.length_eq_zero_iff.1 hs]
  · rw [if_neg hs]
    have := rd_mid' (a := b :: be k s.length) (s := s) (tail := tail) (o := 1 + k) (k := s.length)
      (by simp [be_length]; omega) rfl
    simpa using this

theorem advance_mid {s tail : List UInt8} {n : Nat} (h : s.length = n) : advance (s ++ tail) n = some tail := by
  subst h
  simp [advance]

/-! ### The first byte -/

theorem ofNat_toNat {n : Nat} (h : n < 256) : (UInt8.ofNat n).toNat = n := by
  simp; omega

theorem fixstr_byte : ∀ n : Fin 32, (UInt8.ofNat (0xa0 ||| n.val % 256)).toNat >>> 7 ≠ 0 ∧
    (UInt8.ofNat (0xa0 ||| n.val % 256)).toNat >>> 5 ≠ 7 ∧
    (UInt8.ofNat (0xa0 ||| n.val % 256)).toNat >>> 5 = 0xbf >>> 5 ∧
    (UInt8.ofNat (0xa0 ||| n.val % 256)).toNat &&& 0x1f = n.val := by decide +kernel

theorem fixarr_byte : ∀ n : Fin 16, (UInt8.ofNat ((0x9f &&& 0xf0) ||| n.val % 256)).toNat >>> 7 ≠ 0 ∧
    (UInt8.ofNat ((0x9f &&& 0xf0) ||| n.val % 256)).toNat >>> 5 ≠ 7 ∧
    (UInt8.ofNat ((0x9f &&& 0xf0) ||| n.val % 256)).toNat >>> 5 ≠ 0xbf >>> 5 ∧
    (UInt8.ofNat ((0x9f &&& 0xf0) ||| n.val % 256)).toNat >>> 4 = 0x9f >>> 4 ∧
    (UInt8.ofNat ((0x9f &&& 0xf0) ||| n.val % 256)).toNat &&& 0x0f = n.val := by decide +kernel

theorem fixmap_byte : ∀ n : Fin 16, (UInt8.ofNat ((0x8f &&& 0xf0) ||| n.val % 256)).toNat >>> 7 ≠ 0 ∧
    (UInt8.ofNat ((0x8f &&& 0xf0) ||| n.val % 256)).toNat >>> 5 ≠ 7 ∧
    (UInt8.ofNat ((0x8f &&& 0xf0) ||| n.val % 256)).toNat >>> 5 ≠ 0xbf >>> 5 ∧
    (UInt8.ofNat ((0x8f &&& 0xf0) ||| n.val % 256)).toNat >>> 4 ≠ 0x9f >>> 4 ∧
    (UInt8.ofNat ((0x8f &&& 0xf0) ||| n.val % 256)).toNat >>> 4 = 0x8f >>> 4 ∧
    (UInt8.ofNat ((0x8f &&& 0xf0) ||| n.val % 256)).toNat &&& 0x0f = n.val := by decide +kernel

theorem posfix_byte : ∀ n : Fin 128, (UInt8.ofNat (n.val &&& 0x7f)).toNat >>> 7 = 0 ∧
    (UInt8.ofNat (n.val &&& 0x7f)).toNat = n.val := by decide +kernel

theorem negfix_byte : ∀ n : Fin 32, (UInt8.ofNat ((224 + n.val) &&& 0xff)).toNat >>> 7 ≠ 0 ∧
    (UInt8.ofNat ((224 + n.val) &&& 0xff)).toNat >>> 5 = 7 ∧
    (UInt8.ofNat ((224 + n.val) &&& 0xff)).toNat = 224 + n.val := by decide +kernel

/-! ### Integers -/

theorem toUnsigned_one_neg {x : Int} (h1 : -32 ≤ x) (h2 : x < 0) : toUnsigned 1 x = 224 + (x + 32).toNat := by
  have : x % (256 : Int) = x + 256 := by
    rw [← Int.add_emod_right, Int.emod_eq_of_lt (by omega) (by omega)]
  simp only [toUnsigned, Nat.pow_one]
  rw [show ((256 : Nat) : Int) = 256 from rfl, this]
  omega

theorem visit_negfix {x : Int} (h1 : -32 ≤ x) (h2 : x < 0) (tail : List UInt8) :
    visit (addFixint 0xff x ++ tail) = .signed 1 x := by
  have hb := negfix_byte ⟨(x + 32).toNat, by omega⟩
  have hu := toUnsigned_one_neg h1 h2
  simp only [addFixint, hu, List.cons_append, List.nil_append, visit, visitAt]
  rw [if_neg hb.1, if_pos hb.2.1, hb.2.2, toSigned, if_neg (by simp only [Nat.pow_one]; omega)]
  simp only [Seen.signed.injEq, true_and, Nat.pow_one]
  omega

theorem visit_posfix {n : Nat} (h : n < 128) (tail : List UInt8) :
    visit (addFixint 0x7f (n : Int) ++ tail) = .unsigned 1 n := by
  have hb := posfix_byte ⟨n, h⟩
  have hu : toUnsigned 1 (n : Int) = n := toUnsigned_nat (by omega)
  simp only [addFixint, hu, List.cons_append, List.nil_append, visit, visitAt]
  rw [if_pos hb.1, hb.2]

theorem next_negfix {x : Int} (h1 : -32 ≤ x) (h2 : x < 0) (f : List UInt8 → Option (List UInt8))
    (tail : List UInt8) :
    ∃ b, addFixint 0xff x = [b] ∧ nextAt f b.toNat (b :: tail) = some tail := by
  have hb := negfix_byte ⟨(x + 32).toNat, by omega⟩
  have hu := toUnsigned_one_neg h1 h2
  refine ⟨_, rfl, ?_⟩
  rw [hu, nextAt, if_pos (.inr hb.2.1)]
  simp [advance]

theorem next_posfix {n : Nat} (h : n < 128) (f : List UInt8 → Option (List UInt8)) (tail : List UInt8) :
    ∃ b, addFixint 0x7f (n : Int) = [b] ∧ nextAt f b.toNat (b :: tail) = some tail := by
  have hb := posfix_byte ⟨n, h⟩
  have hu : toUnsigned 1 (n : Int) = n := toUnsigned_nat (by omega)
  refine ⟨_, rfl, ?_⟩
  rw [hu, nextAt, if_pos (.inl hb.1)]
  simp [advance]

/-- What a visitor of signed integers gets. -/
def SignedSeen (s : Seen) (x : Int) : Prop :=
  (∃ w, s = .signed w x) ∨ (s = .unsigned 1 x.toNat ∧ 0 ≤ x ∧ x < 128)

/-- Reading and skipping an object. -/
structure Obj (e : List UInt8) (s : List UInt8 → Seen) : Prop where
  pos : 0 < e.length
  visit : ∀ tail, Msgpack.visit (e ++ tail) = s tail
  next : ∀ (n : Nat) (tail : List UInt8), 1 ≤ n → nextFuel n (e ++ tail) = some tail

theorem obj_of {b : UInt8} {e : List UInt8} {s : List UInt8 → Seen}
    (h1 : ∀ tail, visitAt b.toNat (b :: (e ++ tail)) = s tail)
    (h2 : ∀ f tail, nextAt f b.toNat (b :: (e ++ tail)) = some tail) : Obj (b :: e) s :=
  ⟨by simp, h1, by
    intro n tail hn
    cases n with
    | zero => omega
    | succ n => exact h2 (nextFuel n) tail⟩

theorem advance_cons {b : UInt8} {e tail : List UInt8} {n : Nat} (h : e.length + 1 = n) :
    advance (b :: (e ++ tail)) n = some tail := advance_mid (s := b :: e) (by simpa using h)

theorem obj_int8 (x : Int) : Obj (addInt 0xd0 1 x) fun _ => .signed 1 (toSigned 1 (toUnsigned 1 x)) := by
  refine obj_of (fun tail => ?_) (fun f tail => ?_)
  · simp [visitAt, visitFormat, num_be, seen, Nat.mod_eq_of_lt (toUnsigned_lt 1 x)]
  · simp only [nextAt, nextFormat, UInt8.reduceToNat]
    simpa using advance_cons (by simp [be_length])

theorem obj_int16 (x : Int) : Obj (addInt 0xd1 2 x) fun _ => .signed 2 (toSigned 2 (toUnsigned 2 x)) := by
  refine obj_of (fun tail => ?_) (fun f tail => ?_)
  · simp [visitAt, visitFormat, num_be, seen, Nat.mod_eq_of_lt (toUnsigned_lt 2 x)]
  · simp only [nextAt, nextFormat, UInt8.reduceToNat]
    simpa using advance_cons (by simp [be_length])

theorem obj_int32 (x : Int) : Obj (addInt 0xd2 4 x) fun _ => .signed 4 (toSigned 4 (toUnsigned 4 x)) := by
  refine obj_of (fun tail => ?_) (fun f tail => ?_)
  · simp [visitAt, visitFormat, num_be, seen, Nat.mod_eq_of_lt (toUnsigned_lt 4 x)]
  · simp only [nextAt, nextFormat, UInt8.reduceToNat]
    simpa using advance_cons (by simp [be_length])

theorem obj_int64 (x : Int) : Obj (addInt 0xd3 8 x) fun _ => .signed 8 (toSigned 8 (toUnsigned 8 x)) := by
  refine obj_of (fun tail => ?_) (fun f tail => ?_)
  · simp [visitAt, visitFormat, num_be, seen, Nat.mod_eq_of_lt (toUnsigned_lt 8 x)]
  · simp only [nextAt, nextFormat, UInt8.reduceToNat]
    simpa using advance_cons (by simp [be_length])

theorem obj_uint8 {n : Nat} (h : n < 256) : Obj (addInt 0xcc 1 n) fun _ => .unsigned 1 n := by
  have hn := toUnsigned_nat (k := 1) (n := n) (by omega)
  refine obj_of (fun tail => ?_) (fun f tail => ?_)
  · simp [visitAt, visitFormat, num_be, seen, hn, h]
  · simp only [nextAt, nextFormat, UInt8.reduceToNat]
    simpa using advance_cons (by simp [be_length])

theorem obj_uint16 {n : Nat} (h : n < 65536) : Obj (addInt 0xcd 2 n) fun _ => .unsigned 2 n := by
  have hn := toUnsigned_nat (k := 2) (n := n) (by omega)
  refine obj_of (fun tail => ?_) (fun f tail => ?_)
  · simp [visitAt, visitFormat, num_be, seen, hn, h]
  · simp only [nextAt, nextFormat, UInt8.reduceToNat]
    simpa using advance_cons (by simp [be_length])

theorem obj_uint32 {n : Nat} (h : n < 4294967296) : Obj (addInt 0xce 4 n) fun _ => .unsigned 4 n := by
  have hn := toUnsigned_nat (k := 4) (n := n) (by omega)
  refine obj_of (fun tail => ?_) (fun f tail => ?_)
  · simp [visitAt, visitFormat, num_be, seen, hn, h]
  · simp only [nextAt, nextFormat, UInt8.reduceToNat]
    simpa using advance_cons (by simp [be_length])

theorem obj_uint64 {n : Nat} (h : n < 18446744073709551616) : Obj (addInt 0xcf 8 n) fun _ => .unsigned 8 n := by
  have hn := toUnsigned_nat (k := 8) (n := n) (by omega)
  refine obj_of (fun tail => ?_) (fun f tail => ?_)
  · simp [visitAt, visitFormat, num_be, seen, hn, h]
  · simp only [nextAt, nextFormat, UInt8.reduceToNat]
    simpa using advance_cons (by simp [be_length])

theorem obj_negfix {x : Int} (h1 : -32 ≤ x) (h2 : x < 0) : Obj (addFixint 0xff x) fun _ => .signed 1 x := by
  refine ⟨by simp [addFixint], visit_negfix h1 h2, ?_⟩
  intro n tail hn
  obtain ⟨b, hb, h⟩ := next_negfix h1 h2 (nextFuel (n - 1)) tail
  rw [hb]
  cases n with
  | zero => omega
  | succ n => exact h

theorem obj_posfix {m : Nat} (h : m < 128) : Obj (addFixint 0x7f (m : Int)) fun _ => .unsigned 1 m := by
  refine ⟨by simp [addFixint], visit_posfix h, ?_⟩
  intro n tail hn
  obtain ⟨b, hb, h⟩ := next_posfix h (nextFuel (n - 1)) tail
  rw [hb]
  cases n with
  | zero => omega
  | succ n => exact h

theorem ite_cases {α : Type} {P : α → Prop} {c : Prop} [Decidable c] {a b : α} (h1 : c → P a)
    (h2 : ¬ c → P b) : P (if c then a else b) := by
  by_cases h : c
  · rw [if_pos h]; exact h1 h
  · rw [if_neg h]; exact h2 h

/-- Signed integers of 1, 2, 4 and 8 bytes. -/
theorem obj_signed {w : Nat} {x : Int} (hw : w = 1 ∨ w = 2 ∨ w = 4 ∨ w = 8)
    (h1 : -(256 ^ w : Nat) ≤ 2 * x) (h2 : 2 * x < (256 ^ w : Nat)) :
    ∃ s, Obj (putSigned w x) (fun _ => s) ∧ SignedSeen s x := by
  have p1 : (256 ^ 1 : Nat) = 256 := rfl
  have p2 : (256 ^ 2 : Nat) = 65536 := rfl
  have p4 : (256 ^ 4 : Nat) = 4294967296 := rfl
  have p8 : (256 ^ 8 : Nat) = 18446744073709551616 := rfl
  have i8 : -128 ≤ x → x < 128 → ∃ s, Obj (addInt 0xd0 1 x) (fun _ => s) ∧ SignedSeen s x := fun a b =>
    ⟨_, obj_int8 x, .inl ⟨1, by rw [toSigned_toUnsigned (by omega) (by omega)]⟩⟩
  have i16 : -32768 ≤ x → x < 32768 → ∃ s, Obj (addInt 0xd1 2 x) (fun _ => s) ∧ SignedSeen s x := fun a b =>
    ⟨_, obj_int16 x, .inl ⟨2, by rw [toSigned_toUnsigned (by omega) (by omega)]⟩⟩
  have i32 : -2147483648 ≤ x → x < 2147483648 → ∃ s, Obj (addInt 0xd2 4 x) (fun _ => s) ∧ SignedSeen s x := fun a b =>
    ⟨_, obj_int32 x, .inl ⟨4, by rw [toSigned_toUnsigned (by omega) (by omega)]⟩⟩
  have i64 : -9223372036854775808 ≤ x → x < 9223372036854775808 →
      ∃ s, Obj (addInt 0xd3 8 x) (fun _ => s) ∧ SignedSeen s x := fun a b =>
    ⟨_, obj_int64 x, .inl ⟨8, by rw [toSigned_toUnsigned (by omega) (by omega)]⟩⟩
  have hneg : -32 ≤ x → x < 0 → ∃ s, Obj (addFixint 0xff x) (fun _ => s) ∧ SignedSeen s x := fun a b =>
    ⟨_, obj_negfix a b, .inl ⟨1, rfl⟩⟩
  have hpos : 0 ≤ x → x < 32 → ∃ s, Obj (addFixint 0x7f x) (fun _ => s) ∧ SignedSeen s x := fun a b => by
    have := obj_posfix (m := x.toNat) (by omega)
    rw [Int.toNat_of_nonneg a] at this
    exact ⟨_, this, .inr ⟨rfl, a, by omega⟩⟩
  have hr : (w = 1 ∧ -128 ≤ x ∧ x < 128) ∨ (w = 2 ∧ -32768 ≤ x ∧ x < 32768)
      ∨ (w = 4 ∧ -2147483648 ≤ x ∧ x < 2147483648)
      ∨ (w = 8 ∧ -9223372036854775808 ≤ x ∧ x < 9223372036854775808) := by
    rcases hw with hw | hw | hw | hw <;> subst hw <;> simp only [p1, p2, p4, p8] at h1 h2 <;> omega
  clear h1 h2 hw p1 p2 p4 p8
  unfold putSigned
  refine ite_cases (P := fun e => ∃ s, Obj e (fun _ => s) ∧ SignedSeen s x) (fun c => i64 (by omega) (by omega)) (fun c => ?_)
  refine ite_cases (P := fun e => ∃ s, Obj e (fun _ => s) ∧ SignedSeen s x) (fun c => i32 (by omega) (by omega)) (fun c => ?_)
  refine ite_cases (P := fun e => ∃ s, Obj e (fun _ => s) ∧ SignedSeen s x) (fun c => i16 (by omega) (by omega)) (fun c => ?_)
  refine ite_cases (P := fun e => ∃ s, Obj e (fun _ => s) ∧ SignedSeen s x) (fun c => i8 (by omega) (by omega)) (fun c => ?_)
  refine ite_cases (P := fun e => ∃ s, Obj e (fun _ => s) ∧ SignedSeen s x) (fun c => hneg (by omega) (by omega)) (fun c => ?_)
  refine ite_cases (P := fun e => ∃ s, Obj e (fun _ => s) ∧ SignedSeen s x) (fun c => hpos (by omega) (by omega)) (fun c => ?_)
  refine ite_cases (P := fun e => ∃ s, Obj e (fun _ => s) ∧ SignedSeen s x) (fun c => i8 (by omega) (by omega)) (fun c => ?_)
  refine ite_cases (P := fun e => ∃ s, Obj e (fun _ => s) ∧ SignedSeen s x) (fun c => i8 (by omega) (by omega)) (fun c => ?_)
  refine ite_cases (P := fun e => ∃ s, Obj e (fun _ => s) ∧ SignedSeen s x) (fun c => i16 (by omega) (by omega)) (fun c => ?_)
  refine ite_cases (P := fun e => ∃ s, Obj e (fun _ => s) ∧ SignedSeen s x) (fun c => i16 (by omega) (by omega)) (fun c => ?_)
  refine ite_cases (P := fun e => ∃ s, Obj e (fun _ => s) ∧ SignedSeen s x) (fun c => i32 (by omega) (by omega)) (fun c => ?_)
  refine ite_cases (P := fun e => ∃ s, Obj e (fun _ => s) ∧ SignedSeen s x) (fun c => i32 (by omega) (by omega)) (fun c => ?_)
  exact i64 (by omega) (by omega)

/-- Unsigned integers of 1, 2, 4 and 8 bytes. -/
theorem obj_unsigned {w n : Nat} (hw : w = 1 ∨ w = 2 ∨ w = 4 ∨ w = 8) (h : n < 256 ^ w) :
    ∃ w', Obj (putUnsigned w n) (fun _ => .unsigned w' n) ∧ (n < 256 → w' = 1) := by
  have p1 : (256 ^ 1 : Nat) = 256 := rfl
  have p2 : (256 ^ 2 : Nat) = 65536 := rfl
  have p4 : (256 ^ 4 : Nat) = 4294967296 := rfl
  have p8 : (256 ^ 8 : Nat) = 18446744073709551616 := rfl
  have hr : (w = 1 ∧ n < 256) ∨ (w = 2 ∧ n < 65536) ∨ (w = 4 ∧ n < 4294967296)
      ∨ (w = 8 ∧ n < 18446744073709551616) := by
    rcases hw with hw | hw | hw | hw <;> subst hw <;> simp only [p1, p2, p4, p8] at h <;> omega
  clear h hw p1 p2 p4 p8
  unfold putUnsigned
  split
  · exact ⟨1, obj_posfix (by omega), fun _ => rfl⟩
  split
  · exact ⟨1, obj_uint8 (by omega), fun _ => rfl⟩
  split
  · exact ⟨1, obj_uint8 (by omega), fun _ => rfl⟩
  split
  · exact ⟨2, obj_uint16 (by omega), by omega⟩
  split
  · exact ⟨2, obj_uint16 (by omega), by omega⟩
  split
  · exact ⟨4, obj_uint32 (by omega), by omega⟩
  split
  · exact ⟨4, obj_uint32 (by omega), by omega⟩
  · exact ⟨8, obj_uint64 (by omega), by omega⟩

/-! ### Other scalars -/

theorem obj_nil : Obj [0xc0] fun _ => .nil :=
  obj_of (e := []) (fun tail => by simp [visitAt, visitFormat, seen])
    (fun f tail => by simp [nextAt, nextFormat, advance])

theorem obj_bool (b : Bool) : Obj [if b then 0xc3 else 0xc2] fun _ => .bool b := by
  cases b
  · exact obj_of (e := []) (fun tail => by simp [visitAt, visitFormat, seen])
      (fun f tail => by simp [nextAt, nextFormat, advance])
  · exact obj_of (e := []) (fun tail => by simp [visitAt, visitFormat, seen])
      (fun f tail => by simp [nextAt, nextFormat, advance])

theorem obj_float {b : List UInt8} (h : b.length = 4) : Obj (0xca :: b) fun _ => .float b :=
  obj_of (fun tail => by
      have := rd_mid' (a := [0xca]) (s := b) (tail := tail) rfl h
      simp only [List.length_singleton, List.singleton_append] at this
      simp [visitAt, visitFormat, seen, this])
    (fun f tail => by
      simp only [nextAt, nextFormat, UInt8.reduceToNat]
      simpa using advance_cons (by omega))

theorem obj_double {b : List UInt8} (h : b.length = 8) : Obj (0xcb :: b) fun _ => .double b :=
  obj_of (fun tail => by
      have := rd_mid' (a := [0xcb]) (s := b) (tail := tail) rfl h
      simp only [List.length_singleton, List.singleton_append] at this
      simp [visitAt, visitFormat, seen, this])
    (fun f tail => by
      simp only [nextAt, nextFormat, UInt8.reduceToNat]
      simpa using advance_cons (by omega))

theorem obj_fixstr {s : List UInt8} (h : s.length ≤ 31) : Obj (addFixstr s) fun _ => .str s := by
  have hb := fixstr_byte ⟨s.length, by omega⟩
  refine obj_of (fun tail => ?_) (fun f tail => ?_)
  · rw [visitAt, if_neg hb.1, if_neg hb.2.1, if_pos hb.2.2.1, hb.2.2.2]
    have := rd_mid' (a := [UInt8.ofNat (0xa0 ||| s.length % 256)]) (s := s) (tail := tail) rfl rfl
    simp only [List.singleton_append, List.length_singleton] at this
    rw [this]; rfl
  · rw [nextAt, if_neg (not_or.2 ⟨hb.1, hb.2.1⟩), if_pos hb.2.2.1, hb.2.2.2]
    exact advance_cons (by simp; omega)

theorem obj_str16 {s : List UInt8} (h : s.length ≤ 65535) : Obj (addBinary 0xda 2 s) fun _ => .str s := by
  refine obj_of (fun tail => ?_) (fun f tail => ?_)
  · have := text_be 0xda 2 s tail (by omega)
    simp [visitAt, visitFormat, seen, this]
  · simp only [nextAt, nextFormat, UInt8.reduceToNat, List.append_assoc]
    simp only [num_be, Nat.reduceShiftRight, Nat.reduceEqDiff, if_false, if_true, or_false, Option.bind_some, true_or, or_true]
    rw [Nat.mod_eq_of_lt (by omega), ← List.append_assoc]
    exact advance_cons (by simp [be_length]; omega)

theorem obj_str32 {s : List UInt8} (h : s.length ≤ 4294967295) : Obj (addBinary 0xdb 4 s) fun _ => .str s := by
  refine obj_of (fun tail => ?_) (fun f tail => ?_)
  · have := text_be 0xdb 4 s tail (by omega)
    simp [visitAt, visitFormat, seen, this]
  · simp only [nextAt, nextFormat, UInt8.reduceToNat, List.append_assoc]
    simp only [num_be, Nat.reduceShiftRight, Nat.reduceEqDiff, if_false, if_true, or_false, Option.bind_some, true_or, or_true]
    rw [Nat.mod_eq_of_lt (by omega), ← List.append_assoc]
    exact advance_cons (by simp [be_length]; omega)

theorem obj_bin16 {s : List UInt8} (h : s.length ≤ 65535) : Obj (addBinary 0xc5 2 s) fun _ => .bin s := by
  refine obj_of (fun tail => ?_) (fun f tail => ?_)
  · have := text_be 0xc5 2 s tail (by omega)
    simp [visitAt, visitFormat, seen, this]
  · simp only [nextAt, nextFormat, UInt8.reduceToNat, List.append_assoc]
    simp only [num_be, Nat.reduceShiftRight, Nat.reduceEqDiff, if_false, if_true, or_false, Option.bind_some, true_or, or_true]
    rw [Nat.mod_eq_of_lt (by omega), ← List.append_assoc]
    exact advance_cons (by simp [be_length]; omega)

theorem obj_bin32 {s : List UInt8} (h : s.length ≤ 4294967295) : Obj (addBinary 0xc6 4 s) fun _ => .bin s := by
  refine obj_of (fun tail => ?_) (fun f tail => ?_)
  · have := text_be 0xc6 4 s tail (by omega)
    simp [visitAt, visitFormat, seen, this]
  · simp only [nextAt, nextFormat, UInt8.reduceToNat, List.append_assoc]
    simp only [num_be, Nat.reduceShiftRight, Nat.reduceEqDiff, if_false, if_true, or_false, Option.bind_some, true_or, or_true]
    rw [Nat.mod_eq_of_lt (by omega), ← List.append_assoc]
    exact advance_cons (by simp [be_length]; omega)

theorem visit_bin8 {s : List UInt8} (h : s.length ≤ 255) (tail : List UInt8) :
    visit (addBinary 0xc4 1 s ++ tail) = .bin s := by
  have := text_be 0xc4 1 s tail (by omega)
  simp [addBinary, visit, visitAt, visitFormat, seen, this]

/-- Strings. -/
theorem obj_str {s e : List UInt8} (h : putStr s = some e) : Obj e fun _ => .str s := by
  simp only [putStr] at h
  split at h
  · cases h; exact obj_fixstr (by omega)
  · split at h
    · cases h; exact obj_str16 (by omega)
    · split at h
      · cases h; exact obj_str32 (by omega)
      · cases h

end Verif.Msgpack
