import Verif.Varbyte.Model
namespace Verif.Varbyte

theorem and7f (x : Nat) : x &&& 0x7f = x % 128 := Nat.and_two_pow_sub_one_eq_mod x 7

theorem low_byte (x : Nat) : (x % 256) &&& 0x7f = x % 128 := by
  rw [and7f]; omega

theorem or80 (y : Nat) (h : y < 128) : y ||| 0x80 = y + 128 := by
  have := Nat.two_pow_add_eq_or_of_lt (i := 7) (b := y) (by simpa using h) 1
  rw [Nat.or_comm]; simp at this; omega

theorem encode_step (x : Nat) (h : x > 0x7f) :
    encode x = (x % 128 + 128) :: encode (x / 128) := by
  rw [encode, if_pos h, low_byte, or80 _ (by omega), Nat.shiftRight_eq_div_pow]

theorem encode_last (x : Nat) (h : ¬ x > 0x7f) : encode x = [x] := by
  rw [encode, if_neg h, low_byte, Nat.mod_eq_of_lt (by omega)]

theorem and80_high (y : Nat) (h : y < 128) : (y + 128) &&& 0x80 ≠ 0 := by
  intro h0
  have h1 : ((y + 128) &&& 0x80).testBit 7 = false := by rw [h0]; simp
  rw [Nat.testBit_and] at h1
  have : (y + 128).testBit 7 = true := by
    rw [Nat.testBit_eq_decide_div_mod_eq]; simp; omega
  rw [this] at h1
  revert h1; decide

theorem and80_low (y : Nat) (h : y < 128) : y &&& 0x80 = 0 := by
  apply Nat.eq_of_testBit_eq
  intro i
  rw [Nat.testBit_and]
  by_cases hi : i = 7
  · subst hi
    have : y.testBit 7 = false := Nat.testBit_lt_two_pow (by simpa using h)
    simp [this]
  · have : (0x80 : Nat).testBit i = false := by
      show (2 ^ 7 : Nat).testBit i = false
      exact Nat.testBit_two_pow_of_ne (Ne.symm hi)
    simp [this]

theorem decodeLoop_encode (w : Nat) (x : Nat) :
    ∀ (acc i : Nat) (rest : List Nat), x * 2 ^ (7 * i) < 2 ^ w → 0 < x ∨ i = 0 → acc < 2 ^ (7 * i) →
      0 < w →
      decodeLoop w acc i (encode x ++ rest)
        = .ok (acc + x * 2 ^ (7 * i)) (i + (encode x).length) := by
  induction x using Nat.strongRecOn with
  | _ x ih =>
    intro acc i rest hx hpos hacc hw
    have hi : 7 * i < w := by
      rcases hpos with h | h
      · apply (Nat.pow_lt_pow_iff_right (a := 2) (by omega)).1
        exact Nat.lt_of_le_of_lt (Nat.le_mul_of_pos_left _ h) hx
      · omega
    have hshift : ¬ (7 * i ≥ max w 32) := by omega
    by_cases h : x > 0x7f
    · rw [encode_step x h, List.cons_append, decodeLoop, if_neg hshift]
      have e1 : (x % 128 + 128) &&& 0x7f = x % 128 := by rw [and7f]; omega
      have hsplit : x * 2 ^ (7 * i) = x % 128 * 2 ^ (7 * i) + x / 128 * 2 ^ (7 * (i + 1)) := by
        have : 7 * (i + 1) = 7 + 7 * i := by omega
        rw [this, Nat.pow_add, ← Nat.mul_assoc, ← Nat.add_mul]
        congr 1; simp; omega
      have hlt : x % 128 * 2 ^ (7 * i) < 2 ^ w := by omega
      have e2 : (acc ||| ((x % 128) <<< (7 * i)) % 2 ^ w) = acc + x % 128 * 2 ^ (7 * i) := by
        rw [Nat.shiftLeft_eq, Nat.mod_eq_of_lt hlt, Nat.or_comm, Nat.mul_comm,
          ← Nat.two_pow_add_eq_or_of_lt hacc, Nat.add_comm]
      simp only [e1, e2]
      rw [if_pos (and80_high _ (by omega))]
      have hacc' : acc + x % 128 * 2 ^ (7 * i) < 2 ^ (7 * (i + 1)) := by
        have : 7 * (i + 1) = 7 + 7 * i := by omega
        rw [this, Nat.pow_add]
        have : x % 128 * 2 ^ (7 * i) ≤ 127 * 2 ^ (7 * i) :=
          Nat.mul_le_mul_right _ (by omega)
        simp only [Nat.reducePow]; omega
      rw [ih (x / 128) (by omega) _ (i + 1) rest (by omega) (Or.inl (by omega)) hacc' hw]
      simp only [List.length_cons, Decoded.ok.injEq]
      omega
    · rw [encode_last x h, List.cons_append, decodeLoop, if_neg hshift]
      have e1 : x &&& 0x7f = x := by rw [and7f]; omega
      have e2 : (acc ||| (x <<< (7 * i)) % 2 ^ w) = acc + x * 2 ^ (7 * i) := by
        rw [Nat.shiftLeft_eq, Nat.mod_eq_of_lt hx, Nat.or_comm, Nat.mul_comm,
          ← Nat.two_pow_add_eq_or_of_lt hacc, Nat.add_comm]
      simp only [e1, e2]
      rw [if_neg (by simpa using and80_low x (by omega))]
      simp

theorem encode_bytes (x : Nat) : ∀ b ∈ encode x, b < 256 := by
  induction x using Nat.strongRecOn with
  | _ x ih =>
    by_cases h : x > 0x7f
    · rw [encode_step x h]
      intro b hb
      rcases List.mem_cons.1 hb with rfl | hb
      · omega
      · exact ih _ (by omega) b hb
    · rw [encode_last x h]
      intro b hb
      simp at hb; omega

/-- Length of the encoding by powers of 128. -/
theorem encode_length_le (x k : Nat) (h : x < 2 ^ (7 * (k + 1))) : (encode x).length ≤ k + 1 := by
  induction k generalizing x with
  | zero =>
    rw [encode_last x (by simp at h; omega)]; simp
  | succ k ih =>
    by_cases hx : x > 0x7f
    · rw [encode_step x hx, List.length_cons]
      have : x / 128 < 2 ^ (7 * (k + 1)) := by
        have : 7 * (k + 1 + 1) = 7 * (k + 1) + 7 := by omega
        rw [this, Nat.pow_add] at h
        exact Nat.div_lt_of_lt_mul (by simpa [Nat.mul_comm] using h)
      have := ih _ this
      omega
    · rw [encode_last x hx]; simp

theorem encode_length_ge (x k : Nat) (h : 2 ^ (7 * k) ≤ x) : k + 1 ≤ (encode x).length := by
  induction k generalizing x with
  | zero => rw [encode]; split <;> simp
  | succ k ih =>
    have e : 7 * (k + 1) = 7 * k + 7 := by omega
    rw [e, Nat.pow_add] at h
    have hp : 1 ≤ 2 ^ (7 * k) := Nat.one_le_two_pow
    have hx : x > 0x7f := by simp at h; omega
    rw [encode_step x hx, List.length_cons]
    have := ih (x / 128) (by
      rw [Nat.le_div_iff_mul_le (by omega)]; simpa using h)
    omega

end Verif.Varbyte
