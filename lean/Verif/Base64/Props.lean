import Verif.Base64.Model

/-!
# C45, C58: Base64
-/

namespace Verif.Base64

theorem enc0_eq : ∀ n : Fin 256, enc0 n.val = n.val / 4 := by decide +kernel
theorem and3_eq : ∀ n : Fin 256, (n.val &&& 0x03) <<< 4 = n.val % 4 * 16 := by decide +kernel
theorem hi4_eq : ∀ n : Fin 256, (n.val &&& 0xf0) >>> 4 = n.val / 16 := by decide +kernel
theorem hi2_eq : ∀ n : Fin 256, (n.val &&& 0xc0) >>> 6 = n.val / 64 := by decide +kernel
theorem lo4_eq : ∀ n : Fin 256, (n.val &&& 0x0f) <<< 2 = n.val % 16 * 4 := by decide +kernel
theorem enc3_eq : ∀ n : Fin 256, enc3 n.val = n.val % 64 := by decide +kernel

theorem dec30_eq : ∀ n : Fin 64, (n.val &&& 0x30) >>> 4 = n.val / 16 := by decide +kernel
theorem decf_eq : ∀ n : Fin 64, (n.val &&& 0xf) <<< 4 = n.val % 16 * 16 := by decide +kernel
theorem dec3c_eq : ∀ n : Fin 64, (n.val &&& 0x3c) >>> 2 = n.val / 4 := by decide +kernel
theorem dec3_eq : ∀ n : Fin 64, (n.val &&& 0x3) <<< 6 = n.val % 4 * 64 := by decide +kernel

theorem inverse_digit : ∀ n : Fin 64, digit n.val ≠ 61 ∧ inverse.getD (digit n.val).toNat (-1) = n.val := by decide +kernel

/-- Decoding a digit. -/
theorem decode_digit {n : Nat} (hn : n < 64) (xs : List UInt8) (c4 : List Nat) :
    decodeBytes (digit n :: xs) c4 = if c4.length + 1 = 4 then dec (c4.getD 0 0) (c4.getD 1 0) (c4.getD 2 0) n ++ decodeBytes xs []
      else decodeBytes xs (c4 ++ [n]) := by
  obtain ⟨h1, h2⟩ := inverse_digit ⟨n, hn⟩
  simp only at h1 h2
  rw [decodeBytes, h2, if_neg (by
    rintro (h | h)
    · exact h1 h
    · omega)]
  simp only [Int.toNat_natCast]

theorem decode_pad (xs : List UInt8) (c4 : List Nat) : decodeBytes (61 :: xs) c4 = flushDigits c4 := by
  rw [decodeBytes, if_pos (Or.inl rfl)]

theorem dec_eq {d0 d1 d2 d3 : Nat} (h1 : d1 < 64) (h2 : d2 < 64) :
    dec d0 d1 d2 d3 = [UInt8.ofNat (d0 * 4 + d1 / 16), UInt8.ofNat (d1 % 16 * 16 + d2 / 4), UInt8.ofNat (d2 % 4 * 64 + d3)] := by
  rw [dec, dec30_eq ⟨d1, h1⟩, decf_eq ⟨d1, h1⟩, dec3c_eq ⟨d2, h2⟩, dec3_eq ⟨d2, h2⟩, Nat.shiftLeft_eq]

theorem byte_eq (a : UInt8) {n : Nat} (h : n = a.toNat) : UInt8.ofNat n = a := by subst h; simp

theorem enc1_eq (a b : UInt8) : enc1 a.toNat b.toNat = a.toNat % 4 * 16 + b.toNat / 16 := by
  rw [enc1, and3_eq ⟨a.toNat, a.toNat_lt⟩, hi4_eq ⟨b.toNat, b.toNat_lt⟩]

theorem enc2_eq (b c : UInt8) : enc2 b.toNat c.toNat = c.toNat / 64 + b.toNat % 16 * 4 := by
  rw [enc2, hi2_eq ⟨c.toNat, c.toNat_lt⟩, lo4_eq ⟨b.toNat, b.toNat_lt⟩]

theorem decode_encodeBytes : ∀ str : List UInt8, decodeBytes (encodeBytes str) [] = str
  | [] => rfl
  | [a] => by
    have ha := a.toNat_lt
    rw [encodeBytes, enc0_eq ⟨a.toNat, ha⟩, and3_eq ⟨a.toNat, ha⟩]
    simp only
    rw [decode_digit (by omega), if_neg (by simp), decode_digit (by omega), if_neg (by simp), decode_pad, flushDigits]
    simp only [List.nil_append, List.cons_append, List.getD_cons_zero, List.getD_cons_succ, List.length_cons, List.length_nil, List.getD_nil]
    rw [dec_eq (by omega) (by omega), byte_eq a (by omega)]
    rfl
  | [a, b] => by
    have ha := a.toNat_lt
    have hb := b.toNat_lt
    rw [encodeBytes, enc0_eq ⟨a.toNat, ha⟩, enc1_eq, lo4_eq ⟨b.toNat, hb⟩]
    simp only
    rw [decode_digit (by omega), if_neg (by simp), decode_digit (by omega), if_neg (by simp), decode_digit (by omega), if_neg (by simp), decode_pad, flushDigits]
    simp only [List.nil_append, List.cons_append, List.getD_cons_zero, List.getD_cons_succ, List.length_cons, List.length_nil, List.getD_nil]
    rw [dec_eq (by omega) (by omega), byte_eq a (by omega), byte_eq b (by omega)]
    rfl
  | a :: b :: c :: rest => by
    have ha := a.toNat_lt
    have hb := b.toNat_lt
    have hc := c.toNat_lt
    rw [encodeBytes, enc0_eq ⟨a.toNat, ha⟩, enc1_eq, enc2_eq, enc3_eq ⟨c.toNat, hc⟩]
    simp only
    rw [decode_digit (by omega), if_neg (by simp), decode_digit (by omega), if_neg (by simp), decode_digit (by omega), if_neg (by simp),
      decode_digit (by omega), if_pos (by simp)]
    simp only [List.nil_append, List.cons_append, List.getD_cons_zero, List.getD_cons_succ]
    rw [dec_eq (by omega) (by omega), decode_encodeBytes rest, byte_eq a (by omega), byte_eq b (by omega), byte_eq c (by omega)]
    rfl

theorem encode_length : ∀ str : List UInt8, (encodeBytes str).length = encodedSize str.length
  | [] => rfl
  | [_] => by simp [encodeBytes, encodedSize]
  | [_, _] => by simp [encodeBytes, encodedSize]
  | _ :: _ :: _ :: rest => by
    have := encode_length rest
    simp only [encodeBytes, List.length_cons, this, encodedSize]
    omega

/-- **C45.** Decoding an encoded string gives the string back; neither direction writes outside of its buffer. -/
theorem C45_round_trip (str : List UInt8) : ∃ enc, encode str = some enc ∧ decode enc = some str := by
  refine ⟨encodeBytes str, ?_, ?_⟩
  · rw [encode, if_pos (Nat.le_of_eq (encode_length str))]
  · rw [decode, decode_encodeBytes, encode_length, if_pos]
    simp only [decodedSize, encodedSize]; omega

/-- The encoded string has `encoded_size` characters: a multiple of four. -/
theorem C45_length (str : List UInt8) : ∃ enc, encode str = some enc ∧ enc.length = 4 * ((str.length + 2) / 3) :=
  ⟨encodeBytes str, by rw [encode, if_pos (Nat.le_of_eq (encode_length str))], encode_length str⟩

/-- Only characters of the alphabet and the padding occur. -/
theorem C45_alphabet (str enc : List UInt8) (h : encode str = some enc) (x : UInt8) (hx : x ∈ enc) : x ∈ alphabet ∨ x = 61 := by
  have hd : ∀ n, n < 64 → digit n ∈ alphabet := by
    intro n hn
    exact (by decide +kernel : ∀ n : Fin 64, digit n.val ∈ alphabet) ⟨n, hn⟩
  have : enc = encodeBytes str := by
    unfold encode at h
    split at h
    · exact (Option.some.inj h).symm
    · simp at h
  subst this
  clear h
  induction str using encodeBytes.induct with
  | case1 a b c rest ih =>
    have ha := a.toNat_lt
    have hb := b.toNat_lt
    have hc := c.toNat_lt
    rw [encodeBytes, enc0_eq ⟨a.toNat, ha⟩, enc1_eq, enc2_eq, enc3_eq ⟨c.toNat, hc⟩] at hx
    simp only [List.mem_cons] at hx
    rcases hx with rfl | rfl | rfl | rfl | hx
    · exact Or.inl (hd _ (by omega))
    · exact Or.inl (hd _ (by omega))
    · exact Or.inl (hd _ (by omega))
    · exact Or.inl (hd _ (by omega))
    · exact ih hx
  | case2 a b =>
    have ha := a.toNat_lt
    have hb := b.toNat_lt
    rw [encodeBytes, enc0_eq ⟨a.toNat, ha⟩, enc1_eq, lo4_eq ⟨b.toNat, hb⟩] at hx
    simp only [List.mem_cons, List.not_mem_nil, or_false] at hx
    rcases hx with rfl | rfl | rfl | rfl
    · exact Or.inl (hd _ (by omega))
    · exact Or.inl (hd _ (by omega))
    · exact Or.inl (hd _ (by omega))
    · exact Or.inr rfl
  | case3 a =>
    have ha := a.toNat_lt
    rw [encodeBytes, enc0_eq ⟨a.toNat, ha⟩, and3_eq ⟨a.toNat, ha⟩] at hx
    simp only [List.mem_cons, List.not_mem_nil, or_false] at hx
    rcases hx with rfl | rfl | rfl | rfl
    · exact Or.inl (hd _ (by omega))
    · exact Or.inl (hd _ (by omega))
    · exact Or.inr rfl
    · exact Or.inr rfl
  | case4 => simp [encodeBytes] at hx

/-- `Man` is `TWFu`, and `Ma` is `TWE=`. -/
example : encode [77, 97, 110] = some [84, 87, 70, 117] ∧ encode [77, 97] = some [84, 87, 69, 61] ∧
    decode [84, 87, 69, 61] = some [77, 97] := by decide +kernel

/-! ## Decoding arbitrary input -/

theorem flush_length (c4 : List Nat) : (flushDigits c4).length ≤ c4.length - 1 := by
  simp only [flushDigits, dec, List.length_take]; omega

theorem decode_length : ∀ (str : List UInt8) (c4 : List Nat), c4.length ≤ 3 → 4 * (decodeBytes str c4).length ≤ 3 * (str.length + c4.length)
  | [], c4, h => by
    rw [decodeBytes]
    have := flush_length c4
    simp only [List.length_nil]; omega
  | x :: xs, c4, h => by
    rw [decodeBytes]
    split
    · have := flush_length c4
      simp only [List.length_cons]; omega
    · split
      · have := decode_length xs [] (by simp)
        simp only [List.length_append, dec, List.length_cons, List.length_nil] at this ⊢; omega
      · next h3 =>
        have := decode_length xs (c4 ++ [(inverse.getD x.toNat (-1)).toNat]) (by simp only [List.length_append, List.length_cons, List.length_nil]; omega)
        simp only [List.length_append, List.length_cons, List.length_nil] at this ⊢; omega

/-- **C58, partial.** Decoding any string whose length is a multiple of four does not write outside of the buffer. Missing: other
lengths, which are refuted. -/
theorem C58_decode_safe_partial (str : List UInt8) (h : str.length % 4 = 0) : ∃ r, decode str = some r := by
  have := decode_length str [] (by simp)
  refine ⟨decodeBytes str [], ?_⟩
  rw [decode, if_pos]
  simp only [decodedSize, List.length_nil] at this ⊢; omega

/-- Invalid characters, in a string of eight. -/
example : ([84, 87, 1, 2, 84, 87, 70, 117] : List UInt8).length % 4 = 0 ∧ decode [84, 87, 1, 2, 84, 87, 70, 117] = some [77] := by decide +kernel

/-- The input `TWE` has no padding: the buffer is empty (base64.hpp:48), and two bytes are written to it. -/
theorem C58_decode_unpadded_refuted : decode [84, 87, 69] = none := by decide +kernel

end Verif.Base64
