import Verif.Varbyte.Lemmas
/-
C44: variable byte integers round-trip.
-/
namespace Verif.Varbyte

/-- C44. For every unsigned integer type and every value of it, decoding the
encoded bytes, followed by arbitrary further bytes, gives the value back,
consumes exactly the bytes the encoder wrote, and never runs into undefined
behaviour. -/
theorem C44_varbyte_roundtrip (w : Nat) (hw : Width w) (x : Nat) (hx : x < 2 ^ w)
    (rest : List Nat) :
    decode w (encode x ++ rest) = .ok x (encode x).length := by
  have := decodeLoop_encode w x 0 0 rest (by simpa using hx) (Or.inr rfl) (by simp)
    (by rcases hw with h | h | h | h <;> omega)
  simpa [decode] using this

example : Width 64 ∧ (2 ^ 64 - 1 : Nat) < 2 ^ 64 ∧ Width 8 ∧ (200 : Nat) < 2 ^ 8 := by
  simp [Width]
example : decode 8 ([0xc8, 0x01] ++ [0x80, 7]) = .ok 200 2 := by decide

/-- C44. `size` predicts the number of bytes that `encode` writes. -/
theorem C44_varbyte_size (w : Nat) (hw : Width w) (x : Nat) (hx : x < 2 ^ w) :
    (encode x).length = size w x := by
  have up := fun k => encode_length_le x k
  have lo := fun k => encode_length_ge x k
  have key : ∀ k, 2 ^ (7 * k) ≤ x ∨ k = 0 → x < 2 ^ (7 * (k + 1)) → (encode x).length = k + 1 := by
    intro k h1 h2
    have a := up k h2
    rcases h1 with h1 | h1
    · have b := lo k h1; omega
    · subst h1
      have : 1 ≤ (encode x).length := by rw [encode]; split <;> simp
      omega
  rcases hw with rfl | rfl | rfl | rfl <;> simp only [size] <;> simp (config := {decide := true}) only [if_true, if_false] <;>
    repeat' split
  all_goals first
    | exact key 0 (by simp <;> omega) (by simp <;> omega)
    | exact key 1 (by simp <;> omega) (by simp <;> omega)
    | exact key 2 (by simp <;> omega) (by simp <;> omega)
    | exact key 3 (by simp <;> omega) (by simp <;> omega)
    | exact key 4 (by simp <;> omega) (by simp <;> omega)
    | exact key 5 (by simp <;> omega) (by simp <;> omega)
    | exact key 6 (by simp <;> omega) (by simp <;> omega)
    | exact key 7 (by simp <;> omega) (by simp <;> omega)
    | exact key 8 (by simp <;> omega) (by simp <;> omega)
    | exact key 9 (by simp <;> omega) (by simp <;> omega)

/-- C44. A buffer of `max_size` bytes is always large enough, and everything
written is a byte. -/
theorem C44_varbyte_bounded (w : Nat) (hw : Width w) (x : Nat) (hx : x < 2 ^ w) :
    (encode x).length ≤ maxSize w ∧ ∀ b ∈ encode x, b < 256 := by
  refine ⟨?_, encode_bytes x⟩
  rcases hw with rfl | rfl | rfl | rfl
  · exact encode_length_le x 1 (Nat.lt_of_lt_of_le hx (by decide))
  · exact encode_length_le x 2 (Nat.lt_of_lt_of_le hx (by decide))
  · exact encode_length_le x 4 (Nat.lt_of_lt_of_le hx (by decide))
  · exact encode_length_le x 9 (Nat.lt_of_lt_of_le hx (by decide))

example : maxSize 64 = 10 ∧ maxSize 8 = 2 := by decide

/-- C44, the encoding is prefix free: no encoded value is a proper prefix of the
encoding of another value, so a concatenation of encodings can be cut in one way
only. -/
theorem C44_varbyte_prefix_free (w : Nat) (hw : Width w) (x y : Nat) (hx : x < 2 ^ w)
    (hy : y < 2 ^ w) (r s : List Nat) (h : encode x ++ r = encode y ++ s) : x = y ∧ r = s := by
  have a := C44_varbyte_roundtrip w hw x hx r
  have b := C44_varbyte_roundtrip w hw y hy s
  rw [h, b] at a
  have hxy : x = y := (Decoded.ok.inj a).1.symm
  subst hxy
  exact ⟨rfl, List.append_cancel_left h⟩

example : encode 300 ++ [5] = [0xac, 0x02, 5] := by
  simp [encode]

end Verif.Varbyte
