import Verif.Digest.Lemmas
/-!
# Properties of powers of two and of the width of digests
-/
namespace Verif.Digest
open Spec

/-! ## C189: a hash index has digests that are wide enough -/

/-- C189: for a cardinality of at least 2 there is an index.  Its digests are wide enough for so many values, unless they have the
maximum of 8 bytes, and one byte less would not be enough.  What is missing: cardinalities below 2. -/
theorem C189_enough_partial (n : Nat) (h : n < 2 ^ 63) (h2 : 2 ≤ n) :
    ∃ b, digestBytes (some n) = some b ∧ 1 ≤ b ∧ b ≤ 8 ∧ (Enough n b ∨ b = 8) ∧ ¬ Enough n (b - 1) := by
  obtain ⟨t1, t2⟩ := digestBits_tight h h2
  have e := digestBits_enough h
  have g := roundUp_ge (digestBits n)
  have l := roundUp_least (digestBits n) (by omega)
  have even : digestBits n % 2 = 0 := by unfold digestBits; split <;> omega
  have least : ∀ b, b ≤ roundUp (digestBits n) → ¬ Enough n (b - 1) := by
    intro b hb he
    have : 2 ^ (8 * (b - 1)) ≤ 2 ^ (digestBits n - 2) := Nat.pow_le_pow_right (by omega) (by omega)
    unfold Enough at he
    omega
  have hi : ¬ (n : Int) < 0 := by omega
  by_cases hc : roundUp (digestBits n) > 8
  · refine ⟨8, ?_, by omega, by omega, .inr rfl, least 8 (by omega)⟩
    simp [digestBytes, hi, hc]
  · refine ⟨roundUp (digestBits n), ?_, by omega, by omega, .inl ?_, least _ (Nat.le_refl _)⟩
    · have h1 : 1 ≤ roundUp (digestBits n) := by omega
      have h8 : roundUp (digestBits n) ≤ 8 := by omega
      simp only [digestBytes, hi, if_false, Int.toNat_natCast, hc]
      simp [h1, h8]
    · exact Nat.le_trans e (Nat.pow_le_pow_right (by omega) g)

/-- Negative cardinalities, which are counts above 2^63, get the maximum. -/
theorem C189_huge (c : Int) (h : c < 0) : digestBytes (some c) = some 8 := by simp [digestBytes, h]

/-- In a partition for one event, there is no index at all: the width is 0 bytes. -/
theorem C189_one_refuted : digestBytes (some 1) = none ∧ digestBytes (some 0) = none := by decide

/-- The default of 5 bytes is enough for 2^20 values, and not for one more. -/
theorem C189_default (n : Nat) : digestBytes none = some 5 ∧ (Enough n 5 ↔ n ≤ 2 ^ 20) := by
  refine ⟨rfl, ?_⟩
  unfold Enough
  constructor
  · intro h
    refine Decidable.byContradiction fun hn => ?_
    have := Nat.mul_le_mul (show 2 ^ 20 + 1 ≤ n by omega) (show 2 ^ 20 + 1 ≤ n by omega)
    omega
  · intro h
    have := Nat.mul_le_mul h h
    omega

-- the default of `vast.max-partition-size`
example : digestBytes (some 1048576) = some 5 := by decide +kernel
example : digestBytes (some 1048577) = some 6 := by decide +kernel
example : digestBytes (some 2) = some 1 := by decide +kernel

/-! ## C190: powers of two -/

/-- C190: `ispow2` recognizes powers of two. -/
theorem C190_ispow2 (x : Nat) : ispow2 x = true ↔ Pow2 x := ispow2_iff x

/-- `floor2` is the greatest power of two up to a number. -/
theorem C190_floor2 (x : Nat) (h : x < 2 ^ 63) (h0 : x ≠ 0) :
    Pow2 (floor2 x) ∧ floor2 x ≤ x ∧ ∀ y, Pow2 y → y ≤ x → y ≤ floor2 x := by
  have hf : floor2 x = 2 ^ x.log2 := by
    by_cases h1 : x = 1
    · subst h1; decide +kernel
    · have hs : x >>> 1 = x / 2 := by simp [Nat.shiftRight_eq_div_pow]
      have hx : x / 2 ≠ 0 := by omega
      have e := log2p1_eq (x := x / 2) (by omega) hx
      have hl : x.log2 = (x / 2).log2 + 1 := by rw [Nat.log2_def, if_pos (by omega)]
      simp only [floor2, h0, if_false, hs, Nat.one_shiftLeft]
      rw [show 63 - countlZero (x / 2) = log2p1 (x / 2) from rfl, e, hl]
  rw [hf]
  refine ⟨⟨_, rfl⟩, (log2_bounds h0).1, ?_⟩
  rintro y ⟨k, rfl⟩ hy
  refine Nat.pow_le_pow_right (by omega) ?_
  exact (Nat.le_log2 h0).mpr hy

/-- `ceil2` is the least power of two from a number on, up to 2^62; above, the shift overflows. -/
theorem C190_ceil2 (x : Nat) (h : x < 2 ^ 63) :
    (x ≤ 2 ^ 62 → ∃ c, ceil2 x = some c ∧ Pow2 c ∧ x ≤ c ∧ ∀ y, Pow2 y → x ≤ y → c ≤ y) ∧
    (2 ^ 62 < x → ceil2 x = none) := by
  by_cases hs : x = 0 ∨ x = 1
  · refine ⟨fun _ => ⟨1, ?_, ⟨0, rfl⟩, by omega, ?_⟩, fun hx => by omega⟩
    · rcases hs with rfl | rfl <;> rfl
    · rintro y ⟨k, rfl⟩ _
      exact Nat.one_le_two_pow
  · have h0 : x - 1 ≠ 0 := by omega
    have e := log2p1_eq (x := x - 1) (by omega) h0
    have hc : ceil2 x = if (x - 1).log2 + 1 < 63 then some (2 ^ ((x - 1).log2 + 1)) else none := by
      have hb : (decide (x = 0) || decide (x = 1)) = false := by simp; omega
      simp only [ceil2, hb, Bool.false_eq_true, if_false, Nat.one_shiftLeft]
      rw [show 63 - countlZero (x - 1) = log2p1 (x - 1) from rfl, e]
    rw [hc]
    constructor
    · intro hx
      have hl : (x - 1).log2 < 62 := (Nat.log2_lt h0).mpr (by omega)
      rw [if_pos (by omega)]
      have hb := log2_bounds h0
      refine ⟨_, rfl, ⟨_, rfl⟩, by omega, ?_⟩
      rintro y ⟨k, rfl⟩ hy
      refine Nat.pow_le_pow_right (by omega) ?_
      have : (x - 1).log2 < k := (Nat.log2_lt h0).mpr (by omega)
      omega
    · intro hx
      have : 62 ≤ (x - 1).log2 := (Nat.le_log2 h0).mpr (by omega)
      rw [if_neg (by omega)]

/-- `log2p1` is the number of bits that a number needs. -/
theorem C190_log2p1 (x : Nat) (h : x < 2 ^ 63) (k : Nat) : x < 2 ^ k ↔ log2p1 x ≤ k := by
  by_cases h0 : x = 0
  · subst h0
    simp [log2p1_zero, Nat.two_pow_pos]
  · rw [log2p1_eq h h0, ← Nat.log2_lt h0]
    omega

example : floor2 1000 = 512 ∧ ceil2 1000 = some 1024 ∧ log2p1 1000 = 10 ∧ ispow2 1024 = true ∧ ispow2 1000 = false := by
  decide +kernel

end Verif.Digest
