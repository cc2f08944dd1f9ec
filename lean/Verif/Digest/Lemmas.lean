import Verif.Digest.Model
import Verif.Digest.Spec
namespace Verif.Digest
open Spec

theorem log2_lt_of {x : Nat} (h : x < 2 ^ 63) (h0 : x ≠ 0) : x.log2 < 63 := (Nat.log2_lt h0).mpr h

theorem log2p1_eq {x : Nat} (h : x < 2 ^ 63) (h0 : x ≠ 0) : log2p1 x = x.log2 + 1 := by
  have := log2_lt_of h h0
  simp only [log2p1, countlZero, h0, if_false, clzl]
  omega

theorem log2p1_zero : log2p1 0 = 0 := rfl

theorem ispow2_iff (x : Nat) : ispow2 x = true ↔ Pow2 x := by
  have := @Nat.ne_zero_and_sub_one_eq_zero_iff_isPowerOfTwo x
  simp only [ispow2, Bool.and_eq_true, bne_iff_ne, ne_eq, beq_iff_eq]
  exact this

theorem log2_bounds {x : Nat} (h0 : x ≠ 0) : 2 ^ x.log2 ≤ x ∧ x < 2 ^ (x.log2 + 1) :=
  ⟨Nat.log2_self_le h0, Nat.lt_log2_self⟩

theorem log2p1_pow2 (k : Nat) : (2 ^ k).log2 = k := Nat.log2_two_pow

theorem roundUp_ge (b : Nat) : b ≤ 8 * roundUp b := by
  unfold roundUp; split <;> omega

theorem roundUp_least (b : Nat) (h : b ≠ 0) : 8 * (roundUp b - 1) < b := by
  unfold roundUp; split <;> omega

/-- The bits are enough. -/
theorem digestBits_enough {n : Nat} (h : n < 2 ^ 63) : n * n ≤ 2 ^ digestBits n := by
  by_cases h0 : n = 0
  · subst h0; simp
  · unfold digestBits
    rw [log2p1_eq h h0]
    split
    · rename_i hp
      obtain ⟨k, rfl⟩ := (ispow2_iff n).mp hp
      rw [Nat.log2_two_pow, ← Nat.pow_add]
      exact Nat.pow_le_pow_right (by omega) (by omega)
    · have := (log2_bounds h0).2
      have h2 : 2 ^ ((n.log2 + 1) * 2) = 2 ^ (n.log2 + 1) * 2 ^ (n.log2 + 1) := by
        rw [← Nat.pow_add]; congr 1; omega
      rw [h2]
      exact Nat.mul_le_mul (Nat.le_of_lt this) (Nat.le_of_lt this)

/-- There are not two bits too many. -/
theorem digestBits_tight {n : Nat} (h : n < 2 ^ 63) (h2 : 2 ≤ n) :
    2 ≤ digestBits n ∧ 2 ^ (digestBits n - 2) < n * n := by
  have h0 : n ≠ 0 := by omega
  have hl : 1 ≤ n.log2 := (Nat.le_log2 h0).mpr (by omega)
  unfold digestBits
  rw [log2p1_eq h h0]
  have hb := (log2_bounds h0).1
  split
  · rename_i hp
    obtain ⟨k, rfl⟩ := (ispow2_iff n).mp hp
    rw [Nat.log2_two_pow] at hl ⊢
    refine ⟨by omega, ?_⟩
    rw [← Nat.pow_add]
    exact Nat.pow_lt_pow_right (by omega) (by omega)
  · rename_i hp
    refine ⟨by omega, ?_⟩
    have hne : n ≠ 2 ^ n.log2 := fun e => hp ((ispow2_iff n).mpr ⟨_, e⟩)
    have hlt : 2 ^ n.log2 < n := by omega
    have h3 : 2 ^ ((n.log2 + 1) * 2 - 2) = 2 ^ n.log2 * 2 ^ n.log2 := by
      rw [← Nat.pow_add]; congr 1; omega
    rw [h3]
    exact Nat.mul_lt_mul_of_lt_of_le hlt (Nat.le_of_lt hlt) (by omega)

end Verif.Digest
