/-!
# Order-preserving keys

Models /repo/libvast/vast/detail/order.hpp for 64-bit integers and IEEE 754 doubles.
-/

namespace Verif.Index

/-- The fields of an IEEE 754 double. -/
structure Double where
  neg : Bool
  exp : Nat
  sig : Nat
  deriving DecidableEq, Repr

namespace Double

/-- The fields fit their 11 and 52 bits. -/
def Valid (d : Double) : Prop := d.exp < 2 ^ 11 ∧ d.sig < 2 ^ 52

instance (d : Double) : Decidable d.Valid := inferInstanceAs (Decidable (_ ∧ _))

/-- `std::isnan` -/
def isNaN (d : Double) : Bool := d.exp = 2047 ∧ d.sig ≠ 0

end Double

/-- order.hpp:25-37 for `int64_t`: the addition of 2^63 wraps. -/
def orderInt (x : Int) : Nat := ((x + 2 ^ 63) % 2 ^ 64).toNat

/-- order.hpp:38-83 for `double`. The masks select disjoint bits, so that the bitwise operations are
sums; the increments and decrements do not overflow. NaN, for which the code asserts or dies, is
`none`. -/
def orderDouble (d : Double) : Option Nat :=
  if d.exp = 0 then
    if d.sig = 0 then some 0x7fffffffffffffff                                        -- FP_ZERO
    else some (if d.neg then 0x7ffffffffffffffe else 0x8000000000000000)             -- FP_SUBNORMAL
  else if d.exp = 2047 then
    if d.sig = 0 then some (if d.neg then 0 else 0xffffffffffffffff)                 -- FP_INFINITE
    else none                                                                        -- FP_NAN
  else if d.neg then some ((2047 - d.exp) * 2 ^ 52 + (2 ^ 52 - 1 - d.sig) - 1)
  else some (2 ^ 63 + d.exp * 2 ^ 52 + d.sig + 1)

namespace Spec

/-- The absolute value of a double that is not NaN, in units of 2^-1074; infinity is greater than
all numbers. -/
def magnitude (d : Double) : Nat := if d.exp = 0 then d.sig else (2 ^ 52 + d.sig) * 2 ^ (d.exp - 1)

/-- The value of a double that is not NaN, in units of 2^-1074. -/
def value (d : Double) : Int := if d.neg then -(magnitude d : Int) else magnitude d

/-- Both doubles are subnormal and have the same sign. -/
def sameSubnormals (x y : Double) : Prop :=
  x.exp = 0 ∧ y.exp = 0 ∧ x.sig ≠ 0 ∧ y.sig ≠ 0 ∧ x.neg = y.neg

end Spec

/-- Exponent and significand as one number. -/
def Double.code (d : Double) : Nat := d.exp * 2 ^ 52 + d.sig

theorem magnitude_lt {x y : Double} (hx : x.Valid) (hy : y.Valid) (h : x.code < y.code) :
    Spec.magnitude x < Spec.magnitude y := by
  obtain ⟨nx, ex, sx⟩ := x
  obtain ⟨ny, ey, sy⟩ := y
  simp only [Double.Valid, Double.code, Spec.magnitude] at *
  rcases Nat.lt_trichotomy ex ey with he | he | he
  · rw [if_neg (show ey ≠ 0 by omega)]
    have hpos : 0 < 2 ^ (ey - 1) := Nat.two_pow_pos _
    have h2 : 2 ^ 52 * 2 ^ (ey - 1) ≤ (2 ^ 52 + sy) * 2 ^ (ey - 1) := Nat.mul_le_mul_right _ (by omega)
    split
    · have : 2 ^ 52 * 1 ≤ 2 ^ 52 * 2 ^ (ey - 1) := Nat.mul_le_mul_left _ hpos
      omega
    · have h1 : (2 ^ 52 + sx) * 2 ^ (ex - 1) < (2 ^ 52 * 2) * 2 ^ (ex - 1) :=
        Nat.mul_lt_mul_of_pos_right (by omega) (Nat.two_pow_pos _)
      have h3 : (2 ^ 52 * 2) * 2 ^ (ex - 1) = 2 ^ 52 * 2 ^ ex := by
        rw [Nat.mul_assoc, ← Nat.pow_succ']
        congr 2
        omega
      have h4 : 2 ^ 52 * 2 ^ ex ≤ 2 ^ 52 * 2 ^ (ey - 1) :=
        Nat.mul_le_mul_left _ (Nat.pow_le_pow_right (by omega) (by omega))
      omega
  · subst he
    split
    · omega
    · exact Nat.mul_lt_mul_of_pos_right (by omega) (Nat.two_pow_pos _)
  · exfalso
    have : (ey + 1) * 2 ^ 52 ≤ ex * 2 ^ 52 := Nat.mul_le_mul_right _ he
    omega

theorem magnitude_iff {x y : Double} (hx : x.Valid) (hy : y.Valid) :
    (Spec.magnitude x < Spec.magnitude y ↔ x.code < y.code) ∧ (Spec.magnitude x = Spec.magnitude y ↔ x.code = y.code) := by
  have heq : x.code = y.code → Spec.magnitude x = Spec.magnitude y := by
    obtain ⟨nx, ex, sx⟩ := x
    obtain ⟨ny, ey, sy⟩ := y
    simp only [Double.Valid, Double.code, Spec.magnitude] at *
    intro h
    have : ex = ey := by omega
    have : sx = sy := by omega
    simp [*]
  have h1 := magnitude_lt hx hy
  have h2 := magnitude_lt hy hx
  constructor <;> constructor <;> intro h <;> rcases Nat.lt_trichotomy x.code y.code with hc | hc | hc <;>
    first
    | omega
    | (have := heq hc; omega)
    | (have := h1 hc; omega)
    | (have := h2 hc; omega)

/-- The key in terms of the code. -/
theorem orderDouble_eq {d : Double} (hd : d.Valid) (hn : d.isNaN = false) :
    ∃ k, orderDouble d = some k ∧ k < 2 ^ 64 ∧
      (d.code = 0 → k = 2 ^ 63 - 1) ∧
      (0 < d.code → d.code < 2 ^ 52 → k = if d.neg then 2 ^ 63 - 2 else 2 ^ 63) ∧
      (2 ^ 52 ≤ d.code → d.code < 2047 * 2 ^ 52 → k = if d.neg then 2 ^ 63 - d.code - 2 else 2 ^ 63 + d.code + 1) ∧
      (2047 * 2 ^ 52 ≤ d.code → d.code = 2047 * 2 ^ 52 ∧ k = if d.neg then 0 else 2 ^ 64 - 1) := by
  obtain ⟨n, e, s⟩ := d
  simp only [Double.Valid, Double.isNaN, Double.code, orderDouble, decide_eq_false_iff_not] at *
  by_cases h0 : e = 0
  · subst h0
    by_cases hs : s = 0
    · subst hs
      exact ⟨_, rfl, by decide, by simp, by simp, by omega, by omega⟩
    · simp only [if_neg hs, if_true]
      refine ⟨_, rfl, by split <;> decide, by omega, ?_, by omega, by omega⟩
      intro _ _
      split <;> rfl
  · rw [if_neg h0]
    by_cases h1 : e = 2047
    · subst h1
      have hs : s = 0 := Classical.byContradiction fun h => hn ⟨rfl, h⟩
      subst hs
      simp only [if_true]
      refine ⟨_, rfl, by split <;> decide, by omega, by omega, by omega, ?_⟩
      intro _
      refine ⟨trivial, by split <;> rfl⟩
    · rw [if_neg h1]
      cases n
      · exact ⟨_, rfl, by omega, by omega, by omega, by intro _ _; simp; omega, by omega⟩
      · refine ⟨_, rfl, by omega, by omega, by omega, ?_, by omega⟩
        intro _ _
        simp only [if_true]
        have : (2047 - e) * 2 ^ 52 = 2047 * 2 ^ 52 - e * 2 ^ 52 := Nat.sub_mul _ _ _
        omega

/-- C12, integers: the key of a 64-bit integer is a 64-bit unsigned integer, and keys compare like
the integers. -/
theorem C12_integer (x y : Int) (hx : -2 ^ 63 ≤ x ∧ x < 2 ^ 63) (hy : -2 ^ 63 ≤ y ∧ y < 2 ^ 63) :
    orderInt x < 2 ^ 64 ∧ (orderInt x < orderInt y ↔ x < y) ∧ (orderInt x = orderInt y ↔ x = y) := by
  unfold orderInt
  omega

/-- C12, doubles: every double that is not NaN has a 64-bit key; equal doubles (in particular the
two zeros) have equal keys, a smaller double never has a greater key, and unless both are subnormals
of the same sign, keys compare exactly like the doubles. -/
theorem C12_double_partial (x y : Double) (hx : x.Valid) (hy : y.Valid) (nx : x.isNaN = false)
    (ny : y.isNaN = false) :
    ∃ kx ky, orderDouble x = some kx ∧ orderDouble y = some ky ∧ kx < 2 ^ 64 ∧ ky < 2 ^ 64 ∧
      (Spec.value x ≤ Spec.value y → kx ≤ ky) ∧
      (¬ Spec.sameSubnormals x y → ((kx < ky ↔ Spec.value x < Spec.value y) ∧ (kx = ky ↔ Spec.value x = Spec.value y))) := by
  obtain ⟨kx, ex, lx, a0, a1, a2, a3⟩ := orderDouble_eq hx nx
  obtain ⟨ky, ey, ly, b0, b1, b2, b3⟩ := orderDouble_eq hy ny
  refine ⟨kx, ky, ex, ey, lx, ly, ?_⟩
  have hm := magnitude_iff hx hy
  have hz : ∀ d : Double, d.Valid → (Spec.magnitude d = 0 ↔ d.code = 0) := by
    intro d hd
    have hv : (Double.mk false 0 0).Valid := by decide
    have := (magnitude_iff hd hv).2
    simpa [Spec.magnitude, Double.code] using this
  have zx := hz x hx
  have zy := hz y hy
  have hsub : Spec.sameSubnormals x y ↔ (0 < x.code ∧ x.code < 2 ^ 52 ∧ 0 < y.code ∧ y.code < 2 ^ 52 ∧ x.neg = y.neg) := by
    unfold Spec.sameSubnormals Double.code
    have := hx.2
    have := hy.2
    constructor
    · rintro ⟨h1, h2, h3, h4, h5⟩
      rw [h1, h2]
      exact ⟨by omega, by omega, by omega, by omega, h5⟩
    · rintro ⟨h1, h2, h3, h4, h5⟩
      have : x.exp = 0 := by omega
      have : y.exp = 0 := by omega
      refine ⟨by omega, by omega, by omega, by omega, h5⟩
  rw [hsub]
  unfold Spec.value
  generalize Spec.magnitude x = mx at *
  generalize Spec.magnitude y = my at *
  generalize x.code = cx at *
  generalize y.code = cy at *
  clear hsub hz ex ey
  cases hnx : x.neg <;> cases hny : y.neg <;> simp only [hnx, hny, if_true, if_false, Bool.false_eq_true, eq_self, and_true, and_false, not_false_eq_true, forall_const, Bool.true_eq_false] at * <;> omega

/-- C12, refuted for subnormal doubles: two different ones of the same sign have the same key. -/
theorem C12_subnormal_refuted :
    orderDouble ⟨false, 0, 1⟩ = orderDouble ⟨false, 0, 2⟩ ∧ Spec.value ⟨false, 0, 1⟩ < Spec.value ⟨false, 0, 2⟩ := by
  decide

-- -1.5, -0.0, 0.0, the smallest subnormal, 1.0 and infinity
example :
    (orderDouble ⟨true, 1023, 2 ^ 51⟩, orderDouble ⟨true, 0, 0⟩, orderDouble ⟨false, 0, 0⟩, orderDouble ⟨false, 0, 1⟩,
      orderDouble ⟨false, 1023, 0⟩, orderDouble ⟨false, 2047, 0⟩)
    = (some 0x4007fffffffffffe, some 0x7fffffffffffffff, some 0x7fffffffffffffff, some 0x8000000000000000,
      some 0xbff0000000000001, some 0xffffffffffffffff) := by decide

example : (Double.mk true 1023 (2 ^ 51)).Valid ∧ (Double.mk true 1023 (2 ^ 51)).isNaN = false ∧
    Spec.value ⟨true, 1023, 2 ^ 51⟩ = -(3 * 2 ^ 1073) ∧
    ¬ Spec.sameSubnormals ⟨true, 1023, 2 ^ 51⟩ ⟨false, 0, 1⟩ := by
  refine ⟨by decide, by decide, by decide +kernel, by simp [Spec.sameSubnormals]⟩

end Verif.Index
