/-!
# Value decomposition

Models `vast::base` (/repo/libvast/vast/base.hpp, /repo/libvast/src/base.cpp). A base is the list
of its values. `size_t` arithmetic is modelled over natural numbers: `decompose` never overflows,
and `compose` of digits below their base values is below the product of the base; if that product
exceeds 2^64 the sum wraps in C++ only for values that do not fit in `size_t` in the first place.
-/

namespace Verif.Index

/-- base.hpp:62-71 `decompose`. -/
def decompose : List Nat → Nat → List Nat
  | [], _ => []
  | b :: bs, x => x % b :: decompose bs (x / b)

/-- base.hpp:78-90 `compose`, with the loop variables `result` and `m`. -/
def composeLoop : List Nat → List Nat → (result m : Nat) → Nat
  | b :: bs, d :: ds, result, m => composeLoop bs ds (result + d * m) (m * b)
  | _, _, result, _ => result

/-- base.hpp:78-90 `compose`. -/
def compose (base digits : List Nat) : Nat := composeLoop base digits 0 1

/-- base.cpp:25-28 `well_defined`. -/
def wellDefined (base : List Nat) : Bool := !base.isEmpty && base.all (fun b => decide (2 ≤ b))

/-- base.cpp:15-17 `uniform(b, n)`. -/
def uniform (b n : Nat) : List Nat := List.replicate n b

namespace Spec

/-- The number of values a base can tell apart. -/
def product (base : List Nat) : Nat := base.foldr (· * ·) 1

end Spec

theorem composeLoop_eq (bs ds : List Nat) : ∀ r m, composeLoop bs ds r m = r + m * composeLoop bs ds 0 1 := by
  induction bs generalizing ds with
  | nil => intro r m; simp [composeLoop]
  | cons b bs ih =>
    intro r m
    cases ds with
    | nil => simp [composeLoop]
    | cons d ds =>
      rw [composeLoop, composeLoop, ih, ih ds (0 + d * 1) (1 * b)]
      simp only [Nat.zero_add, Nat.mul_one, Nat.one_mul, Nat.mul_add, Nat.mul_assoc, Nat.mul_comm d m]
      omega

theorem compose_cons (b : Nat) (bs : List Nat) (d : Nat) (ds : List Nat) :
    compose (b :: bs) (d :: ds) = d + b * compose bs ds := by
  rw [compose, composeLoop, composeLoop_eq, compose]
  simp

theorem product_pos {base : List Nat} (h : ∀ b ∈ base, 0 < b) : 0 < Spec.product base := by
  induction base with
  | nil => simp [Spec.product]
  | cons b bs ih =>
    simp only [Spec.product, List.foldr_cons] at ih ⊢
    exact Nat.mul_pos (h b (by simp)) (ih fun c hc => h c (by simp [hc]))

theorem wellDefined_iff (base : List Nat) : wellDefined base = true ↔ base ≠ [] ∧ ∀ b ∈ base, 2 ≤ b := by
  cases base <;> simp [wellDefined]

theorem decompose_length (base : List Nat) (x : Nat) : (decompose base x).length = base.length := by
  induction base generalizing x with
  | nil => rfl
  | cons b bs ih => simp [decompose, ih]

theorem compose_decompose_lt {base : List Nat} (h : ∀ b ∈ base, 2 ≤ b) {x : Nat}
    (hx : x < Spec.product base) : compose base (decompose base x) = x := by
  induction base generalizing x with
  | nil =>
    simp only [Spec.product, List.foldr_nil] at hx
    have : x = 0 := by omega
    subst this
    rfl
  | cons b bs ih =>
    have hb := h b (by simp)
    rw [decompose, compose_cons, ih (fun c hc => h c (by simp [hc]))]
    · exact Nat.mod_add_div x b
    · simp only [Spec.product, List.foldr_cons] at hx ⊢
      exact Nat.div_lt_of_lt_mul hx

/-- C09. Decomposing a value below the product of the base and composing the digits again yields
the value; there are as many digits as base values; and each digit is below its base value. -/
theorem C09_decompose_compose (base : List Nat) (hw : wellDefined base = true) (x : Nat)
    (hx : x < Spec.product base) :
    compose base (decompose base x) = x
    ∧ (decompose base x).length = base.length
    ∧ ∀ i d b : Nat, (decompose base x)[i]? = some d → base[i]? = some b → d < b := by
  rw [wellDefined_iff] at hw
  refine ⟨compose_decompose_lt hw.2 hx, decompose_length base x, ?_⟩
  have : ∀ (base : List Nat) (x : Nat), (∀ b ∈ base, 2 ≤ b) →
      ∀ i d b : Nat, (decompose base x)[i]? = some d → base[i]? = some b → d < b := by
    intro base
    induction base with
    | nil => intro x _ i d b _ hb; simp at hb
    | cons c cs ih =>
      intro x hw i d b hd hb
      cases i with
      | zero =>
        simp only [decompose, List.getElem?_cons_zero, Option.some.injEq] at hd hb
        subst hd; subst hb
        exact Nat.mod_lt _ (by have := hw c (by simp); omega)
      | succ i =>
        simp only [decompose, List.getElem?_cons_succ] at hd hb
        exact ih _ (fun b hb => hw b (by simp [hb])) i d b hd hb
  exact this base x hw.2

/-- C09, the other direction: every list of digits below their base values is the decomposition of
its composition, which is below the product of the base. -/
theorem C09_compose_decompose (base digits : List Nat) (hw : wellDefined base = true)
    (hl : digits.length = base.length)
    (hd : ∀ (i d b : Nat), digits[i]? = some d → base[i]? = some b → d < b) :
    decompose base (compose base digits) = digits ∧ compose base digits < Spec.product base := by
  rw [wellDefined_iff] at hw
  have : ∀ (base digits : List Nat), (∀ b ∈ base, 2 ≤ b) → digits.length = base.length →
      (∀ (i d b : Nat), digits[i]? = some d → base[i]? = some b → d < b) →
      decompose base (compose base digits) = digits ∧ compose base digits < Spec.product base := by
    intro base
    induction base with
    | nil =>
      intro ds _ hl _
      have : ds = [] := List.length_eq_zero_iff.1 hl
      subst this
      simp [decompose, compose, composeLoop, Spec.product]
    | cons b bs ih =>
      intro ds hw hl hd
      cases ds with
      | nil => simp at hl
      | cons d ds =>
        have hdb : d < b := hd 0 d b rfl rfl
        obtain ⟨h1, h2⟩ := ih ds (fun b hb => hw b (by simp [hb])) (by simpa using hl)
          (fun i d b hi hb => hd (i + 1) d b hi hb)
        rw [compose_cons]
        refine ⟨?_, ?_⟩
        · rw [decompose, Nat.add_mul_mod_self_left, Nat.mod_eq_of_lt hdb,
            Nat.add_mul_div_left _ _ (by omega), Nat.div_eq_of_lt hdb, Nat.zero_add, h1]
        · simp only [Spec.product, List.foldr_cons] at h2 ⊢
          calc d + b * compose bs ds < b + b * compose bs ds := by omega
            _ = b * (compose bs ds + 1) := by rw [Nat.mul_add, Nat.mul_one, Nat.add_comm]
            _ ≤ b * (bs.foldr (· * ·) 1) := Nat.mul_le_mul_left b h2
  exact this base digits hw.2 hl hd

example : wellDefined [10, 7, 300] = true ∧ 20999 < Spec.product [10, 7, 300]
    ∧ decompose [10, 7, 300] 20999 = [9, 6, 299] ∧ compose [10, 7, 300] [9, 6, 299] = 20999 := by decide

/-- C09, the default base of the numeric indexes (`base::uniform<64>(8)`, 22 components) tells all
64-bit values apart. -/
theorem C09_default_base : wellDefined (uniform 8 22) = true ∧ 2 ^ 64 ≤ Spec.product (uniform 8 22) := by
  decide

end Verif.Index
