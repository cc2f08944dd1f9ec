import Verif.Bitmap.AlgoSpec

/-!
# Bitmaps as lists of booleans

The index layers are modelled over plain lists of booleans instead of EWAH blocks. The operations
below are the ones proved for `ewah_bitmap` in `Verif.Bitmap` (C01-C04): appends and complement
(`Spec.Op.apply`), and the algebra (`Spec.pointwise`, `Spec.pointwiseAll`), where positions past
the end of an operand read as false and the result is as long as the longest operand.
-/

namespace Verif.Index

open Verif.Bitmap

/-- A bitmap. -/
abbrev Bm := List Bool

namespace Bm

/-- `Bitmap{n, bit}` -/
def fill (n : Nat) (bit : Bool) : Bm := List.replicate n bit
/-- `append_bits(bit, n)` -/
def appendBits (b : Bm) (bit : Bool) (n : Nat) : Bm := b ++ List.replicate n bit
/-- `x & y` -/
def and (x y : Bm) : Bm := Spec.pointwise (· && ·) x y
/-- `x | y` -/
def or (x y : Bm) : Bm := Spec.pointwise (· || ·) x y
/-- `x ^ y` -/
def xor (x y : Bm) : Bm := Spec.pointwise Bool.xor x y
/-- `x - y`, i.e. `x & ~y` -/
def diff (x y : Bm) : Bm := Spec.pointwise (fun a b => a && !b) x y
/-- `~x`, `flip` -/
def not (x : Bm) : Bm := x.map (!·)
/-- `nary_or` -/
def naryOr (xs : List Bm) : Bm := Spec.pointwiseAll (fun bits => bits.any id) xs
/-- `nary_and` -/
def naryAnd (xs : List Bm) : Bm := Spec.pointwiseAll (fun bits => bits.all id) xs
/-- The bit at a position; positions past the end read as false. -/
def bit (b : Bm) (i : Nat) : Bool := b.getD i false

/-! ## Facts -/

@[simp] theorem fill_length (n : Nat) (x : Bool) : (fill n x).length = n := by simp [fill]
@[simp] theorem appendBits_length (b : Bm) (x : Bool) (n : Nat) : (b.appendBits x n).length = b.length + n := by
  simp [appendBits]
@[simp] theorem and_length (x y : Bm) : (x.and y).length = max x.length y.length := by simp [and, Spec.pointwise]
@[simp] theorem or_length (x y : Bm) : (x.or y).length = max x.length y.length := by simp [or, Spec.pointwise]
@[simp] theorem xor_length (x y : Bm) : (x.xor y).length = max x.length y.length := by simp [xor, Spec.pointwise]
@[simp] theorem diff_length (x y : Bm) : (x.diff y).length = max x.length y.length := by simp [diff, Spec.pointwise]
@[simp] theorem not_length (x : Bm) : x.not.length = x.length := by simp [not]

theorem bit_of_ge {b : Bm} {i : Nat} (h : b.length ≤ i) : b.bit i = false := by
  rw [bit, List.getD_eq_getElem?_getD, List.getElem?_eq_none h]; rfl

theorem bit_pointwise {f : Bool → Bool → Bool} (hf : f false false = false) (x y : Bm) (i : Nat) :
    bit (Spec.pointwise f x y) i = f (x.bit i) (y.bit i) := by
  by_cases h : i < max x.length y.length
  · simp only [bit, Spec.pointwise, List.getD_eq_getElem?_getD, List.getElem?_map]
    rw [List.getElem?_range h]
    rfl
  · rw [bit_of_ge (by simp [Spec.pointwise]; omega), bit_of_ge (by omega), bit_of_ge (by omega), hf]

@[simp] theorem bit_and (x y : Bm) (i : Nat) : (x.and y).bit i = (x.bit i && y.bit i) := bit_pointwise rfl x y i
@[simp] theorem bit_or (x y : Bm) (i : Nat) : (x.or y).bit i = (x.bit i || y.bit i) := bit_pointwise rfl x y i
@[simp] theorem bit_xor (x y : Bm) (i : Nat) : (x.xor y).bit i = (x.bit i ^^ y.bit i) := bit_pointwise rfl x y i
@[simp] theorem bit_diff (x y : Bm) (i : Nat) : (x.diff y).bit i = (x.bit i && !y.bit i) := bit_pointwise rfl x y i

theorem bit_not (x : Bm) {i : Nat} (h : i < x.length) : x.not.bit i = !x.bit i := by
  simp only [bit, not, List.getD_eq_getElem?_getD, List.getElem?_map, List.getElem?_eq_getElem h]
  rfl

theorem bit_not' (x : Bm) (i : Nat) : x.not.bit i = (decide (i < x.length) && !x.bit i) := by
  by_cases h : i < x.length
  · rw [bit_not x h]; simp [h]
  · rw [bit_of_ge (by simp; omega)]; simp [h]

theorem bit_fill (n : Nat) (x : Bool) (i : Nat) : (fill n x).bit i = (decide (i < n) && x) := by
  simp only [bit, fill, List.getD_eq_getElem?_getD, List.getElem?_replicate]
  split <;> simp [*]

theorem bit_append (b c : Bm) (i : Nat) :
    bit (b ++ c) i = if i < b.length then b.bit i else c.bit (i - b.length) := by
  simp only [bit, List.getD_eq_getElem?_getD, List.getElem?_append]
  split <;> rfl

theorem bit_appendBits (b : Bm) (x : Bool) (n i : Nat) :
    (b.appendBits x n).bit i = if i < b.length then b.bit i else (decide (i < b.length + n) && x) := by
  rw [appendBits, bit_append]
  split
  · rfl
  · have := bit_fill n x (i - b.length)
    rw [fill] at this
    rw [this]
    congr 1
    simp only [decide_eq_decide]
    omega

theorem foldr_max_length (xs : List Bm) (x : Bm) (h : x ∈ xs) :
    x.length ≤ xs.foldr (fun x n => max x.length n) 0 := by
  induction xs with
  | nil => simp at h
  | cons y ys ih =>
    simp only [List.mem_cons] at h
    simp only [List.foldr_cons]
    rcases h with rfl | h
    · omega
    · have := ih h; omega

theorem foldr_max_le (xs : List Bm) (n : Nat) (h : ∀ x ∈ xs, x.length ≤ n) :
    xs.foldr (fun x n => max x.length n) 0 ≤ n := by
  induction xs with
  | nil => simp
  | cons y ys ih =>
    simp only [List.foldr_cons]
    have := h y (by simp)
    have := ih fun x hx => h x (by simp [hx])
    omega

theorem naryOr_length_le (xs : List Bm) (n : Nat) (h : ∀ x ∈ xs, x.length ≤ n) : (naryOr xs).length ≤ n := by
  simp only [naryOr, Spec.pointwiseAll, List.length_map, List.length_range]
  exact foldr_max_le xs n h

theorem naryOr_length (xs : List Bm) :
    (naryOr xs).length = xs.foldr (fun x n => max x.length n) 0 := by
  simp only [naryOr, Spec.pointwiseAll, List.length_map, List.length_range]

theorem bit_naryOr (xs : List Bm) (i : Nat) : (naryOr xs).bit i = xs.any (·.bit i) := by
  by_cases h : i < xs.foldr (fun x n => max x.length n) 0
  · simp only [bit, naryOr, Spec.pointwiseAll, List.getD_eq_getElem?_getD, List.getElem?_map]
    rw [List.getElem?_range h]
    simp only [Option.map_some, Option.getD_some, List.any_map]
    rfl
  · rw [bit_of_ge (by rw [naryOr_length]; omega)]
    symm
    rw [List.any_eq_false]
    intro x hx
    have := foldr_max_length xs x hx
    rw [bit_of_ge (by omega)]
    simp

/-- Two bitmaps of the same length with the same bits are equal. -/
theorem ext {x y : Bm} (hl : x.length = y.length) (h : ∀ i, i < x.length → x.bit i = y.bit i) : x = y := by
  apply List.ext_getElem hl
  intro i h1 h2
  have := h i h1
  simp only [bit, List.getD_eq_getElem?_getD, List.getElem?_eq_getElem h1, List.getElem?_eq_getElem h2,
    Option.getD_some] at this
  exact this

theorem bit_eq_true_iff (b : Bm) (i : Nat) : b.bit i = true ↔ b[i]? = some true := by
  simp only [bit, List.getD_eq_getElem?_getD]
  cases h : b[i]? with
  | none => simp
  | some x => simp

theorem bit_of_getElem? {b : Bm} {i : Nat} {x : Bool} (h : b[i]? = some x) : b.bit i = x := by
  simp [bit, List.getD_eq_getElem?_getD, h]

theorem getElem?_of_bit {b : Bm} {i : Nat} (h : i < b.length) : b[i]? = some (b.bit i) := by
  simp [bit, List.getD_eq_getElem?_getD, List.getElem?_eq_getElem h]

end Bm

end Verif.Index
