import Verif.Index.CoderLemmas

/-! # Decoding -/

namespace Verif.Index

open Verif.Data (RelOp)

theorem lt_of_getElem? {α : Type} {l : List α} {i : Nat} {x : α} (h : l[i]? = some x) : i < l.length :=
  (List.getElem?_eq_some_iff.1 h).1

theorem naryOr_le {k : Kind} {n : Nat} {c : VectorCoder} {col : List (Option Nat)} (h : KRep k n c col) (bs : List Bm)
    (hs : ∀ b ∈ bs, b ∈ c.bitmaps) : (Bm.naryOr bs).length ≤ c.size :=
  Bm.naryOr_length_le _ _ fun b hb => bitmaps_le h b (hs b hb)

/-- The result of the equality coder, row by row. -/
theorem equality_decode {n : Nat} {c : VectorCoder} {col : List (Option Nat)} (h : KRep .equality n c col)
    (op : RelOp) (x : Nat) (hx : x < n) (hop : Spec.compare op 0 0 ≠ none) :
    ∃ bm, EqualityCoder.decode c op x = some bm ∧ bm.length = col.length ∧
      (∀ (i v : Nat), col[i]? = some (some v) → v < n → some (bm.bit i) = Spec.compare op v x) ∧
      (∀ i : Nat, col[i]? = some none → bm.bit i = (op == .notEqual)) := by
  have hx' : x < c.bitmaps.length := by rw [h.count]; exact hx
  unfold EqualityCoder.decode
  rw [if_pos hx']
  have hT := fun y => naryOr_le h (c.bitmaps.take y) fun b hb => List.mem_of_mem_take hb
  have hD := fun y => naryOr_le h (c.bitmaps.drop y) fun b hb => List.mem_of_mem_drop hb
  cases op <;> try (exact absurd rfl hop)
  case equal =>
    simp only
    rw [equality_bitmapAt h hx]
    refine ⟨_, rfl, by simp, ?_, ?_⟩
    · intro i v hi _
      rw [bit_map _ _ _ _ hi]
      simp [Kind.rowBit, Spec.compare]
    · intro i hi
      rw [bit_map _ _ _ _ hi]
      rfl
  case notEqual =>
    simp only
    rw [equality_bitmapAt h hx]
    refine ⟨_, rfl, by simp, ?_, ?_⟩
    · intro i v hi _
      rw [Bm.bit_not _ (by simpa using lt_of_getElem? hi), bit_map _ _ _ _ hi]
      simp [Kind.rowBit, Spec.compare, bne]
    · intro i hi
      rw [Bm.bit_not _ (by simpa using lt_of_getElem? hi), bit_map _ _ _ _ hi]
      rfl
  case less =>
    simp only
    split
    · next h0 =>
      refine ⟨_, rfl, by simp [h.size], ?_, ?_⟩
      · intro i v hi _
        simp [Bm.bit_fill, Spec.compare, h0]
      · intro i hi
        simp [Bm.bit_fill]
    · refine ⟨_, rfl, by rw [fillUp_length (hT x), h.size], ?_, ?_⟩
      · intro i v hi hv
        rw [fillUp_bit, Bm.bit_naryOr, mem_take_bit h, hi]
        simp [Spec.compare, hv]
      · intro i hi
        rw [fillUp_bit, Bm.bit_naryOr, mem_take_bit h, hi]
        rfl
  case lessEqual =>
    simp only
    refine ⟨_, rfl, by rw [fillUp_length (hT _), h.size], ?_, ?_⟩
    · intro i v hi hv
      rw [fillUp_bit, Bm.bit_naryOr, mem_take_bit h, hi]
      simp [Spec.compare, hv, Nat.lt_succ_iff]
    · intro i hi
      rw [fillUp_bit, Bm.bit_naryOr, mem_take_bit h, hi]
      rfl
  case greater =>
    simp only
    split
    · refine ⟨_, rfl, by simp [h.size], ?_, ?_⟩
      · intro i v hi hv
        rw [h.count] at *
        have : ¬ x < v := by omega
        simp [Bm.bit_fill, Spec.compare, this]
      · intro i hi
        simp [Bm.bit_fill]
    · refine ⟨_, rfl, by rw [fillUp_length (hD _), h.size], ?_, ?_⟩
      · intro i v hi hv
        rw [fillUp_bit, Bm.bit_naryOr, mem_drop_bit h, hi]
        simp [Spec.compare, hv, Nat.succ_le_iff]
      · intro i hi
        rw [fillUp_bit, Bm.bit_naryOr, mem_drop_bit h, hi]
        rfl
  case greaterEqual =>
    simp only
    refine ⟨_, rfl, by rw [fillUp_length (hD _), h.size], ?_, ?_⟩
    · intro i v hi hv
      rw [fillUp_bit, Bm.bit_naryOr, mem_drop_bit h, hi]
      simp [Spec.compare, hv]
    · intro i hi
      rw [fillUp_bit, Bm.bit_naryOr, mem_drop_bit h, hi]
      rfl

theorem range_row (j : Nat) (o : Option Nat) : Kind.range.rowBit j o = decide (o.getD 0 ≤ j) := by
  cases o <;> simp [Kind.rowBit]

/-- The result of the range coder, row by row; a skipped row counts as zero. -/
theorem range_decode {n : Nat} {c : VectorCoder} {col : List (Option Nat)} (h : KRep .range n c col)
    (op : RelOp) (x : Nat) (hx : x < n ∨ (x = n ∧ (op = .less ∨ op = .greaterEqual)))
    (hop : Spec.compare op 0 0 ≠ none) :
    ∃ bm, RangeCoder.decode c op x = some bm ∧ bm.length = col.length ∧
      (∀ (i : Nat) o, col[i]? = some o → some (bm.bit i) = Spec.compare op (o.getD 0) x) := by
  have hx' : x < c.bitmaps.length + 1 := by rw [h.count]; omega
  unfold RangeCoder.decode
  rw [if_pos hx']
  have hnot : ∀ (j i : Nat) o, col[i]? = some o →
      Bm.bit (Bm.not (col.map (Kind.range.rowBit j))) i = !decide (o.getD 0 ≤ j) := by
    intro j i o hi
    rw [Bm.bit_not _ (by simpa using lt_of_getElem? hi), bit_map _ _ _ _ hi, range_row]
  cases op <;> try (exact absurd rfl hop)
  case less =>
    simp only
    split
    · next h0 =>
      refine ⟨_, rfl, by simp [h.size], ?_⟩
      intro i o hi
      simp [Bm.bit_fill, Spec.compare, h0]
    · next h0 =>
      rw [range_bitmapAt h (by omega)]
      refine ⟨_, rfl, by simp, ?_⟩
      intro i o hi
      rw [bit_map _ _ _ _ hi, range_row]
      simp only [Spec.compare, Option.some.injEq, decide_eq_decide]
      omega
  case lessEqual =>
    simp only
    rw [range_bitmapAt h (by simp at hx; omega)]
    refine ⟨_, rfl, by simp, ?_⟩
    intro i o hi
    rw [bit_map _ _ _ _ hi, range_row]
    simp [Spec.compare]
  case equal =>
    simp only
    rw [range_bitmapAt h (by simp at hx; omega)]
    simp only
    split
    · next h0 =>
      rw [range_bitmapAt h (by omega)]
      refine ⟨_, rfl, by simp, ?_⟩
      intro i o hi
      rw [Bm.bit_and, hnot _ _ _ hi, bit_map _ _ _ _ hi, range_row]
      simp only [Spec.compare, Option.some.injEq]; rw [Bool.eq_iff_iff]; simp only [Bool.and_eq_true, decide_eq_true_eq,
        Bool.not_eq_true', decide_eq_false_iff_not, beq_iff_eq]
      omega
    · next h0 =>
      refine ⟨_, rfl, by simp, ?_⟩
      intro i o hi
      rw [bit_map _ _ _ _ hi, range_row]
      simp only [Spec.compare, Option.some.injEq]; rw [Bool.eq_iff_iff]; simp only [decide_eq_true_eq, beq_iff_eq]
      omega
  case notEqual =>
    simp only
    rw [range_bitmapAt h (by simp at hx; omega)]
    simp only
    split
    · next h0 =>
      rw [range_bitmapAt h (by omega)]
      refine ⟨_, rfl, by simp, ?_⟩
      intro i o hi
      rw [Bm.bit_or, hnot _ _ _ hi, bit_map _ _ _ _ hi, range_row]
      simp only [Spec.compare, Option.some.injEq]; rw [Bool.eq_iff_iff]; simp only [Bool.or_eq_true, decide_eq_true_eq,
        Bool.not_eq_true', decide_eq_false_iff_not, bne_iff_ne]
      omega
    · next h0 =>
      refine ⟨_, rfl, by simp, ?_⟩
      intro i o hi
      rw [hnot _ _ _ hi]
      simp only [Spec.compare, Option.some.injEq]; rw [Bool.eq_iff_iff]; simp only [decide_eq_false_iff_not,
        Bool.not_eq_true', bne_iff_ne]
      omega
  case greater =>
    simp only
    rw [range_bitmapAt h (by simp at hx; omega)]
    refine ⟨_, rfl, by simp, ?_⟩
    intro i o hi
    rw [hnot _ _ _ hi]
    simp only [Spec.compare, Option.some.injEq]; rw [Bool.eq_iff_iff]; simp only [decide_eq_false_iff_not, decide_eq_true_eq,
      Bool.not_eq_true']
    omega
  case greaterEqual =>
    simp only
    split
    · next h0 =>
      refine ⟨_, rfl, by simp [h.size], ?_⟩
      intro i o hi
      simp [Bm.bit_fill, Spec.compare, h0, h.size, lt_of_getElem? hi]
    · next h0 =>
      rw [range_bitmapAt h (by omega)]
      refine ⟨_, rfl, by simp, ?_⟩
      intro i o hi
      rw [hnot _ _ _ hi]
      simp only [Spec.compare, Option.some.injEq]; rw [Bool.eq_iff_iff]; simp only [decide_eq_false_iff_not, decide_eq_true_eq,
        Bool.not_eq_true']
      omega

/-- The bitslice coder: rows at most `x`. -/
theorem bitslice_lessEqual {n : Nat} {c : VectorCoder} {col : List (Option Nat)} (h : KRep .bitslice n c col)
    (x : Nat) (hn : 0 < n) (hx : x < 2 ^ n) :
    ∃ bm, BitsliceCoder.lessEqual c x = some bm ∧ bm.length ≤ col.length ∧
      (∀ (i v : Nat), col[i]? = some (some v) → v < 2 ^ n → i < bm.length ∧ bm.bit i = decide (v ≤ x)) := by
  obtain ⟨size, bitmaps⟩ := c
  have hc := h.count
  simp only at hc
  cases bitmaps with
  | nil => simp at hc; omega
  | cons b bs =>
    have hbit : ∀ (i v : Nat), col[i]? = some (some v) → ∀ (j : Nat) b', bs[j]? = some b' →
        b'.bit i = !v.testBit (1 + j) := by
      intro i v hi j b' hb'
      have := bitslice_bit h (j := j + 1) (b := b') (by simpa using hb') i
      rw [this, hi, Nat.add_comm]
    have hsz := h.size
    simp only at hsz
    have hle := bitmaps_le h
    simp only at hle
    have hlen : 1 + bs.length = n := by simpa [Nat.add_comm] using hc
    have hfin : ∀ (m : Bm), m.length ≤ size →
        (∀ (i v : Nat), col[i]? = some (some v) → i < m.length ∧ m.bit i = decide (v % 2 ^ 1 ≤ x % 2 ^ 1)) →
        (BitsliceCoder.rangeLoop x 1 bs m).length ≤ col.length ∧
        ∀ (i v : Nat), col[i]? = some (some v) → v < 2 ^ n →
          i < (BitsliceCoder.rangeLoop x 1 bs m).length ∧
          (BitsliceCoder.rangeLoop x 1 bs m).bit i = decide (v ≤ x) := by
      intro m hm hmb
      obtain ⟨h1, h2⟩ := rangeLoop_length x bs 1 m size hm (fun b' hb' => hle b' (by simp [hb']))
      refine ⟨by omega, ?_⟩
      intro i v hi hv
      obtain ⟨hi1, hi2⟩ := hmb i v hi
      refine ⟨by omega, ?_⟩
      rw [rangeLoop_bit x v i bs 1 m (hbit i v hi) hi2, hlen, Nat.mod_eq_of_lt hv, Nat.mod_eq_of_lt hx]
    unfold BitsliceCoder.lessEqual
    split
    · next hb0 =>
      refine ⟨_, rfl, ?_⟩
      apply hfin
      · simp
      · intro i v hi
        have := lt_of_getElem? hi
        rw [Bm.bit_fill]
        simp only [Bm.fill_length, Bool.and_true]
        refine ⟨by omega, ?_⟩
        rw [decide_eq_decide]
        have hx1 : x % 2 = 1 := by simpa [Nat.testBit_zero] using hb0
        simp only [Nat.pow_one]
        omega
    · next hb0 =>
      refine ⟨_, rfl, ?_⟩
      apply hfin
      · exact hle b (by simp)
      · intro i v hi
        refine ⟨h.full rfl 0 b rfl i v hi, ?_⟩
        rw [bitslice_bit h (j := 0) (b := b) rfl i, hi]
        have hx1 : x % 2 = 0 := by
          have : ¬ x % 2 = 1 := by simpa [Nat.testBit_zero] using hb0
          omega
        simp only [Nat.testBit_zero, Nat.pow_one, hx1]
        rw [Bool.eq_iff_iff]
        simp only [Bool.not_eq_true', decide_eq_false_iff_not, decide_eq_true_eq]
        omega

/-- The bitslice coder: rows equal to `x`. -/
theorem bitslice_equal {n : Nat} {c : VectorCoder} {col : List (Option Nat)} (h : KRep .bitslice n c col) (x : Nat) :
    (BitsliceCoder.equal c x).length = col.length ∧
    (∀ (i v : Nat), col[i]? = some (some v) →
      (BitsliceCoder.equal c x).bit i = (List.range n).all fun j => v.testBit j == x.testBit j) ∧
    (∀ i j : Nat, col[i]? = some none → j < n → x.testBit j = false → (BitsliceCoder.equal c x).bit i = false) := by
  refine ⟨?_, ?_, ?_⟩
  · rw [BitsliceCoder.equal, equalLoop_length _ _ _ _ (by simpa using bitmaps_le h)]
    simp [h.size]
  · intro i v hi
    rw [BitsliceCoder.equal, equalLoop_bit, Bm.bit_fill, h.size]
    simp only [lt_of_getElem? hi, decide_true, Bool.and_true, Bool.true_and, Nat.zero_add, h.count]
    rw [Bool.eq_iff_iff, List.all_eq_true, List.all_eq_true]
    apply forall_congr'
    intro j
    apply imp_congr_right
    intro hj
    have hj' : j < c.bitmaps.length := by rw [h.count]; simpa using hj
    rw [List.getElem?_eq_getElem hj']
    have hb := List.getElem?_eq_getElem hj'
    simp only
    rw [bitslice_bit h hb i, hi]
    have := h.full rfl j _ hb i v hi
    simp only [this, decide_true, Bool.true_and, Bool.not_not]
    cases v.testBit j <;> cases x.testBit j <;> simp
  · intro i j hi hj hx
    rw [BitsliceCoder.equal, equalLoop_bit]
    simp only [Bool.and_eq_false_iff, List.all_eq_false]
    right
    refine ⟨j, by rw [h.count]; simpa using hj, ?_⟩
    have hj' : j < c.bitmaps.length := by rw [h.count]; exact hj
    rw [List.getElem?_eq_getElem hj']
    have hb := List.getElem?_eq_getElem hj'
    simp only [Nat.zero_add, hx]
    rw [bitslice_bit h hb i, hi]
    simp

theorem all_testBit {v x n : Nat} (hv : v < 2 ^ n) (hx : x < 2 ^ n) :
    ((List.range n).all fun j => v.testBit j == x.testBit j) = (v == x) := by
  rw [Bool.eq_iff_iff, List.all_eq_true, beq_iff_eq]
  constructor
  · intro h
    exact eq_of_testBit_lt hv hx fun j hj => by simpa using h j (by simpa using hj)
  · rintro rfl
    simp

/-- The result of the bitslice coder for encoded rows. -/
theorem bitslice_decode {n : Nat} {c : VectorCoder} {col : List (Option Nat)} (h : KRep .bitslice n c col)
    (op : RelOp) (x : Nat) (hn : 0 < n) (hx : x < 2 ^ n) (hop : Spec.compare op 0 0 ≠ none) :
    ∃ bm, BitsliceCoder.decode c op x = some bm ∧ bm.length ≤ col.length ∧
      (∀ (i v : Nat), col[i]? = some (some v) → v < 2 ^ n → some (bm.bit i) = Spec.compare op v x) := by
  cases op <;> try (exact absurd rfl hop)
  case equal =>
    obtain ⟨h1, h2, _⟩ := bitslice_equal h x
    refine ⟨_, rfl, Nat.le_of_eq h1, ?_⟩
    intro i v hi hv
    rw [h2 i v hi, all_testBit hv hx, Spec.compare]
  case notEqual =>
    obtain ⟨h1, h2, _⟩ := bitslice_equal h x
    refine ⟨_, rfl, by rw [Bm.not_length, h1]; exact Nat.le_refl _, ?_⟩
    intro i v hi hv
    rw [Bm.bit_not _ (by rw [h1]; exact lt_of_getElem? hi), h2 i v hi, all_testBit hv hx]
    rfl
  case lessEqual =>
    obtain ⟨bm, h1, h2, h3⟩ := bitslice_lessEqual h x hn hx
    refine ⟨bm, h1, h2, ?_⟩
    intro i v hi hv
    rw [(h3 i v hi hv).2]
    rfl
  case greater =>
    obtain ⟨bm, h1, h2, h3⟩ := bitslice_lessEqual h x hn hx
    refine ⟨bm.not, by simp [BitsliceCoder.decode, h1], by simpa using h2, ?_⟩
    intro i v hi hv
    rw [Bm.bit_not _ (h3 i v hi hv).1, (h3 i v hi hv).2]
    simp only [Spec.compare, Option.some.injEq]; rw [Bool.eq_iff_iff]; simp only [Bool.not_eq_true', decide_eq_false_iff_not,
      decide_eq_true_eq]
    omega
  case less =>
    simp only [BitsliceCoder.decode]
    split
    · next h0 =>
      refine ⟨_, rfl, by simp [h.size], ?_⟩
      intro i v hi hv
      simp [Bm.bit_fill, Spec.compare, h0]
    · next h0 =>
      obtain ⟨bm, h1, h2, h3⟩ := bitslice_lessEqual h (x - 1) hn (by omega)
      refine ⟨bm, h1, h2, ?_⟩
      intro i v hi hv
      rw [(h3 i v hi hv).2]
      simp only [Spec.compare, Option.some.injEq, decide_eq_decide]
      omega
  case greaterEqual =>
    simp only [BitsliceCoder.decode]
    split
    · next h0 =>
      refine ⟨_, rfl, by simp [h.size], ?_⟩
      intro i v hi hv
      simp [Bm.bit_fill, Spec.compare, h0, h.size, lt_of_getElem? hi]
    · next h0 =>
      obtain ⟨bm, h1, h2, h3⟩ := bitslice_lessEqual h (x - 1) hn (by omega)
      refine ⟨bm.not, by rw [h1]; rfl, by simpa using h2, ?_⟩
      intro i v hi hv
      rw [Bm.bit_not _ (h3 i v hi hv).1, (h3 i v hi hv).2]
      simp only [Spec.compare, Option.some.injEq]; rw [Bool.eq_iff_iff]; simp only [Bool.not_eq_true', decide_eq_false_iff_not,
        decide_eq_true_eq]
      omega

/-! ## The multi-level coder -/

/-- The coders of a multi-level coder hold the digits of a column. -/
def MRep (k : Kind) : List Nat → List VectorCoder → List (Option Nat) → Prop
  | b :: bs, c :: cs, col =>
    KRep k (k.bitmapCount b) c (col.map (·.map (· % b))) ∧ MRep k bs cs (col.map (·.map (· / b)))
  | [], [], _ => True
  | _, _, _ => False

theorem mRep_make (k : Kind) (base : List Nat) :
    MRep k base (base.map fun b => VectorCoder.make (k.bitmapCount b)) [] := by
  induction base with
  | nil => simp [MRep]
  | cons b bs ih => exact ⟨kRep_make k _, ih⟩

theorem mRep_skip {k : Kind} (m : Nat) {base : List Nat} : ∀ {cs : List VectorCoder} {col : List (Option Nat)},
    MRep k base cs col → MRep k base (cs.map (·.skip m)) (col ++ List.replicate m none) := by
  induction base with
  | nil => intro cs col h; cases cs <;> simp_all [MRep]
  | cons b bs ih =>
    intro cs col h
    cases cs with
    | nil => simp [MRep] at h
    | cons c cs =>
      simp only [MRep] at h
      refine ⟨?_, ?_⟩
      · simpa using kRep_skip h.1 m
      · simpa using ih h.2

theorem accepts_digit (k : Kind) (b x : Nat) (hb : 2 ≤ b) : k.accepts (k.bitmapCount b) (x % b) := by
  have := Nat.mod_lt x (show b > 0 by omega)
  cases k <;> simp only [Kind.accepts, Kind.bitmapCount] <;> omega

theorem mRep_encode {k : Kind} (m : Nat) {base : List Nat} (hw : ∀ b ∈ base, 2 ≤ b) :
    ∀ {cs : List VectorCoder} {col : List (Option Nat)} (x : Nat), MRep k base cs col →
    ∃ cs', MultiLevelCoder.encodeLoop k m cs (decompose base x) = some cs' ∧
      MRep k base cs' (col ++ List.replicate m (some x)) := by
  induction base with
  | nil => intro cs col x h; cases cs <;> simp_all [MRep, MultiLevelCoder.encodeLoop, decompose]
  | cons b bs ih =>
    intro cs col x h
    cases cs with
    | nil => simp [MRep] at h
    | cons c cs =>
      simp only [MRep] at h
      obtain ⟨c', h1, h2⟩ := kRep_encode h.1 (accepts_digit k b x (hw b (by simp))) m
      obtain ⟨cs', h3, h4⟩ := ih (fun d hd => hw d (by simp [hd])) (x / b) h.2
      refine ⟨c' :: cs', by simp [decompose, MultiLevelCoder.encodeLoop, h1, h3], ?_, ?_⟩
      · simpa using h2
      · simpa using h4

theorem mRep_append {k : Kind} {base : List Nat} : ∀ {cs ds : List VectorCoder} {col col' : List (Option Nat)},
    MRep k base cs col → MRep k base ds col' →
    ∃ es, MultiLevelCoder.appendLoop k cs ds = some es ∧ MRep k base es (col ++ col') := by
  induction base with
  | nil => intro cs ds col col' h h'; cases cs <;> cases ds <;> simp_all [MRep, MultiLevelCoder.appendLoop]
  | cons b bs ih =>
    intro cs ds col col' h h'
    cases cs with
    | nil => simp [MRep] at h
    | cons c cs =>
      cases ds with
      | nil => simp [MRep] at h'
      | cons d ds =>
        simp only [MRep] at h h'
        obtain ⟨c', h1, h2⟩ := kRep_append h.1 h'.1
        obtain ⟨cs', h3, h4⟩ := ih h.2 h'.2
        refine ⟨c' :: cs', by simp [MultiLevelCoder.appendLoop, h1, h3], ?_, ?_⟩
        · simpa using h2
        · simpa using h4

/-- Lexicographic comparison of quotient and remainder. -/
theorem lt_iff_digits {b v x : Nat} (hb : 0 < b) :
    v < x ↔ v / b < x / b ∨ (v / b = x / b ∧ v % b < x % b) := by
  have hv := Nat.div_add_mod v b
  have hx := Nat.div_add_mod x b
  have hvb := Nat.mod_lt v hb
  have hxb := Nat.mod_lt x hb
  generalize v / b = q at *
  generalize x / b = p at *
  rcases Nat.lt_trichotomy q p with h | h | h
  · have := Nat.mul_le_mul_left b h
    rw [Nat.succ_eq_add_one, Nat.mul_add, Nat.mul_one] at this
    omega
  · subst h; omega
  · have := Nat.mul_le_mul_left b h
    rw [Nat.succ_eq_add_one, Nat.mul_add, Nat.mul_one] at this
    omega

theorem eq_iff_digits {b v x : Nat} : v = x ↔ v / b = x / b ∧ v % b = x % b := by
  constructor
  · rintro rfl; simp
  · rintro ⟨h1, h2⟩
    rw [← Nat.div_add_mod v b, ← Nat.div_add_mod x b, h1, h2]

theorem div_lt_product {b v : Nat} {bs : List Nat} (hv : v < Spec.product (b :: bs)) : v / b < Spec.product bs :=
  Nat.div_lt_of_lt_mul hv

theorem map_getElem? {f : Nat → Nat} {col : List (Option Nat)} {i : Nat} {o : Option Nat} (h : col[i]? = some o) :
    (col.map (·.map f))[i]? = some (o.map f) := by simp [h]

/-- A row of a bitmap of component `b`. -/
theorem range_digit_bit {b : Nat} {c : VectorCoder} {col : List (Option Nat)} {f : Nat → Nat} (hf : f 0 = 0)
    (h : KRep .range (b - 1) c (col.map (·.map f))) {j : Nat} (hj : j < b - 1) :
    ∃ m, RangeCoder.bitmapAt c j = some m ∧ m.length = col.length ∧
      ∀ (i : Nat) o, col[i]? = some o → m.bit i = decide (f (o.getD 0) ≤ j) := by
  refine ⟨_, range_bitmapAt h hj, by simp, ?_⟩
  intro i o hi
  rw [bit_map _ _ _ _ (map_getElem? hi), range_row]
  cases o <;> simp [hf]

theorem mRange_loop {base : List Nat} (hw : ∀ b ∈ base, 2 ≤ b) :
    ∀ {cs : List VectorCoder} {col : List (Option Nat)} (x : Nat) (acc : Bm), MRep .range base cs col →
    acc.length = col.length → x < Spec.product base →
    ∃ r, MultiLevelCoder.rangeLoop base cs (decompose base x) acc = some r ∧ r.length = col.length ∧
      ∀ (i : Nat) o, col[i]? = some o → o.getD 0 < Spec.product base →
        r.bit i = (decide (o.getD 0 < x) || (decide (o.getD 0 = x) && acc.bit i)) := by
  induction base with
  | nil =>
    intro cs col x acc h hl hx
    have hx : x = 0 := by simp [Spec.product] at hx; exact hx
    cases cs with
    | cons => simp [MRep] at h
    | nil =>
      refine ⟨acc, rfl, hl, ?_⟩
      intro i o hi ho
      have ho : o.getD 0 = 0 := by simpa [Spec.product] using ho
      simp [ho, hx]
  | cons b bs ih =>
    intro cs col x acc h hl hx
    cases cs with
    | nil => simp [MRep] at h
    | cons c cs =>
      simp only [MRep] at h
      have hb := hw b (by simp)
      have hxb := Nat.mod_lt x (show b > 0 by omega)
      have hxp := div_lt_product hx
      -- first step
      have s1 : ∃ r1, (if x % b ≠ b - 1 then (RangeCoder.bitmapAt c (x % b)).map acc.and else some acc) = some r1 ∧
          r1.length = col.length ∧ ∀ (i : Nat) o, col[i]? = some o →
            r1.bit i = (acc.bit i && decide (o.getD 0 % b ≤ x % b)) := by
        split
        · obtain ⟨m, h1, h2, h3⟩ := range_digit_bit (f := (· % b)) (by simp) h.1 (j := x % b) (by omega)
          rw [h1]
          refine ⟨_, rfl, by simp [h2, hl], ?_⟩
          intro i o hi
          rw [Bm.bit_and, h3 i o hi]
        · refine ⟨acc, rfl, hl, ?_⟩
          intro i o hi
          have := Nat.mod_lt (o.getD 0) (show b > 0 by omega)
          have : o.getD 0 % b ≤ x % b := by omega
          simp [this]
      obtain ⟨r1, e1, l1, b1⟩ := s1
      have s2 : ∃ r2, (if x % b ≠ 0 then (RangeCoder.bitmapAt c (x % b - 1)).map r1.or else some r1) = some r2 ∧
          r2.length = col.length ∧ ∀ (i : Nat) o, col[i]? = some o →
            r2.bit i = (r1.bit i || decide (o.getD 0 % b < x % b)) := by
        split
        · obtain ⟨m, h1, h2, h3⟩ := range_digit_bit (f := (· % b)) (by simp) h.1 (j := x % b - 1) (by omega)
          rw [h1]
          refine ⟨_, rfl, by simp [h2, l1], ?_⟩
          intro i o hi
          rw [Bm.bit_or, h3 i o hi]
          congr 1
          rw [decide_eq_decide]
          omega
        · refine ⟨r1, rfl, l1, ?_⟩
          intro i o hi
          have : ¬ o.getD 0 % b < x % b := by omega
          simp [this]
      obtain ⟨r2, e2, l2, b2⟩ := s2
      obtain ⟨r, e, l, bb⟩ := ih (fun d hd => hw d (by simp [hd])) (x / b) r2 h.2 (by simpa using l2) hxp
      refine ⟨r, ?_, by simpa using l, ?_⟩
      · rw [decompose, MultiLevelCoder.rangeLoop, e1]
        simp only
        rw [e2]
        exact e
      · intro i o hi ho
        have hg : (o.map (· / b)).getD 0 = o.getD 0 / b := by cases o <;> simp
        rw [bb i _ (map_getElem? hi) (by rw [hg]; exact div_lt_product ho), b2 i o hi, b1 i o hi, hg]
        generalize o.getD 0 = v
        rw [Bool.eq_iff_iff]
        simp only [Bool.or_eq_true, Bool.and_eq_true, decide_eq_true_eq]
        rw [lt_iff_digits (v := v) (x := x) (b := b) (by omega), eq_iff_digits (v := v) (x := x) (b := b)]
        cases acc.bit i <;> simp <;> omega

theorem mRange_lessEqual {base : List Nat} (hne : base ≠ []) (hw : ∀ b ∈ base, 2 ≤ b) {cs : List VectorCoder}
    {col : List (Option Nat)} (h : MRep .range base cs col) (x : Nat) (hx : x < Spec.product base) :
    ∃ r, MultiLevelCoder.rangeLessEqual col.length base cs (decompose base x) = some r ∧ r.length = col.length ∧
      ∀ (i : Nat) o, col[i]? = some o → o.getD 0 < Spec.product base → r.bit i = decide (o.getD 0 ≤ x) := by
  cases base with
  | nil => exact absurd rfl hne
  | cons b bs =>
    cases cs with
    | nil => simp [MRep] at h
    | cons c cs =>
      simp only [MRep] at h
      have hb := hw b (by simp)
      have hxb := Nat.mod_lt x (show b > 0 by omega)
      have s1 : ∃ r1, (if x % b < b - 1 then RangeCoder.bitmapAt c (x % b) else some (Bm.fill col.length true)) = some r1 ∧
          r1.length = col.length ∧ ∀ (i : Nat) o, col[i]? = some o →
            r1.bit i = decide (o.getD 0 % b ≤ x % b) := by
        split
        · obtain ⟨m, h1, h2, h3⟩ := range_digit_bit (f := (· % b)) (by simp) h.1 (j := x % b) (by omega)
          exact ⟨m, h1, h2, h3⟩
        · refine ⟨_, rfl, by simp, ?_⟩
          intro i o hi
          have := Nat.mod_lt (o.getD 0) (show b > 0 by omega)
          have : o.getD 0 % b ≤ x % b := by omega
          simp [Bm.bit_fill, lt_of_getElem? hi, this]
      obtain ⟨r1, e1, l1, b1⟩ := s1
      obtain ⟨r, e, l, bb⟩ := mRange_loop (fun d hd => hw d (by simp [hd])) (x / b) r1 h.2 (by simpa using l1)
        (div_lt_product hx)
      refine ⟨r, ?_, by simpa using l, ?_⟩
      · rw [decompose, MultiLevelCoder.rangeLessEqual, e1]
        exact e
      · intro i o hi ho
        have hg : (o.map (· / b)).getD 0 = o.getD 0 / b := by cases o <;> simp
        rw [bb i _ (map_getElem? hi) (by rw [hg]; exact div_lt_product ho), b1 i o hi, hg]
        generalize o.getD 0 = v
        have h1 := lt_iff_digits (v := v) (x := x) (b := b) (by omega)
        have h2 := eq_iff_digits (v := v) (x := x) (b := b)
        rw [Bool.eq_iff_iff]
        simp only [Bool.or_eq_true, Bool.and_eq_true, decide_eq_true_eq]
        have h3 : v ≤ x ↔ v < x ∨ v = x := Nat.le_iff_lt_or_eq
        rw [h3, h1, h2]
        omega

theorem mRange_equal {base : List Nat} (hw : ∀ b ∈ base, 2 ≤ b) :
    ∀ {cs : List VectorCoder} {col : List (Option Nat)} (x : Nat) (acc : Bm), MRep .range base cs col →
    acc.length = col.length → x < Spec.product base →
    ∃ r, MultiLevelCoder.rangeEqualLoop base cs (decompose base x) acc = some r ∧ r.length = col.length ∧
      ∀ (i : Nat) o, col[i]? = some o → o.getD 0 < Spec.product base →
        r.bit i = (decide (o.getD 0 = x) && acc.bit i) := by
  induction base with
  | nil =>
    intro cs col x acc h hl hx
    have hx : x = 0 := by simp [Spec.product] at hx; exact hx
    cases cs with
    | cons => simp [MRep] at h
    | nil =>
      refine ⟨acc, rfl, hl, ?_⟩
      intro i o hi ho
      have ho : o.getD 0 = 0 := by simpa [Spec.product] using ho
      simp [ho, hx]
  | cons b bs ih =>
    intro cs col x acc h hl hx
    cases cs with
    | nil => simp [MRep] at h
    | cons c cs =>
      simp only [MRep] at h
      have hb := hw b (by simp)
      have hxb := Nat.mod_lt x (show b > 0 by omega)
      have dig := fun j (hj : j < b - 1) => range_digit_bit (f := (· % b)) (by simp) h.1 (j := j) hj
      have s1 : ∃ r1, MultiLevelCoder.rangeEqualStep b c (x % b) acc = some r1 ∧
          r1.length = col.length ∧ ∀ (i : Nat) o, col[i]? = some o →
            r1.bit i = (acc.bit i && decide (o.getD 0 % b = x % b)) := by
        unfold MultiLevelCoder.rangeEqualStep
        split
        · obtain ⟨m, h1, h2, h3⟩ := dig 0 (by omega)
          rw [h1]
          refine ⟨_, rfl, by simp [h2, hl], ?_⟩
          intro i o hi
          rw [Bm.bit_and, h3 i o hi]
          congr 1
          rw [decide_eq_decide]
          omega
        · split
          · obtain ⟨m, h1, h2, h3⟩ := dig (b - 2) (by omega)
            rw [h1]
            refine ⟨_, rfl, by simp [h2, hl], ?_⟩
            intro i o hi
            have hob := Nat.mod_lt (o.getD 0) (show b > 0 by omega)
            rw [Bm.bit_and, Bm.bit_not _ (by rw [h2]; exact lt_of_getElem? hi), h3 i o hi]
            congr 1
            rw [Bool.eq_iff_iff]
            simp only [Bool.not_eq_true', decide_eq_false_iff_not, decide_eq_true_eq]
            omega
          · obtain ⟨m, h1, h2, h3⟩ := dig (x % b) (by omega)
            obtain ⟨m', h1', h2', h3'⟩ := dig (x % b - 1) (by omega)
            rw [h1, h1']
            refine ⟨_, rfl, by simp [h2, h2', hl], ?_⟩
            intro i o hi
            rw [Bm.bit_and, Bm.bit_xor, h3 i o hi, h3' i o hi]
            congr 1
            generalize o.getD 0 % b = d
            by_cases q1 : d ≤ x % b <;> by_cases q2 : d ≤ x % b - 1 <;> by_cases q3 : d = x % b <;>
              simp [q1, q2, q3] <;> omega
      obtain ⟨r1, e1, l1, b1⟩ := s1
      obtain ⟨r, e, l, bb⟩ := ih (fun d hd => hw d (by simp [hd])) (x / b) r1 h.2 (by simpa using l1) (div_lt_product hx)
      refine ⟨r, ?_, by simpa using l, ?_⟩
      · rw [decompose, MultiLevelCoder.rangeEqualLoop, e1]
        exact e
      · intro i o hi ho
        have hg : (o.map (· / b)).getD 0 = o.getD 0 / b := by cases o <;> simp
        rw [bb i _ (map_getElem? hi) (by rw [hg]; exact div_lt_product ho), b1 i o hi, hg]
        generalize o.getD 0 = v
        rw [Bool.eq_iff_iff]
        simp only [Bool.and_eq_true, decide_eq_true_eq]
        rw [eq_iff_digits (v := v) (x := x) (b := b)]
        cases acc.bit i <;> simp

/-- Digits are found by the component coders. -/
theorem digit_decode {k : Kind} (hk : k ≠ .range) {b : Nat} (hb : 2 ≤ b) {c : VectorCoder} {col : List (Option Nat)}
    (h : KRep k (k.bitmapCount b) c (col.map (·.map (· % b)))) (x : Nat) :
    ∃ m, k.decode c .equal (x % b) = some m ∧ m.length = col.length ∧
      ∀ (i v : Nat), col[i]? = some (some v) → m.bit i = decide (v % b = x % b) := by
  have hxb := Nat.mod_lt x (show b > 0 by omega)
  cases k with
  | range => exact absurd rfl hk
  | equality =>
    obtain ⟨m, h1, h2, h3, _⟩ := equality_decode h .equal (x % b) (by simpa [Kind.bitmapCount] using hxb) (by simp [Spec.compare])
    refine ⟨m, h1, by simpa using h2, ?_⟩
    intro i v hi
    have := h3 i _ (map_getElem? hi) (by simp only [Kind.bitmapCount]; exact Nat.mod_lt _ (by omega))
    simp only [Spec.compare, Option.some.injEq] at this
    rw [this, Bool.eq_iff_iff]
    simp
  | bitslice =>
    obtain ⟨h1, h2, _⟩ := bitslice_equal h (x % b)
    refine ⟨_, rfl, by simpa using h1, ?_⟩
    intro i v hi
    have hvb := Nat.mod_lt v (show b > 0 by omega)
    have hp : b < 2 ^ b := Nat.lt_two_pow_self
    rw [h2 i _ (map_getElem? hi), all_testBit (by simp only [Kind.bitmapCount]; omega) (by simp only [Kind.bitmapCount]; omega),
      Bool.eq_iff_iff]
    simp

theorem mEqual_loop {k : Kind} (hk : k ≠ .range) {base : List Nat} (hw : ∀ b ∈ base, 2 ≤ b) :
    ∀ {cs : List VectorCoder} {col : List (Option Nat)} (x : Nat) (acc : Bm), MRep k base cs col →
    acc.length = col.length → x < Spec.product base →
    ∃ r, MultiLevelCoder.equalLoop k cs (decompose base x) acc = some r ∧ r.length = col.length ∧
      ∀ (i v : Nat), col[i]? = some (some v) → v < Spec.product base → r.bit i = (decide (v = x) && acc.bit i) := by
  induction base with
  | nil =>
    intro cs col x acc h hl hx
    have hx : x = 0 := by simp [Spec.product] at hx; exact hx
    cases cs with
    | cons => simp [MRep] at h
    | nil =>
      refine ⟨acc, rfl, hl, ?_⟩
      intro i v hi hv
      have hv : v = 0 := by simpa [Spec.product] using hv
      simp [hv, hx]
  | cons b bs ih =>
    intro cs col x acc h hl hx
    cases cs with
    | nil => simp [MRep] at h
    | cons c cs =>
      simp only [MRep] at h
      obtain ⟨m, h1, h2, h3⟩ := digit_decode hk (hw b (by simp)) h.1 x
      obtain ⟨r, e, l, bb⟩ := ih (fun d hd => hw d (by simp [hd])) (x / b) (acc.and m) h.2 (by simp [hl, h2]) (div_lt_product hx)
      refine ⟨r, ?_, by simpa using l, ?_⟩
      · rw [decompose, MultiLevelCoder.equalLoop, h1]
        exact e
      · intro i v hi hv
        rw [bb i _ (map_getElem? hi) (div_lt_product hv), Bm.bit_and, h3 i v hi, Bool.eq_iff_iff]
        simp only [Bool.and_eq_true, decide_eq_true_eq]
        rw [eq_iff_digits (v := v) (x := x) (b := b)]
        cases acc.bit i <;> simp

theorem mRep_size {k : Kind} {base : List Nat} (hne : base ≠ []) {cs : List VectorCoder} {col : List (Option Nat)}
    (h : MRep k base cs col) : (MultiLevelCoder.mk k base cs).size = col.length ∧ cs ≠ [] := by
  cases base with
  | nil => exact absurd rfl hne
  | cons b bs =>
    cases cs with
    | nil => simp [MRep] at h
    | cons c cs =>
      simp only [MRep] at h
      exact ⟨by simpa [MultiLevelCoder.size] using h.1.size, by simp⟩

/-- Range-Eval-Opt, row by row; a skipped row counts as zero. -/
theorem mRange_decode {base : List Nat} (hne : base ≠ []) (hw : ∀ b ∈ base, 2 ≤ b) {cs : List VectorCoder}
    {col : List (Option Nat)} (h : MRep .range base cs col) (op : RelOp) (x : Nat) (hx : x < Spec.product base)
    (hop : Spec.compare op 0 0 ≠ none) :
    ∃ r, MultiLevelCoder.decode ⟨.range, base, cs⟩ op x = some r ∧ r.length = col.length ∧
      ∀ (i : Nat) o, col[i]? = some o → o.getD 0 < Spec.product base →
        some (r.bit i) = Spec.compare op (o.getD 0) x := by
  obtain ⟨hsz, hcs⟩ := mRep_size hne h
  unfold MultiLevelCoder.decode
  rw [if_neg (by simpa using hcs)]
  simp only
  unfold MultiLevelCoder.decodeRange
  rw [hsz]
  have le := fun y (hy : y < Spec.product base) => mRange_lessEqual hne hw h y hy
  cases op <;> try (exact absurd rfl hop)
  case equal =>
    obtain ⟨r, e, l, bb⟩ := mRange_equal hw x (Bm.fill col.length true) h (by simp) hx
    refine ⟨r, e, l, ?_⟩
    intro i o hi ho
    rw [bb i o hi ho, Bm.bit_fill]
    simp only [lt_of_getElem? hi, decide_true, Bool.and_true, Spec.compare, Option.some.injEq]; rw [Bool.eq_iff_iff]; simp only [decide_eq_true_eq, beq_iff_eq]
  case notEqual =>
    obtain ⟨r, e, l, bb⟩ := mRange_equal hw x (Bm.fill col.length true) h (by simp) hx
    simp only
    rw [e]
    refine ⟨r.not, rfl, by simpa using l, ?_⟩
    intro i o hi ho
    rw [Bm.bit_not _ (by rw [l]; exact lt_of_getElem? hi), bb i o hi ho, Bm.bit_fill]
    simp only [lt_of_getElem? hi, decide_true, Bool.and_true, Spec.compare, Option.some.injEq]; rw [Bool.eq_iff_iff]; simp only [Bool.not_eq_true', decide_eq_false_iff_not, bne_iff_ne, ne_eq]
  case less =>
    simp only
    split
    · next h0 =>
      refine ⟨_, rfl, by simp, ?_⟩
      intro i o hi ho
      simp [Bm.bit_fill, Spec.compare, h0]
    · next h0 =>
      obtain ⟨r, e, l, bb⟩ := le (x - 1) (by omega)
      refine ⟨r, e, l, ?_⟩
      intro i o hi ho
      rw [bb i o hi ho]
      simp only [Spec.compare, Option.some.injEq, decide_eq_decide]
      omega
  case lessEqual =>
    obtain ⟨r, e, l, bb⟩ := le x hx
    refine ⟨r, e, l, ?_⟩
    intro i o hi ho
    rw [bb i o hi ho]
    rfl
  case greater =>
    obtain ⟨r, e, l, bb⟩ := le x hx
    simp only
    rw [e]
    refine ⟨r.not, rfl, by simpa using l, ?_⟩
    intro i o hi ho
    rw [Bm.bit_not _ (by rw [l]; exact lt_of_getElem? hi), bb i o hi ho]
    simp only [Spec.compare, Option.some.injEq]; rw [Bool.eq_iff_iff]; simp only [Bool.not_eq_true', decide_eq_false_iff_not,
      decide_eq_true_eq]
    omega
  case greaterEqual =>
    simp only
    split
    · next h0 =>
      refine ⟨_, rfl, by simp, ?_⟩
      intro i o hi ho
      simp [Bm.bit_fill, Spec.compare, h0, lt_of_getElem? hi]
    · next h0 =>
      obtain ⟨r, e, l, bb⟩ := le (x - 1) (by omega)
      rw [e]
      refine ⟨r.not, rfl, by simpa using l, ?_⟩
      intro i o hi ho
      rw [Bm.bit_not _ (by rw [l]; exact lt_of_getElem? hi), bb i o hi ho]
      simp only [Spec.compare, Option.some.injEq]; rw [Bool.eq_iff_iff]; simp only [Bool.not_eq_true', decide_eq_false_iff_not,
        decide_eq_true_eq]
      omega

/-- Multi-level equality and bitslice coders. -/
theorem mEqual_decode {k : Kind} (hk : k ≠ .range) {base : List Nat} (hne : base ≠ []) (hw : ∀ b ∈ base, 2 ≤ b)
    {cs : List VectorCoder} {col : List (Option Nat)} (h : MRep k base cs col) (op : RelOp) (x : Nat)
    (hx : x < Spec.product base) (hop : op = .equal ∨ op = .notEqual) :
    ∃ r, MultiLevelCoder.decode ⟨k, base, cs⟩ op x = some r ∧ r.length = col.length ∧
      ∀ (i v : Nat), col[i]? = some (some v) → v < Spec.product base → some (r.bit i) = Spec.compare op v x := by
  obtain ⟨hsz, hcs⟩ := mRep_size hne h
  have key : ∃ r, MultiLevelCoder.decodeEqual ⟨k, base, cs⟩ op x = some r ∧ r.length = col.length ∧
      ∀ (i v : Nat), col[i]? = some (some v) → v < Spec.product base → some (r.bit i) = Spec.compare op v x := by
    cases base with
    | nil => exact absurd rfl hne
    | cons b bs =>
      cases cs with
      | nil => simp [MRep] at h
      | cons c cs =>
        simp only [MRep] at h
        obtain ⟨m, h1, h2, h3⟩ := digit_decode hk (hw b (by simp)) h.1 x
        obtain ⟨r, e, l, bb⟩ := mEqual_loop hk (fun d hd => hw d (by simp [hd])) (x / b) m h.2 (by simpa using h2)
          (div_lt_product hx)
        have hr : ∀ (i v : Nat), col[i]? = some (some v) → v < Spec.product (b :: bs) → r.bit i = decide (v = x) := by
          intro i v hi hv
          rw [bb i _ (map_getElem? hi) (div_lt_product hv), h3 i v hi, Bool.eq_iff_iff]
          simp only [Bool.and_eq_true, decide_eq_true_eq]
          rw [eq_iff_digits (v := v) (x := x) (b := b)]
        have l : r.length = col.length := by simpa using l
        rcases hop with rfl | rfl
        · refine ⟨r, ?_, l, ?_⟩
          · simp [MultiLevelCoder.decodeEqual, decompose, h1, e]
          · intro i v hi hv
            rw [hr i v hi hv]
            simp only [Spec.compare, Option.some.injEq]; rw [Bool.eq_iff_iff]; simp only [decide_eq_true_eq, beq_iff_eq]
        · refine ⟨r.not, ?_, by simpa using l, ?_⟩
          · simp [MultiLevelCoder.decodeEqual, decompose, h1, e]
          · intro i v hi hv
            rw [Bm.bit_not _ (by rw [l]; exact lt_of_getElem? hi), hr i v hi hv]
            simp only [Spec.compare, Option.some.injEq]; rw [Bool.eq_iff_iff]; simp only [Bool.not_eq_true', decide_eq_false_iff_not,
              bne_iff_ne, ne_eq]
  unfold MultiLevelCoder.decode
  rw [if_neg (by simpa using hcs)]
  cases k with
  | range => exact absurd rfl hk
  | equality => exact key
  | bitslice => exact key

end Verif.Index
