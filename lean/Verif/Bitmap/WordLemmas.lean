import Verif.Bitmap.Ewah

/-!
# Lemmas about words, bit sequences and EWAH markers
-/

namespace Verif.Bitmap

/-- The `n` least significant bits of a word, least significant first. -/
def wbits (n : Nat) (w : Word) : List Bool := (List.range n).map w.getLsbD

@[simp] theorem wbits_length (n : Nat) (w : Word) : (wbits n w).length = n := by simp [wbits]

theorem wbits_getElem? (n : Nat) (w : Word) (i : Nat) :
    (wbits n w)[i]? = if i < n then some (w.getLsbD i) else none := by
  simp only [wbits, List.getElem?_map]
  split
  · next h => simp [List.getElem?_range h]
  · next h => simp [List.getElem?_eq_none (show (List.range n).length ≤ i by simpa using h)]

theorem list_ext_wbits {xs : List Bool} {n : Nat} {w : Word} (hl : xs.length = n)
    (h : ∀ i, i < n → xs[i]? = some (w.getLsbD i)) : xs = wbits n w := by
  apply List.ext_getElem?
  intro i
  rw [wbits_getElem?]
  split
  · next hi => exact h i hi
  · next hi => exact List.getElem?_eq_none (by omega)

@[simp] theorem wbits_zero (w : Word) : wbits 0 w = [] := rfl

theorem wbits_congr {n : Nat} {v w : Word} (h : ∀ i, i < n → v.getLsbD i = w.getLsbD i) :
    wbits n v = wbits n w := by
  apply List.ext_getElem?
  intro i
  rw [wbits_getElem?, wbits_getElem?]
  split
  · next hi => rw [h i hi]
  · rfl

theorem wbits_inj {n : Nat} {v w : Word} (h : wbits n v = wbits n w) :
    ∀ i, i < n → v.getLsbD i = w.getLsbD i := by
  intro i hi
  have := congrArg (fun l => l[i]?) h
  simp only [wbits_getElem?, if_pos hi] at this
  exact Option.some.inj this

/-- Writing `m` bits above the first `n` of a word whose upper bits are clear. -/
theorem wbits_append {n m : Nat} {v w u : Word}
    (hlo : ∀ i, i < n → u.getLsbD i = v.getLsbD i)
    (hhi : ∀ i, i < m → u.getLsbD (n + i) = w.getLsbD i) :
    wbits n v ++ wbits m w = wbits (n + m) u := by
  apply list_ext_wbits (by simp)
  intro i hi
  rw [List.getElem?_append]
  simp only [wbits_length, wbits_getElem?]
  split
  · next h => rw [hlo i h]
  · next h =>
    rw [if_pos (by omega)]
    have := hhi (i - n) (by omega)
    rw [show n + (i - n) = i by omega] at this
    rw [this]

theorem getLsbD_lsbMask (n i : Nat) : (Word.lsbMask n).getLsbD i = (decide (i < n) && decide (i < 64)) := by
  simp only [Word.lsbMask, Word.all, BitVec.getLsbD_not, BitVec.getLsbD_shiftLeft,
    BitVec.getLsbD_allOnes]
  by_cases h1 : i < 64 <;> by_cases h2 : i < n <;> simp [h1, h2] <;> omega

theorem getLsbD_lsbFill {n : Nat} (hn : n ≤ 64) (i : Nat) :
    (Word.lsbFill n).getLsbD i = decide (i < n) := by
  simp only [Word.lsbFill, Word.all, BitVec.getLsbD_ushiftRight, BitVec.getLsbD_allOnes]
  by_cases h2 : i < n <;> simp [h2] <;> omega

theorem getLsbD_msbMask {n : Nat} (hn : n ≤ 64) (i : Nat) :
    (Word.msbMask n).getLsbD i = (decide (i < 64) && decide (64 - n ≤ i)) := by
  simp only [Word.msbMask, Word.all, BitVec.getLsbD_not, BitVec.getLsbD_ushiftRight,
    BitVec.getLsbD_allOnes]
  by_cases h1 : i < 64 <;> by_cases h2 : 64 - n ≤ i <;> simp [h1, h2] <;> omega

theorem getLsbD_mask (n i : Nat) : (Word.mask n).getLsbD i = (decide (i < 64) && decide (i = n)) := by
  simp only [Word.mask, Word.lsb1, BitVec.getLsbD_shiftLeft, BitVec.getLsbD_one]
  by_cases h1 : i < 64 <;> by_cases h2 : i < n <;> by_cases h3 : i = n <;> simp [h1, h2, h3] <;> omega

@[simp] theorem getLsbD_all (i : Nat) : Word.all.getLsbD i = decide (i < 64) := by
  rw [Word.all, BitVec.getLsbD_allOnes]

@[simp] theorem getLsbD_none (i : Nat) : Word.none.getLsbD i = false := by
  rw [Word.none, BitVec.getLsbD_zero]

theorem getLsbD_ge {w : Word} {i : Nat} (h : 64 ≤ i) : w.getLsbD i = false :=
  BitVec.getLsbD_of_ge w i h

theorem and_mask_ne_zero (x : Word) {i : Nat} : ((x &&& Word.mask i) != 0#64) = x.getLsbD i := by
  by_cases hi : i < 64
  · cases h : x.getLsbD i
    · have : x &&& Word.mask i = 0#64 := by
        apply BitVec.eq_of_getLsbD_eq
        intro j hj
        rw [BitVec.getLsbD_and, getLsbD_mask]
        by_cases hji : j = i
        · subst hji; simp [h]
        · simp [hji]
      simp [this]
    · have : x &&& Word.mask i ≠ 0#64 := by
        intro h0
        have := congrArg (fun w => w.getLsbD i) h0
        simp only [BitVec.getLsbD_and, getLsbD_mask, h, BitVec.getLsbD_zero] at this
        simp [hi] at this
      simpa using this
  · have : Word.mask i = 0#64 := by
      apply BitVec.eq_of_getLsbD_eq
      intro j hj
      rw [getLsbD_mask]
      have : j ≠ i := by omega
      simp [this]
    rw [this, getLsbD_ge (by omega)]
    simp

theorem test_eq (x : Word) {i : Nat} (hi : i < 64) : Word.test x i = x.getLsbD i := by
  rw [Word.test]
  cases h : x.getLsbD i
  · have : x &&& Word.mask i ≠ Word.mask i := by
      intro h0
      have := congrArg (fun w => w.getLsbD i) h0
      simp only [BitVec.getLsbD_and, getLsbD_mask, h] at this
      simp [hi] at this
    simpa using this
  · have : x &&& Word.mask i = Word.mask i := by
      apply BitVec.eq_of_getLsbD_eq
      intro j hj
      rw [BitVec.getLsbD_and, getLsbD_mask]
      by_cases hji : j = i
      · subst hji; simp [h]
      · simp [hji]
    simp [this]

theorem allOrNone_iff (x : Word) : Word.allOrNone x = true ↔ (x = Word.none ∨ x = Word.all) := by
  have key : ((x + 1#64) &&& Word.lsb0) ≤ 1#64 ↔ (x + 1#64 = 0#64 ∨ x + 1#64 = 1#64) := by
    generalize x + 1#64 = y
    constructor
    · intro h
      have hb : ∀ j, 1 ≤ j → j < 64 → y.getLsbD j = false := by
        intro j h1 hj
        have h2 : (y &&& Word.lsb0) = 0#64 ∨ (y &&& Word.lsb0) = 1#64 := by
          have : (y &&& Word.lsb0).toNat ≤ 1 := by simpa [BitVec.le_def] using h
          rcases Nat.le_one_iff_eq_zero_or_eq_one.mp this with h | h
          · left; apply BitVec.eq_of_toNat_eq; simpa using h
          · right; apply BitVec.eq_of_toNat_eq; simpa using h
        have h3 : (y &&& Word.lsb0).getLsbD j = false := by
          rcases h2 with h2 | h2
          · rw [h2, BitVec.getLsbD_zero]
          · rw [h2, BitVec.getLsbD_one]; simp; omega
        have h4 : Word.lsb0.getLsbD j = true := by
          rw [Word.lsb0, Word.lsb1, BitVec.getLsbD_not, BitVec.getLsbD_one]
          simp [hj]; omega
        rw [BitVec.getLsbD_and, h4, Bool.and_true] at h3
        exact h3
      cases h0 : y.getLsbD 0
      · left
        apply BitVec.eq_of_getLsbD_eq
        intro j hj
        by_cases hj0 : j = 0
        · subst hj0; rw [h0]; rfl
        · rw [hb j (by omega) hj, BitVec.getLsbD_zero]
      · right
        apply BitVec.eq_of_getLsbD_eq
        intro j hj
        by_cases hj0 : j = 0
        · subst hj0; rw [h0]; rfl
        · rw [hb j (by omega) hj, BitVec.getLsbD_one]; simp; omega
    · rintro (h | h) <;> rw [h] <;> decide
  simp only [Word.allOrNone, decide_eq_true_eq, key]
  constructor
  · rintro (h | h)
    · right
      have : x = 0#64 - 1#64 := by rw [← h, BitVec.add_sub_cancel]
      rw [this]; decide
    · left
      have : x = 1#64 - 1#64 := by
        have := congrArg (· - 1#64) h
        rwa [BitVec.add_sub_cancel] at this
      rw [this]; decide
  · rintro (h | h) <;> subst h
    · right; decide
    · left; decide

/-- The clean word of a given type. -/
def fillWord (t : Bool) : Word := if t then Word.all else Word.none

theorem fillWord_getLsbD (t : Bool) {i : Nat} (h : i < 64) : (fillWord t).getLsbD i = t := by
  cases t <;> simp only [fillWord, if_true, Bool.false_eq_true, if_false, getLsbD_all, getLsbD_none, h, decide_true]

theorem wbits_fillWord {n : Nat} (h : n ≤ 64) (t : Bool) : wbits n (fillWord t) = List.replicate n t := by
  symm
  apply list_ext_wbits (by simp)
  intro i hi
  rw [List.getElem?_replicate, if_pos hi, fillWord_getLsbD t (by omega)]

theorem fillWord_ne_zero (t : Bool) : (fillWord t != 0#64) = t := by cases t <;> decide

theorem allOrNone_fill {x : Word} (h : Word.allOrNone x = true) : x = fillWord (x != 0#64) := by
  rcases (allOrNone_iff x).1 h with h | h <;> subst h <;> decide

theorem allOrNone_fillWord (t : Bool) : Word.allOrNone (fillWord t) = true := by
  rw [allOrNone_iff]; cases t <;> simp [fillWord]

/-! ## Markers -/

namespace Ewah

/-- The marker word with the given fields. -/
def mkMarker (t : Bool) (c d : Nat) : Word := BitVec.ofNat 64 (d + c * 2 ^ 31 + (if t then 2 ^ 63 else 0))

theorem dirtyMax_eq : dirtyMax = 2 ^ 31 - 1 := by decide
theorem cleanMax_eq : cleanMax = 2 ^ 32 - 1 := by decide

theorem getLsbD_dirtyMask (i : Nat) : dirtyMask.getLsbD i = decide (i < 31) := by
  have := getLsbD_lsbMask 31 i
  simp only [Word.lsbMask] at this
  simp only [dirtyMask, divide, this]
  by_cases h : i < 31 <;> simp [h]; omega

theorem getLsbD_msb1 (i : Nat) : Word.msb1.getLsbD i = decide (i = 63) := by
  simp only [Word.msb1, Word.msb0, Word.all, BitVec.getLsbD_not, BitVec.getLsbD_ushiftRight,
    BitVec.getLsbD_allOnes]
  by_cases h : i < 64 <;> by_cases h2 : i = 63 <;> simp [h, h2] <;> omega

theorem getLsbD_cleanMask (i : Nat) : cleanMask.getLsbD i = (decide (31 ≤ i) && decide (i < 63)) := by
  simp only [cleanMask, BitVec.getLsbD_not, BitVec.getLsbD_or, getLsbD_dirtyMask, getLsbD_msb1]
  by_cases h : i < 64 <;> by_cases h1 : i < 31 <;> by_cases h2 : i = 63 <;> simp [h, h1, h2] <;> omega

theorem marker_arith (b c d : Nat) :
    d + c * 2147483648 + b * 9223372036854775808 = 2147483648 * (4294967296 * b + c) + d := by
  omega

theorem testBit_marker (t : Bool) {c d : Nat} (hc : c ≤ cleanMax) (hd : d ≤ dirtyMax) (i : Nat) :
    (mkMarker t c d).getLsbD i
      = if i < 31 then d.testBit i else if i < 63 then c.testBit (i - 31) else (decide (i = 63) && t) := by
  rw [cleanMax_eq] at hc
  rw [dirtyMax_eq] at hd
  rw [mkMarker, BitVec.getLsbD_ofNat]
  have e : d + c * 2 ^ 31 + (if t then 2 ^ 63 else 0) = 2 ^ 31 * (2 ^ 32 * (if t then 1 else 0) + c) + d := by
    have := marker_arith (if t then 1 else 0) c d
    cases t
    · exact this
    · exact this
  rw [e, Nat.testBit_two_pow_mul_add _ (by omega)]
  split
  · next h => simp; omega
  · next h =>
    rw [Nat.testBit_two_pow_mul_add _ (by omega)]
    by_cases h2 : i < 63
    · rw [if_pos h2, if_pos (by omega)]; simp; omega
    · rw [if_neg h2, if_neg (by omega)]
      by_cases h3 : i = 63
      · subst h3; cases t <;> simp
      · have : ¬ i < 64 := by omega
        simp [this, h3]

theorem toNat_eq_of_testBit {w : Word} {n : Nat} (hn : n < 2 ^ 64)
    (h : ∀ i, i < 64 → w.getLsbD i = n.testBit i) : w.toNat = n := by
  have : w = BitVec.ofNat 64 n := by
    apply BitVec.eq_of_getLsbD_eq
    intro i hi
    rw [h i hi, BitVec.getLsbD_ofNat]; simp [hi]
  rw [this, BitVec.toNat_ofNat, Nat.mod_eq_of_lt hn]

theorem testBit_of_lt {n k i : Nat} (h : n < 2 ^ k) (hi : k ≤ i) : n.testBit i = false :=
  Nat.testBit_lt_two_pow (Nat.lt_of_lt_of_le h (Nat.pow_le_pow_right (by omega) hi))

section
variable {t : Bool} {c d : Nat}

theorem markerType_mk (hc : c ≤ cleanMax) (hd : d ≤ dirtyMax) : markerType (mkMarker t c d) = t := by
  have h63 := testBit_marker t hc hd 63
  rw [if_neg (by omega), if_neg (by omega)] at h63
  have e : (Word.msb1) = Word.mask 63 := by decide
  rw [markerType, e]
  have := test_eq (mkMarker t c d) (i := 63) (by omega)
  rw [Word.test] at this
  rw [this, h63]; simp

theorem numClean_mk (hc : c ≤ cleanMax) (hd : d ≤ dirtyMax) : numClean (mkMarker t c d) = c := by
  have hc' := hc
  rw [cleanMax_eq] at hc'
  apply toNat_eq_of_testBit (by omega)
  intro i hi
  rw [BitVec.getLsbD_ushiftRight, BitVec.getLsbD_and, getLsbD_cleanMask, testBit_marker t hc hd, divide]
  by_cases h : i < 32
  · have h1 : 31 + i < 63 := by omega
    have h2 : ¬ 31 + i < 31 := by omega
    simp [h1, h2]
  · have h1 : ¬ 31 + i < 63 := by omega
    rw [testBit_of_lt (n := c) (k := 32) (i := i) (by omega) (by omega)]
    simp [h1]

theorem numDirty_mk (hc : c ≤ cleanMax) (hd : d ≤ dirtyMax) : numDirty (mkMarker t c d) = d := by
  have hd' := hd
  rw [dirtyMax_eq] at hd'
  apply toNat_eq_of_testBit (by omega)
  intro i hi
  rw [numDirtyW, BitVec.getLsbD_and, getLsbD_dirtyMask, testBit_marker t hc hd]
  by_cases h : i < 31
  · simp [h]
  · rw [testBit_of_lt (k := 31) (by omega) (by omega)]
    simp [h]

theorem setMarkerType_mk (t' : Bool) (hc : c ≤ cleanMax) (hd : d ≤ dirtyMax) :
    setMarkerType (mkMarker t c d) t' = mkMarker t' c d := by
  apply BitVec.eq_of_getLsbD_eq
  intro i hi
  rw [setMarkerType, BitVec.getLsbD_or, BitVec.getLsbD_and, BitVec.getLsbD_not, getLsbD_msb1,
    testBit_marker t hc hd, testBit_marker t' hc hd]
  have : (if t' = true then Word.msb1 else 0#64).getLsbD i = (decide (i = 63) && t') := by
    cases t' <;> simp [getLsbD_msb1]
  rw [this]
  by_cases h : i = 63
  · subst h; simp
  · simp [h, hi]

theorem setNumClean_mk {c' : Nat} (hc : c ≤ cleanMax) (hd : d ≤ dirtyMax) (hc' : c' ≤ cleanMax) :
    setNumClean (mkMarker t c d) c' = mkMarker t c' d := by
  apply BitVec.eq_of_getLsbD_eq
  intro i hi
  have hc2 := hc'
  rw [cleanMax_eq] at hc2
  rw [setNumClean, BitVec.getLsbD_or, BitVec.getLsbD_and, BitVec.getLsbD_not, getLsbD_cleanMask,
    testBit_marker t hc hd, testBit_marker t hc' hd, BitVec.getLsbD_shiftLeft, BitVec.getLsbD_ofNat,
    divide]
  by_cases h1 : i < 31
  · simp [h1, hi]
  · by_cases h2 : i < 63
    · have h3 : i - 31 < 64 := by omega
      have h4 : 31 ≤ i := by omega
      simp [h1, h2, hi, h3, h4]
    · have : i = 63 := by omega
      subst this
      rw [testBit_of_lt (n := c') (k := 32) (by omega) (by omega)]
      simp

theorem setNumDirty_mk {d' : Nat} (hc : c ≤ cleanMax) (hd : d ≤ dirtyMax) (hd' : d' ≤ dirtyMax) :
    setNumDirty (mkMarker t c d) d' = mkMarker t c d' := by
  apply BitVec.eq_of_getLsbD_eq
  intro i hi
  have hd2 := hd'
  rw [dirtyMax_eq] at hd2
  rw [setNumDirty, BitVec.getLsbD_or, BitVec.getLsbD_and, BitVec.getLsbD_not, getLsbD_dirtyMask,
    testBit_marker t hc hd, testBit_marker t hc hd', BitVec.getLsbD_ofNat]
  by_cases h1 : i < 31
  · simp [h1, hi]
  · rw [testBit_of_lt (n := d') (k := 31) (by omega) (by omega : 31 ≤ i)]
    simp [h1, hi]

theorem xor_msb1_mk (hc : c ≤ cleanMax) (hd : d ≤ dirtyMax) :
    mkMarker t c d ^^^ Word.msb1 = mkMarker (!t) c d := by
  apply BitVec.eq_of_getLsbD_eq
  intro i hi
  rw [BitVec.getLsbD_xor, getLsbD_msb1, testBit_marker t hc hd, testBit_marker (!t) hc hd]
  by_cases h1 : i = 63
  · subst h1; simp
  · simp [h1]

end

theorem mkMarker_zero : mkMarker false 0 0 = 0#64 := by decide
theorem mkMarker_dirty_one : numDirtyW 1#64 = mkMarker false 0 1 := by decide
theorem cleanMask_eq : cleanMask = mkMarker false cleanMax 0 := by decide

theorem mkMarker_eq_zero {t : Bool} {c d : Nat} (hc : c ≤ cleanMax) (hd : d ≤ dirtyMax)
    (h : mkMarker t c d = 0#64) : t = false ∧ c = 0 ∧ d = 0 := by
  have h1 := markerType_mk (t := t) hc hd
  have h2 := numClean_mk (t := t) hc hd
  have h3 := numDirty_mk (t := t) hc hd
  rw [h] at h1 h2 h3
  exact ⟨h1 ▸ (by decide), h2 ▸ (by decide), h3 ▸ (by decide)⟩

end Ewah

end Verif.Bitmap
