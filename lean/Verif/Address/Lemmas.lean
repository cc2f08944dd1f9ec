import Verif.Address.Spec
namespace Verif.Address

theorem byte_ext_msb {x y : BitVec 8} (h : ∀ j, j < 8 → x.getMsbD j = y.getMsbD j) :
    x = y := by
  apply BitVec.eq_of_getMsbD_eq
  intro i hi
  exact h i hi

theorem msbFill8_getMsbD (k j : Nat) (hk : k ≤ 8) (hj : j < 8) :
    (msbFill8 k).getMsbD j = decide (j < k) := by
  have : ∀ k, k < 9 → ∀ j, j < 8 → (msbFill8 k).getMsbD j = decide (j < k) := by decide
  exact this k (by omega) j hj

theorem maskWord_getMsbD (quot rem i m : Nat) (hr : rem < 32) (hm : m < 32) :
    (maskWord quot rem i).getMsbD m = decide (32 * i + m < 32 * quot + rem) := by
  unfold maskWord
  by_cases h1 : i < quot
  · have : (0xffffffff : BitVec 32).getMsbD m = true := by
      have : ∀ m, m < 32 → (0xffffffff : BitVec 32).getMsbD m = true := by decide
      exact this m hm
    rw [if_pos h1, this]
    symm; simp; omega
  · by_cases h2 : i = quot
    · subst h2
      have : ∀ rem, rem < 32 → ∀ m, m < 32 →
        (0xffffffff &&& ~~~ bitmask32 (32 - rem) : BitVec 32).getMsbD m
          = decide (m < rem) := by decide +kernel
      rw [if_neg h1, if_pos rfl, this rem hr m hm]
      simp
    · rw [if_neg h1, if_neg h2]
      have : decide (32 * i + m < 32 * quot + rem) = false := by simp; omega
      rw [this]; simp

theorem wordByte_getMsbD (w : BitVec 32) (j b : Nat) (hj : j < 4) (hb : b < 8) :
    (wordByte w j).getMsbD b = w.getMsbD (8 * j + b) := by
  simp only [wordByte, BitVec.getMsbD, BitVec.getLsbD_extractLsb']
  have h1 : 8 * j + b < 32 := by omega
  have h2 : 8 - 1 - b < 8 := by omega
  have h3 : 24 - 8 * j + (8 - 1 - b) = 32 - 1 - (8 * j + b) := by omega
  simp [hb, h1, h2, h3]

theorem maskBytes_length (k : Nat) : (maskBytes k).length = 16 := by simp [maskBytes]

theorem maskBytes_bit (k i : Nat) (hi : i < 128) :
    ((maskBytes k).getD (i / 8) 0).getMsbD (i % 8) = decide (i < k) := by
  have h16 : i / 8 < 16 := by omega
  have e : (maskBytes k).getD (i / 8) 0
      = wordByte (maskWord (k / 32) (k % 32) (i / 8 / 4)) (i / 8 % 4) := by
    simp [maskBytes, List.getD_eq_getElem?_getD, h16]
  rw [e, wordByte_getMsbD _ _ _ (by omega) (by omega),
    maskWord_getMsbD _ _ _ _ (by omega) (by omega)]
  apply decide_eq_decide.2
  omega

theorem mask_bit (a : Address) (k i : Nat) (hk : k ≤ 128) (hi : i < 128) :
    ((a.mask k).1).bit i = (a.bit i && decide (i < k)) := by
  have h16 : i / 8 < 16 := by omega
  have hk' : ¬ k > 128 := by omega
  have hm := maskBytes_bit k i hi
  have hl := a.len
  have hl' := maskBytes_length k
  unfold Address.bit Address.mask
  rw [if_neg hk']
  rw [← hm]
  simp only [List.getD_eq_getElem?_getD, List.getElem?_zipWith]
  rw [List.getElem?_eq_getElem (by omega), List.getElem?_eq_getElem (by omega)]
  simp

theorem addr_ext {a b : Address} (h : ∀ i, i < 128 → a.bit i = b.bit i) : a = b := by
  obtain ⟨xs, hx⟩ := a
  obtain ⟨ys, hy⟩ := b
  have : xs = ys := by
    apply List.ext_getElem (by omega)
    intro n h1 h2
    apply byte_ext_msb
    intro j hj
    have := h (8 * n + j) (by omega)
    have e1 : (8 * n + j) / 8 = n := by omega
    have e2 : (8 * n + j) % 8 = j := by omega
    simpa [Address.bit, e1, e2, List.getD_eq_getElem?_getD, h1, h2] using this
  subst this
  rfl

theorem compareLoop_iff : ∀ (xs ys : List (BitVec 8)) (k : Nat),
    xs.length = ys.length → 1 ≤ xs.length → k ≤ 8 * xs.length →
    (compareLoop xs ys k = true ↔
      ∀ i, i < k → (xs.getD (i / 8) 0).getMsbD (i % 8) = (ys.getD (i / 8) 0).getMsbD (i % 8))
  | [], _, _, _, h, _ => by simp at h
  | _ :: _, [], _, h, _, _ => by simp at h
  | x :: xs, y :: ys, k, hl, _, hk => by
    unfold compareLoop
    by_cases h8 : k > 8
    · rw [if_pos h8]
      by_cases hxy : x = y
      · subst hxy
        have hl' : xs.length = ys.length := by simpa using hl
        have hk' : k - 8 ≤ 8 * xs.length := by simp at hk; omega
        rw [if_neg (by simp), compareLoop_iff xs ys (k - 8) hl' (by omega) hk']
        constructor
        · intro h i hi
          by_cases hi8 : i < 8
          · have : i / 8 = 0 := by omega
            simp [this]
          · have e := h (i - 8) (by omega)
            have e1 : i / 8 = (i - 8) / 8 + 1 := by omega
            have e2 : i % 8 = (i - 8) % 8 := by omega
            rw [e1, e2]
            simpa [List.getD_cons_succ] using e
        · intro h i hi
          have e := h (i + 8) (by omega)
          have e1 : (i + 8) / 8 = i / 8 + 1 := by omega
          have e2 : (i + 8) % 8 = i % 8 := by omega
          rw [e1, e2] at e
          simpa [List.getD_cons_succ] using e
      · rw [if_pos (by simpa using hxy)]
        constructor
        · intro h; simp at h
        · intro h
          exfalso; apply hxy
          apply byte_ext_msb
          intro j hj
          have e := h j (by omega)
          have e1 : j / 8 = 0 := by omega
          have e2 : j % 8 = j := by omega
          simpa [e1, e2] using e
    · rw [if_neg h8, beq_iff_eq]
      constructor
      · intro h i hi
        have e1 : i / 8 = 0 := by omega
        have e2 : i % 8 = i := by omega
        have := congrArg (fun b => b.getMsbD i) h
        have hm := msbFill8_getMsbD k i (by omega) (by omega)
        simp only [BitVec.getMsbD_and, hm] at this
        simpa [e1, e2, hi] using this
      · intro h
        apply byte_ext_msb
        intro j hj
        have hm := msbFill8_getMsbD k j (by omega) hj
        simp only [BitVec.getMsbD_and, hm]
        by_cases hjk : j < k
        · have e := h j hjk
          have e1 : j / 8 = 0 := by omega
          have e2 : j % 8 = j := by omega
          simp [e1, e2] at e
          simp [e]
        · simp [hjk]

theorem compare_iff (a b : Address) (k : Nat) (hk : k ≤ 128) :
    a.compare b k = true ↔ SamePrefix k a b := by
  have := compareLoop_iff a.bytes b.bytes k (by rw [a.len, b.len]) (by rw [a.len]; omega)
    (by rw [a.len]; omega)
  exact this

theorem isV4_iff (a : Address) :
    a.isV4 = true ↔ ∀ i, i < 96 → a.bit i = decide (80 ≤ i) := by
  have hp : ∀ i, i < 96 → (v4MappedPrefix.getD (i / 8) 0).getMsbD (i % 8) = decide (80 ≤ i) := by
    decide
  have hl := a.len
  have hpl : v4MappedPrefix.length = 12 := rfl
  constructor
  · intro h i hi
    have h' : a.bytes.take 12 = v4MappedPrefix := by simpa [Address.isV4] using h
    rw [← hp i hi, ← h']
    have : i / 8 < 12 := by omega
    simp [Address.bit, List.getD_eq_getElem?_getD, List.getElem?_take, this]
  · intro h
    have : a.bytes.take 12 = v4MappedPrefix := by
      apply List.ext_getElem (by simp [hl, hpl])
      intro n h1 h2
      apply byte_ext_msb
      intro j hj
      have hn : n < 12 := by simpa [hpl] using h2
      have := (h (8 * n + j) (by omega)).trans (hp (8 * n + j) (by omega)).symm
      have e1 : (8 * n + j) / 8 = n := by omega
      have e2 : (8 * n + j) % 8 = j := by omega
      have hn16 : n < a.bytes.length := by omega
      simpa [Address.bit, e1, e2, List.getD_eq_getElem?_getD, hn16, h2] using this
    simp [Address.isV4, this]

/-- Flip one bit, to build witnesses. -/
theorem exists_differ (a : Address) (n : Nat) (hn : n < 128) :
    ∃ b : Address, ∀ i, i < 128 → b.bit i = (if i = n then !a.bit i else a.bit i) := by
  have hb : ∀ j, j < 8 → ∃ m : BitVec 8, ∀ i, i < 8 → m.getMsbD i = decide (i = j) := by
    intro j hj
    refine ⟨(1 : BitVec 8) <<< (7 - j), ?_⟩
    have : ∀ j, j < 8 → ∀ i, i < 8 →
      ((1 : BitVec 8) <<< (7 - j)).getMsbD i = decide (i = j) := by decide
    exact this j hj
  obtain ⟨m, hm⟩ := hb (n % 8) (by omega)
  have hl := a.len
  refine ⟨⟨a.bytes.set (n / 8) (a.bytes.getD (n / 8) 0 ^^^ m), by simp [hl]⟩, ?_⟩
  intro i hi
  have h1 : i / 8 < a.bytes.length := by omega
  simp only [Address.bit, List.getD_eq_getElem?_getD, List.getElem?_set]
  have hm' := hm (i % 8) (by omega)
  by_cases hin : n / 8 = i / 8
  · rw [if_pos hin, ← hin, hin, if_pos h1]
    simp only [Option.getD_some, BitVec.getMsbD_xor, hm']
    by_cases hmod : i % 8 = n % 8
    · have : i = n := by omega
      simp [this]
    · have : i ≠ n := by intro e; subst e; exact hmod rfl
      simp [hmod, this]
  · have : i ≠ n := by intro e; subst e; exact hin rfl
    rw [if_neg hin]
    simp [this]

end Verif.Address
