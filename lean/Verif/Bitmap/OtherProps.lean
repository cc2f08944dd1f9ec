import Verif.Bitmap.WahLemmas
import Verif.Bitmap.NullLemmas

/-!
# C05, C06, C55: WAH and null bitmaps
-/

namespace Verif.Bitmap

open Spec

/-! ## WAH -/

/-- C05. Any history of appends and flips on a fresh WAH bitmap runs without assertion failure;
iterating `bit_range` over the result yields exactly the booleans the same history produces on a
plain list; and `size()` is the length of that list. -/
theorem C05_wah_faithful (ops : List Op) (hv : ∀ op ∈ ops, op.valid) :
    ∃ bm, WahBitmap.run ops = some bm
      ∧ concat bm.bitRange = history ops
      ∧ bm.size = (history ops).length := by
  obtain ⟨s, h1, h2⟩ := run_wah hv
  exact ⟨s, h1, bitRange_wah h2, h2.1⟩

/-- A history with fills of both kinds, literals, a flip and an append across a word boundary. -/
example : let ops : List Op := [.bits true 200, .block 0xA5#64 64, .flip, .bits false 140, .bit true]
    (∀ op ∈ ops, op.valid)
    ∧ (WahBitmap.run ops).map
        (fun bm => (concat bm.bitRange == history ops, bm.blocks.length, bm.size)) = some (true, 5, 405) := by
  refine ⟨?_, by decide +kernel⟩
  intro op hop
  simp only [List.mem_cons, List.not_mem_nil, or_false] at hop
  rcases hop with rfl | rfl | rfl | rfl | rfl <;> simp [Op.valid]

/-- C55, WAH, one direction: bitmaps that compare equal have the same bits. Missing: the converse,
which is false, see `C55_wah_equality_refuted`. -/
theorem C55_wah_equality_partial (ops₁ ops₂ : List Op) (hv₁ : ∀ op ∈ ops₁, op.valid)
    (hv₂ : ∀ op ∈ ops₂, op.valid) :
    ∃ x y, WahBitmap.run ops₁ = some x ∧ WahBitmap.run ops₂ = some y
      ∧ (WahBitmap.eq x y = true → history ops₁ = history ops₂) := by
  obtain ⟨x, hx1, hx2⟩ := run_wah hv₁
  obtain ⟨y, hy1, hy2⟩ := run_wah hv₂
  refine ⟨x, y, hx1, hy1, ?_⟩
  intro h
  simp only [WahBitmap.eq, Bool.and_eq_true, beq_iff_eq] at h
  obtain ⟨hb, hn⟩ := h
  obtain ⟨hxl, hx⟩ := hx2
  obtain ⟨hyl, hy⟩ := hy2
  rcases hx with ⟨a1, a2, a3⟩ | ⟨pre, act, a1, a2, a3, a4⟩
  · rcases hy with ⟨b1, b2, b3⟩ | ⟨pre', act', b1, b2, b3, b4⟩
    · rw [a3, b3]
    · rw [a1, b1] at hb; simp at hb
  · rcases hy with ⟨b1, b2, b3⟩ | ⟨pre', act', b1, b2, b3, b4⟩
    · rw [a1, b1] at hb; simp at hb
    · rw [a1, b1] at hb
      obtain ⟨rfl, h2⟩ := List.append_inj' hb rfl
      obtain rfl : act = act' := by simpa using h2
      have : x.numLast = y.numLast := by
        rw [hxl, hyl, a4, b4] at hn
        simp only [List.length_append, wbits_length] at hn
        omega
      rw [a4, b4, this]

/-- Two different histories whose bitmaps compare equal. -/
example : let x := WahBitmap.run [.bits true 63, .bits false 20]
    let y := WahBitmap.run [.block 0xFFFFFFFFFFFFFFFF#64 63, .bit false, .bits false 19]
    (do return (← x).eq (← y)) = some true := by
  decide +kernel

/-- C55 is false for WAH bitmaps: 126 ones appended in one call and in two calls give bitmaps with
the same bits that compare unequal, because the first leaves an empty active word behind two fill
words, and the second a full active word behind one. -/
theorem C55_wah_equality_refuted :
    ¬ ∀ ops₁ ops₂ : List Op, (∀ op ∈ ops₁, op.valid) → (∀ op ∈ ops₂, op.valid) →
        history ops₁ = history ops₂ →
        (do return (← WahBitmap.run ops₁).eq (← WahBitmap.run ops₂)) = some true := by
  intro h
  have := h [.bits true 126] [.bits true 63, .bits true 63]
    (by intro op hop; simp only [List.mem_singleton] at hop; subst hop; exact True.intro)
    (by intro op hop; simp only [List.mem_cons, List.not_mem_nil, or_false, or_self] at hop; subst hop; exact True.intro)
    (by decide +kernel)
  exact absurd this (by decide +kernel)

/-! ## Null -/

/-- The bits after the last complete 64-bit word. -/
def Spec.tail (l : List Bool) : List Bool := l.drop (64 * (l.length / 64))

/-- The last complete 64-bit word. -/
def Spec.lastWord (l : List Bool) : List Bool :=
  (l.take (64 * (l.length / 64))).drop (64 * (l.length / 64) - 64)

theorem null_cases (ops : List Op) (hv : ∀ op ∈ ops, op.valid) :
    ∃ bm, NullBitmap.run ops = some bm ∧ bm.size = (history ops).length
      ∧ (concat bm.bitRange = history ops
        ∨ ∃ t, 64 ≤ (history ops).length ∧ Spec.lastWord (history ops) = List.replicate 64 t
          ∧ concat bm.bitRange = (history ops).take (64 * ((history ops).length / 64))
              ++ List.replicate ((history ops).length % 64) t) := by
  obtain ⟨s, h1, hlen, h⟩ := run_null hv
  refine ⟨s, h1, hlen, ?_⟩
  generalize history ops = l at *
  rw [NullBitmap.bitRange]
  rcases h with ⟨hb, hl⟩ | ⟨pre, last, k, hb, hk1, hk2, hpl, hl⟩
  · left
    rw [hb, hl, NullBitmap.runs]; rfl
  · rw [hb]
    have hk : (if s.partialBits = 0 then 64 else s.partialBits) = k := by
      rw [NullBitmap.partialBits, hlen]
      split <;> omega
    have hp64 : s.partialBits < 64 := Nat.mod_lt _ (by omega)
    rcases runs_null (last := last) hp64 pre with h | ⟨h0, pre', t, h2, h3⟩
    · left
      rw [h, hk, hl]
    · right
      have hpk : s.partialBits = k := by rw [if_neg (by omega)] at hk; exact hk
      have hmod : l.length % 64 = k := by rw [← hpk, NullBitmap.partialBits, hlen]
      have hdiv : l.length / 64 = pre.length := by omega
      have htake : l.take (64 * (l.length / 64)) = pre.flatMap (wbits 64) := by
        rw [hdiv, hl]
        apply List.take_left'
        rw [flatMap_wbits_length]
      have hpos : 1 ≤ pre.length := by rw [h2]; simp
      refine ⟨t, by omega, ?_, ?_⟩
      · rw [Spec.lastWord, htake, hdiv, h2, List.flatMap_append]
        simp only [List.flatMap_cons, List.flatMap_nil, List.append_nil, List.length_append,
          List.length_cons, List.length_nil]
        rw [show 64 * (pre'.length + (0 + 1)) - 64 = 64 * pre'.length by omega,
          List.drop_left' (by rw [flatMap_wbits_length]), wbits_fillWord (by omega)]
      · rw [h3, htake, hpk, hmod]

/-- C06, partial: any history of appends and flips on a fresh null bitmap runs without assertion
failure, `size()` is the number of bits, iterating yields that many bits, and all bits up to the
last complete word are right. Missing: the bits after it, see `C06_null_refuted`. -/
theorem C06_null_partial (ops : List Op) (hv : ∀ op ∈ ops, op.valid) :
    ∃ bm, NullBitmap.run ops = some bm ∧ bm.size = (history ops).length
      ∧ (concat bm.bitRange).length = (history ops).length
      ∧ (concat bm.bitRange).take (64 * ((history ops).length / 64))
          = (history ops).take (64 * ((history ops).length / 64)) := by
  obtain ⟨bm, h1, h2, h⟩ := null_cases ops hv
  refine ⟨bm, h1, h2, ?_⟩
  rcases h with h | ⟨t, h3, h4, h5⟩
  · rw [h]; exact ⟨rfl, rfl⟩
  · rw [h5]
    constructor
    · simp only [List.length_append, List.length_take, List.length_replicate]
      omega
    · apply List.take_left'
      simp only [List.length_take]
      omega

/-- C06, partial: the iteration is exact unless the last complete word is homogeneous and the bits
after it differ from it. -/
theorem C06_null_exact_partial (ops : List Op) (hv : ∀ op ∈ ops, op.valid)
    (hc : ∀ t, 64 ≤ (history ops).length → Spec.lastWord (history ops) = List.replicate 64 t →
      Spec.tail (history ops) = List.replicate ((history ops).length % 64) t) :
    ∃ bm, NullBitmap.run ops = some bm ∧ concat bm.bitRange = history ops := by
  obtain ⟨bm, h1, h2, h⟩ := null_cases ops hv
  refine ⟨bm, h1, ?_⟩
  rcases h with h | ⟨t, h3, h4, h5⟩
  · exact h
  · rw [h5, ← hc t h3 h4, Spec.tail, List.take_append_drop]

/-- A history that meets the condition with a homogeneous last complete word and further bits. -/
example : let ops : List Op := [.block 0xF0#64 64, .bits true 64, .bits true 10]
    Spec.lastWord (history ops) = List.replicate 64 true
    ∧ Spec.tail (history ops) = List.replicate ((history ops).length % 64) true
    ∧ (NullBitmap.run ops).map (fun bm => concat bm.bitRange == history ops) = some true := by
  decide +kernel

/-- C06 is false: after 64 zeros and a one followed by a zero, iteration yields 66 zeros. -/
theorem C06_null_refuted :
    ¬ ∀ ops : List Op, (∀ op ∈ ops, op.valid) →
        (NullBitmap.run ops).map (fun bm => concat bm.bitRange) = some (history ops) := by
  intro h
  have := h [.bits false 64, .block 1#64 2]
    (by intro op hop; simp only [List.mem_cons, List.not_mem_nil, or_false] at hop; rcases hop with rfl | rfl <;> simp [Op.valid])
  exact absurd this (by decide +kernel)

/-- C55, null bitmaps, partial: bitmaps with the same bits compare equal, and bitmaps that compare
equal agree on all but the last 64 bits, and on all bits if the size is no multiple of 64. Missing:
the rest of the last word, see `C55_null_equality_refuted`. -/
theorem C55_null_equality_partial (ops₁ ops₂ : List Op) (hv₁ : ∀ op ∈ ops₁, op.valid)
    (hv₂ : ∀ op ∈ ops₂, op.valid) :
    ∃ x y, NullBitmap.run ops₁ = some x ∧ NullBitmap.run ops₂ = some y
      ∧ (history ops₁ = history ops₂ → NullBitmap.eq x y = true)
      ∧ (NullBitmap.eq x y = true → (history ops₁).length = (history ops₂).length
        ∧ (history ops₁).take ((history ops₁).length - 64) = (history ops₂).take ((history ops₁).length - 64)
        ∧ ((history ops₁).length % 64 ≠ 0 → history ops₁ = history ops₂)) := by
  obtain ⟨x, hx1, hxl, hx⟩ := run_null hv₁
  obtain ⟨y, hy1, hyl, hy⟩ := run_null hv₂
  refine ⟨x, y, hx1, hy1, ?_⟩
  generalize history ops₁ = l at *
  generalize history ops₂ = m at *
  have hmask : ∀ (k : Nat) (v w : Word),
      ((v &&& Word.lsbMask k) = (w &&& Word.lsbMask k)) ↔ ∀ i, i < k → i < 64 → v.getLsbD i = w.getLsbD i := by
    intro k v w
    constructor
    · intro h i hi hi'
      have := congrArg (fun z => BitVec.getLsbD z i) h
      simp only [BitVec.getLsbD_and, getLsbD_lsbMask, hi, hi', decide_true, Bool.and_true] at this
      exact this
    · intro h
      apply BitVec.eq_of_getLsbD_eq
      intro i hi
      rw [BitVec.getLsbD_and, BitVec.getLsbD_and, getLsbD_lsbMask]
      by_cases hk : i < k
      · rw [h i hk hi]
      · simp [hk]
  rcases hx with ⟨a1, a2⟩ | ⟨pre, last, k, a1, a2, a3, a4, a5⟩
  · rcases hy with ⟨b1, b2⟩ | ⟨pre', last', k', b1, b2, b3, b4, b5⟩
    · simp [NullBitmap.eq, hxl, hyl, a1, a2, b2]
    · have h1 : l.length = 0 := by rw [a2]; rfl
      refine ⟨fun h => ?_, fun h => ?_⟩
      · rw [← h] at b4; omega
      · rw [NullBitmap.eq, if_pos (by omega)] at h; simp at h
  · rcases hy with ⟨b1, b2⟩ | ⟨pre', last', k', b1, b2, b3, b4, b5⟩
    · have h1 : m.length = 0 := by rw [b2]; rfl
      refine ⟨fun h => ?_, fun h => ?_⟩
      · rw [h] at a4; omega
      · rw [NullBitmap.eq, if_pos (by omega)] at h; simp at h
    · have hpx : x.partialBits = k % 64 := by rw [NullBitmap.partialBits, hxl]; omega
      have hpy : y.partialBits = k' % 64 := by rw [NullBitmap.partialBits, hyl]; omega
      refine ⟨fun h => ?_, fun h => ?_⟩
      · have hlen : l.length = m.length := by rw [h]
        have hkk : k = k' := by omega
        subst hkk
        have hpp : pre.length = pre'.length := by omega
        have hcat := h
        rw [a5, b5] at hcat
        obtain ⟨c1, c2⟩ := flatMap_wbits_inj hpp hcat
        subst c1
        rw [NullBitmap.eq, if_neg (by omega), if_neg (by simp [a1]), if_neg (by simp [a1, b1]), a1, b1]
        simp only [List.getLastD_concat, beq_iff_eq]
        rw [hpx, hpy, hmask]
        intro i hi _
        exact wbits_inj c2 i (by omega)
      · rw [NullBitmap.eq] at h
        split at h
        · simp at h
        · next hnb =>
          rw [if_neg (by simp [a1]), a1, b1] at h
          simp only [List.dropLast_concat, List.getLastD_concat] at h
          split at h
          · simp at h
          · next hpre =>
            have hpre : pre = pre' := Classical.byContradiction hpre
            subst hpre
            have hkk : k = k' := by omega
            subst hkk
            rw [beq_iff_eq, hpx, hpy, hmask] at h
            refine ⟨by omega, ?_, ?_⟩
            · have hle : l.length - 64 ≤ (pre.flatMap (wbits 64)).length := by
                rw [flatMap_wbits_length]; omega
              rw [a5, b5, List.take_append_of_le_length (by rw [← a5]; exact hle),
                List.take_append_of_le_length (by rw [← a5]; exact hle)]
            · intro hne
              rw [a5, b5]
              congr 1
              exact wbits_congr fun i hi => h i (by omega) (by omega)

/-- The hypotheses of both directions are met by bitmaps of 70 bits. -/
example : let x := NullBitmap.run [.bits true 64, .block 0xF5#64 6]
    let y := NullBitmap.run [.bits true 65, .block 0x1A#64 5]
    let z := NullBitmap.run [.bits true 65, .block 0x1B#64 5]
    (do return (← x).eq (← y)) = some true ∧ (do return (← x).eq (← z)) = some false := by
  decide +kernel

/-- C55 is false for null bitmaps: 64 zeros compare equal to 64 ones. -/
theorem C55_null_equality_refuted :
    ¬ ∀ ops₁ ops₂ : List Op, (∀ op ∈ ops₁, op.valid) → (∀ op ∈ ops₂, op.valid) →
        (do return (← NullBitmap.run ops₁).eq (← NullBitmap.run ops₂)) = some true →
        history ops₁ = history ops₂ := by
  intro h
  have := h [.bits true 64] [.bits false 64]
    (by intro op hop; simp only [List.mem_singleton] at hop; subst hop; exact True.intro)
    (by intro op hop; simp only [List.mem_singleton] at hop; subst hop; exact True.intro)
    (by decide +kernel)
  exact absurd this (by decide +kernel)

end Verif.Bitmap
