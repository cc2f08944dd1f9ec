import Verif.Bitmap.EwahOps

/-!
# C01, C02: EWAH bitmaps
-/

namespace Verif.Bitmap

open Spec

/-- C01. Any history of appends and flips on a fresh EWAH bitmap runs without assertion failure;
iterating `bit_range` over the result yields exactly the booleans the same history produces on a
plain list; and `size()` is the length of that list. -/
theorem C01_ewah_faithful (ops : List Op) (hv : ∀ op ∈ ops, op.valid) :
    ∃ bm, EwahBitmap.run ops = some bm
      ∧ concat bm.bitRange = history ops
      ∧ bm.size = (history ops).length := by
  obtain ⟨s, h1, h2⟩ := run_rep hv
  exact ⟨s, h1, (bitRange_spec h2).1, (bitRange_spec h2).2.1⟩

/-- A history that crosses word boundaries, makes clean and dirty words and flips. -/
example : let ops : List Op := [.bits true 200, .block 0xA5#64 8, .flip, .bits false 129, .bit true]
    (∀ op ∈ ops, op.valid)
    ∧ (EwahBitmap.run ops).map (fun bm => (concat bm.bitRange == history ops, bm.blocks.length, bm.size))
        = some (true, 4, 338) := by
  refine ⟨?_, by decide +kernel⟩
  intro op hop
  simp only [List.mem_cons, List.not_mem_nil, or_false] at hop
  rcases hop with rfl | rfl | rfl | rfl | rfl <;> simp [Op.valid]

/-- C01, the shape of the sequences: every sequence of `bit_range` is non-empty, and one longer than
a word is homogeneous, as documented for `vast::bits` (bits.hpp:15-22). -/
theorem C01_ewah_runs_wellformed (ops : List Op) (hv : ∀ op ∈ ops, op.valid) :
    ∃ bm, EwahBitmap.run ops = some bm
      ∧ ∀ b ∈ bm.bitRange, 1 ≤ b.size
        ∧ (64 < b.size → b.data = 0#64 ∨ b.data = BitVec.allOnes 64)
        ∧ (b.size ≤ 64 → ∀ i, b.size ≤ i → b.data.getLsbD i = false) := by
  obtain ⟨s, h1, h2⟩ := run_rep hv
  refine ⟨s, h1, fun b hb => ?_⟩
  have := (bitRange_spec h2).2.2 b hb
  exact ⟨this.1, this.2.1, fun h i hi => this.2.2 i hi h⟩

/-- C02. `operator==` of two bitmaps built by any two histories is equality of their bits. -/
theorem C02_ewah_equality (ops₁ ops₂ : List Op) (hv₁ : ∀ op ∈ ops₁, op.valid)
    (hv₂ : ∀ op ∈ ops₂, op.valid) :
    ∃ x y, EwahBitmap.run ops₁ = some x ∧ EwahBitmap.run ops₂ = some y
      ∧ (EwahBitmap.eq x y = true ↔ history ops₁ = history ops₂) := by
  obtain ⟨x, hx1, hx2⟩ := run_rep hv₁
  obtain ⟨y, hy1, hy2⟩ := run_rep hv₂
  refine ⟨x, y, hx1, hy1, ?_, ?_⟩
  · intro h
    simp only [EwahBitmap.eq, Bool.and_eq_true, beq_iff_eq] at h
    rw [← (bitRange_spec hx2).1, ← (bitRange_spec hy2).1, EwahBitmap.bitRange, EwahBitmap.bitRange, h.1, h.2]
  · intro h
    rw [h] at hx2
    have := represents_unique hx2 hy2
    subst this
    simp [EwahBitmap.eq]

/-- Two different histories with the same bits, one bulk and one mixed, and one with different bits. -/
example : let x := EwahBitmap.run [.bits true 130, .bits false 70]
    let y := EwahBitmap.run [.bits false 64, .bits false 66, .bits true 35, .bits true 34, .bit true, .flip]
    let z := EwahBitmap.run [.bits true 131, .bits false 69]
    (do return (← x).eq (← y)) = some true ∧ (do return (← x).eq (← z)) = some false := by
  decide +kernel

end Verif.Bitmap
