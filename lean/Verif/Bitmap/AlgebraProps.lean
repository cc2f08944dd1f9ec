import Verif.Bitmap.NaryLemmas

/-!
# C03: bitmap algebra
-/

namespace Verif.Bitmap

open Spec

/-- C03. However a bitmap is computed, by appends, flips, conjunctions, disjunctions, exclusive
disjunctions, differences and complements in any nesting and over operands of any lengths, no
assertion fails and the bits of the result are those of the position-by-position computation on
lists of booleans, where positions past the end of the shorter operand read as false. -/
theorem C03_algebra (e : Spec.Expr) (hv : e.valid) :
    ∃ bm, e.eval = some bm ∧ concat bm.bitRange = e.bits ∧ bm.size = e.bits.length := by
  obtain ⟨bm, h1, h2⟩ := eval_rep hv
  exact ⟨bm, h1, (bitRange_spec h2).1, (bitRange_spec h2).2.1⟩

/-- C03, equality: two computed bitmaps compare equal iff they hold the same bits. -/
theorem C03_equality (e₁ e₂ : Spec.Expr) (hv₁ : e₁.valid) (hv₂ : e₂.valid) :
    ∃ x y, e₁.eval = some x ∧ e₂.eval = some y ∧ (EwahBitmap.eq x y = true ↔ e₁.bits = e₂.bits) := by
  obtain ⟨x, hx1, hx2⟩ := eval_rep hv₁
  obtain ⟨y, hy1, hy2⟩ := eval_rep hv₂
  refine ⟨x, y, hx1, hy1, ?_, ?_⟩
  · intro h
    simp only [EwahBitmap.eq, Bool.and_eq_true, beq_iff_eq] at h
    rw [← (bitRange_spec hx2).1, ← (bitRange_spec hy2).1, EwahBitmap.bitRange, EwahBitmap.bitRange, h.1, h.2]
  · intro h
    rw [h] at hx2
    have := represents_unique hx2 hy2
    subst this
    simp [EwahBitmap.eq]

/-- Operands of different lengths with runs and mixed words. -/
example : let x := Spec.Expr.history [.bits true 150, .block 0x5#64 3]
    let y := Spec.Expr.history [.bits false 70, .block 0xF0F0#64 16]
    let e := Spec.Expr.or (.diff x y) (.not (.and x (.xor y x)))
    e.valid ∧ (e.eval.map fun bm => (concat bm.bitRange == e.bits, bm.size)) = some (true, 153) := by
  refine ⟨?_, by decide +kernel⟩
  simp [Spec.Expr.valid, Op.valid]

/-- C03, n-ary conjunction: for every order in which the priority queue hands out its elements, the
conjunction of any number of computed bitmaps is the position-by-position conjunction. -/
theorem C03_nary_and (es : List Spec.Expr) (hv : ∀ e ∈ es, e.valid) (pick : List EwahBitmap → Nat) :
    ∃ bms bm, es.mapM Spec.Expr.eval = some bms
      ∧ naryEval binaryAnd pick bms.length bms = some bm
      ∧ concat bm.bitRange = pointwiseAll (fun bits => bits.all id) (es.map Spec.Expr.bits) := by
  obtain ⟨bms, h1, h2, h3⟩ := evalAll_rep hv
  obtain ⟨bm, h4, h5⟩ := naryEval_rep folds_all rfl (fun hx hy => binaryAnd_rep hx hy) pick _ bms _ (Nat.le_refl _) h2 h3
  exact ⟨bms, bm, h1, h4, (bitRange_spec h5).1⟩

/-- C03, n-ary disjunction. -/
theorem C03_nary_or (es : List Spec.Expr) (hv : ∀ e ∈ es, e.valid) (pick : List EwahBitmap → Nat) :
    ∃ bms bm, es.mapM Spec.Expr.eval = some bms
      ∧ naryEval binaryOr pick bms.length bms = some bm
      ∧ concat bm.bitRange = pointwiseAll (fun bits => bits.any id) (es.map Spec.Expr.bits) := by
  obtain ⟨bms, h1, h2, h3⟩ := evalAll_rep hv
  obtain ⟨bm, h4, h5⟩ := naryEval_rep folds_any rfl (fun hx hy => binaryOr_rep hx hy) pick _ bms _ (Nat.le_refl _) h2 h3
  exact ⟨bms, bm, h1, h4, (bitRange_spec h5).1⟩

/-- C03, n-ary exclusive disjunction. -/
theorem C03_nary_xor (es : List Spec.Expr) (hv : ∀ e ∈ es, e.valid) (pick : List EwahBitmap → Nat) :
    ∃ bms bm, es.mapM Spec.Expr.eval = some bms
      ∧ naryEval binaryXor pick bms.length bms = some bm
      ∧ concat bm.bitRange = pointwiseAll parity (es.map Spec.Expr.bits) := by
  obtain ⟨bms, h1, h2, h3⟩ := evalAll_rep hv
  obtain ⟨bm, h4, h5⟩ := naryEval_rep folds_parity rfl (fun hx hy => binaryXor_rep hx hy) pick _ bms _ (Nat.le_refl _) h2 h3
  exact ⟨bms, bm, h1, h4, (bitRange_spec h5).1⟩

/-- Three operands, two different orders. -/
example : let es : List Spec.Expr := [.history [.bits true 70], .history [.bits false 3, .bits true 2],
      .history [.bit true, .bits false 100]]
    (∀ e ∈ es, e.valid)
    ∧ (do (← naryEval binaryXor (fun q => q.length - 1) 3 (← es.mapM Spec.Expr.eval)).eq
            (← naryEval binaryXor (fun _ => 1) 3 (← es.mapM Spec.Expr.eval))) = some true
    ∧ (pointwiseAll parity (es.map Spec.Expr.bits)).take 6 = [false, true, true, false, false, true] := by
  refine ⟨by simp [Spec.Expr.valid, Op.valid], by decide +kernel, by decide +kernel⟩

/-- `binary_nor(x, y)`, which computes `x | ~y`, does not treat the positions past the end of an
operand as false: past the end of the shorter operand the longer one is copied. It is not part of
the algebra above; this records what it does. -/
theorem C03_binary_nor {x y : EwahBitmap} (a b : Spec.Expr) (ha : a.valid) (hb : b.valid)
    (hx : a.eval = some x) (hy : b.eval = some y) :
    ∃ z, binaryNor x y = some z
      ∧ concat z.bitRange = List.zipWith (fun p q => p || !q) a.bits b.bits
          ++ a.bits.drop b.bits.length ++ b.bits.drop a.bits.length := by
  obtain ⟨x', hx1, hx2⟩ := eval_rep ha
  obtain ⟨y', hy1, hy2⟩ := eval_rep hb
  rw [hx] at hx1; rw [hy] at hy1
  simp only [Option.some.injEq] at hx1 hy1
  subst hx1; subst hy1
  obtain ⟨z, h1, h2⟩ := binaryEval_rep (op := fun x y => x ||| ~~~y) (f := fun p q => p || !q)
    (fun x y i hi => by rw [BitVec.getLsbD_or, BitVec.getLsbD_not]; simp [hi]) true true hx2 hy2
  refine ⟨z, h1, ?_⟩
  rw [(bitRange_spec h2).1]
  simp

end Verif.Bitmap
