import Verif.Index.ValueProps

/-!
# C56: the enumeration index is exact
-/

namespace Verif.Index

open Verif.Data (RelOp)
open Spec (Row)

/-- An enumeration index after a history; the constructor makes 256 bitmaps. -/
def enumerationIndex (h : List (Nat × Option Nat)) : Option (ValueIndex VectorCoder) :=
  (ValueIndex.make (VectorCoder.make 256)).run enumerationImpl h

theorem enumAppends : Appends enumerationImpl (KRep .equality 256) (· < 256) := by
  refine ⟨?_⟩
  intro c col v pos hr hp hv
  have hs := kRep_skip hr (pos - col.length)
  obtain ⟨c', e1, e2⟩ := kRep_encode (k := .equality) hs hv 1
  refine ⟨c', ?_, by simpa using e2⟩
  have e1' : EqualityCoder.encode (c.skip (pos - col.length)) v 1 = some c' := e1
  simp only [enumerationImpl, hr.size, e1', Res.ofOption]

/-- C56. For every history of appends and every comparison operator, the enumeration index returns
exactly the rows whose value stands in the relation to the operand, and the null rows for `!=`; `in`
and `not_in` with a list are exact on rows with a value. -/
theorem C56_enumeration (h : List (Nat × Option Nat)) (hv : ∀ pos v, (pos, some v) ∈ h → v < 256) :
    ∃ v, enumerationIndex h = some v ∧
      (∀ op (x : Nat), (Spec.compareInt op 0 0).isSome → x < 256 →
        v.lookup enumerationImpl op (.val x) = .ok (Spec.answer (Spec.rows h)
          (fun y => Spec.compareInt op y x == some true) (decide (op = .notEqual)))) ∧
      ∀ xs : List (Option Nat), (∀ x, some x ∈ xs → x < 256) →
        v.lookup enumerationImpl .in_ (.list xs)
          = .ok (Spec.answer (Spec.rows h) (fun y => xs.contains (some y)) false) ∧
        v.lookup enumerationImpl .notIn (.list xs)
          = .ok (Spec.answer (Spec.rows h) (fun y => !xs.contains (some y)) false) := by
  obtain ⟨v, e1, e2⟩ := vRep_run enumAppends h (vRep_make (kRep_make .equality 256)) hv
  have key : ∀ op (x : Nat), (Spec.compareInt op 0 0).isSome → x < 256 →
        v.lookupVal enumerationImpl op x = .ok (Spec.answer (Spec.rows h)
          (fun y => Spec.compareInt op y x == some true) (decide (op = .notEqual))) := by
    intro op x hop hx
    refine lookupVal_frame e2 op x _ ?_
    have hop' := compareInt_isSome hop
    obtain ⟨r, h1, h2, h3, _⟩ := equality_decode e2.impl op x hx hop'
    refine ⟨r, ?_, by rw [h2]; exact e2.col_length, ?_⟩
    · unfold enumerationImpl
      simp only
      rw [h1]
      split <;> first | rfl | simp [Spec.compareInt] at hop
    · intro i y hi
      obtain ⟨pos, hp⟩ := rows_mem h i y hi
      have := h3 i y ((e2.col i y).2 hi) (hv pos y hp)
      rw [← compare_int hop' (a := y) (b := x) (v := (y : Int)) (x := (x : Int)) (by omega) (by omega), ← this]
      cases r.bit i <;> rfl
  refine ⟨v, e1, key, ?_⟩
  intro xs hxs
  refine in_exact e2 xs ?_
  intro x hx
  rw [key .equal x rfl (hxs x hx)]
  congr 2
  funext y
  simp only [Spec.compareInt]
  rw [Bool.eq_iff_iff, beq_iff_eq, Option.some.injEq, beq_iff_eq, beq_iff_eq]
  omega

example : (enumerationIndex [(0, some 3), (2, none), (3, some 255)]).map
      (fun v => (v.lookup enumerationImpl .greater (.val 3), v.lookup enumerationImpl .notEqual (.val 3)))
    = some (.ok [false, false, false, true], .ok [false, false, true, true]) := by decide +kernel

end Verif.Index
