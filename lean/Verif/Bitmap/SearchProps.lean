import Verif.Bitmap.SearchAux

/-!
# C04, C07, C08: counting, searching and iterating bitmaps
-/

namespace Verif.Bitmap

open Spec

/-- Reading single bits: `operator[]` agrees with the bits, and it aborts outside of the bitmap. -/
theorem C04_index (e : Spec.Expr) (hv : e.valid) :
    ∃ bm, e.eval = some bm ∧ ∀ i, bm.get? i = e.bits[i]? := by
  obtain ⟨bm, h1, h2⟩ := eval_rep hv
  obtain ⟨r1, r2, r3⟩ := bitRange_spec h2
  refine ⟨bm, h1, fun i => ?_⟩
  rw [EwahBitmap.get?, getGo_spec _ _ _ (Nat.zero_le _), r1]; rfl

/-- C04, rank: for every computed bitmap, bit value and position in the bitmap, `rank<Bit>(bm, i)`
is the number of positions up to and including `i` that hold the value. -/
theorem C04_rank (e : Spec.Expr) (hv : e.valid) :
    ∃ bm, e.eval = some bm
      ∧ (∀ bit i, i < e.bits.length → rank bit bm i = (e.bits.take (i + 1)).count bit)
      ∧ ∀ bit, rankAll bit bm = e.bits.count bit := by
  obtain ⟨bm, h1, h2⟩ := eval_rep hv
  obtain ⟨r1, r2, r3⟩ := bitRange_spec h2
  have hr : ∀ bit i, i < e.bits.length → rank bit bm i = (e.bits.take (i + 1)).count bit := by
    intro bit i hi
    rw [rank, rankGo_spec bit _ r3 i 0 0 (Nat.zero_le _) (by rw [r1]; exact hi), r1]
    simp
  refine ⟨bm, h1, hr, fun bit => ?_⟩
  have hsz : bm.size = e.bits.length := r2
  rw [rankAll]
  split
  · next h0 =>
    have : e.bits = [] := List.eq_nil_of_length_eq_zero (by omega)
    simp [this]
  · next h0 =>
    rw [hr bit _ (by omega), List.take_of_length_le (by omega)]

/-- C04, select: for every `k > 0`, `select<Bit>(bm, k)` is the position of the `k`-th occurrence if
there are that many, and `npos` otherwise. -/
theorem C04_select (e : Spec.Expr) (hv : e.valid) :
    ∃ bm, e.eval = some bm
      ∧ ∀ bit k, 1 ≤ k →
        (k ≤ e.bits.count bit → ∃ p, select bit bm k = some p ∧ IsNth bit e.bits k p)
        ∧ (e.bits.count bit < k → select bit bm k = none) := by
  obtain ⟨bm, h1, h2⟩ := eval_rep hv
  obtain ⟨r1, r2, r3⟩ := bitRange_spec h2
  refine ⟨bm, h1, fun bit k hk => ?_⟩
  have hs := selectGo_spec' bit _ r3 k 0 0 (by omega)
  rw [r1] at hs
  rw [select]
  cases hsel : selectGo bit k 0 0 bm.bitRange with
  | some p =>
    rw [hsel] at hs
    obtain ⟨q, hq1, hq2⟩ := hs
    rw [Nat.zero_add] at hq1
    subst hq1
    refine ⟨fun _ => ⟨p, rfl, hq2⟩, fun hlt => ?_⟩
    exfalso
    obtain ⟨hp1, hp2⟩ := hq2
    have h3 : (e.bits.take (p + 1)).count bit = (k - 1) + 1 := by
      rw [List.take_add_one, List.count_append, hp1]
      simp only [Nat.sub_zero] at hp2
      simp [hp2]
    have h4 : (e.bits.take (p + 1)).count bit ≤ e.bits.count bit := (List.take_sublist _ _).count_le _
    omega
  | none =>
    rw [hsel] at hs
    simp only at hs
    exact ⟨fun hle => by omega, fun _ => rfl⟩

/-- C04, frame: the first and the last position holding the value, or twice `npos`. -/
theorem C04_frame (e : Spec.Expr) (hv : e.valid) :
    ∃ bm, e.eval = some bm
      ∧ ∀ bit, (∃ p q, frame bit bm = (some p, some q) ∧ IsFirst bit e.bits p ∧ IsLast bit e.bits q)
        ∨ (frame bit bm = (none, none) ∧ bit ∉ e.bits) := by
  obtain ⟨bm, h1, h2⟩ := eval_rep hv
  obtain ⟨r1, r2, r3⟩ := bitRange_spec h2
  refine ⟨bm, h1, fun bit => ?_⟩
  have hs := frameGo_spec bit _ r3 0
  rw [r1] at hs
  simp only [Nat.zero_add] at hs
  rcases hs with hs | ⟨hs1, hs2⟩
  · exact Or.inl hs
  · refine Or.inr ⟨hs1, fun hm => ?_⟩
    obtain ⟨i, hi⟩ := List.mem_iff_getElem?.1 hm
    exact hs2 i hi

/-- C04, any: existence. -/
theorem C04_any (e : Spec.Expr) (hv : e.valid) :
    ∃ bm, e.eval = some bm ∧ ∀ bit, any bit bm = true ↔ bit ∈ e.bits := by
  obtain ⟨bm, h1, h2⟩ := eval_rep hv
  obtain ⟨r1, r2, r3⟩ := bitRange_spec h2
  refine ⟨bm, h1, fun bit => ?_⟩
  rw [any, any_spec bit _ r3, r1]
  simp

/-- C04, all: universality, except that the empty bitmap yields false. -/
theorem C04_all_partial (e : Spec.Expr) (hv : e.valid) :
    ∃ bm, e.eval = some bm ∧ ∀ bit, all bit bm = true ↔ e.bits ≠ [] ∧ ∀ b ∈ e.bits, b = bit := by
  obtain ⟨bm, h1, h2⟩ := eval_rep hv
  exact ⟨bm, h1, fun bit => all_rep h2 bit⟩

/-- C04, all on the empty bitmap: "all bits in bm have value Bit" (bitmap_algorithms.hpp:591-596) is
vacuously true of an empty bitmap, but the result is false. -/
theorem C04_all_refuted :
    ∃ bm, EwahBitmap.run [] = some bm ∧ (∀ b ∈ concat bm.bitRange, b = true) ∧ all true bm = false := by
  exact ⟨{}, rfl, by decide, by decide⟩

theorem isSubset_rep {x y : EwahBitmap} {a b : List Bool} (hx : Represents x a) (hy : Represents y b) (hne : a ≠ [] ∨ b ≠ []) :
    ∃ r, isSubset x y = some r ∧ (r = true ↔ ∀ i : Nat, a[i]? = some true → b[i]? = some true) := by
  obtain ⟨d, hd1, hd3⟩ := diff_all hx hy
  refine ⟨all false d, by simp [isSubset, hd1], ?_⟩
  rw [hd3]
  constructor
  · rintro ⟨-, hall⟩ i hi
    have hlt : i < a.length := (List.getElem?_eq_some_iff.1 hi).1
    have := hall (a.getD i false && !b.getD i false) (by
      rw [pointwise, List.mem_map]
      exact ⟨i, by simp; omega, rfl⟩)
    simp only [List.getD, hi, Option.getD_some, Bool.true_and, Bool.not_eq_false'] at this
    cases h : b[i]? with
    | none => simp [h] at this
    | some c => simp [h] at this; simp [this]
  · intro h
    refine ⟨?_, ?_⟩
    · intro h0
      have := congrArg List.length h0
      rw [pointwise] at this
      simp only [List.length_map, List.length_range, List.length_nil] at this
      rcases hne with hne | hne <;> apply hne <;> apply List.eq_nil_of_length_eq_zero <;> omega
    · intro c hb
      rw [pointwise, List.mem_map] at hb
      obtain ⟨i, -, rfl⟩ := hb
      cases h1 : a[i]? with
      | none => simp [List.getD, h1]
      | some c =>
        cases c
        · simp [List.getD, h1]
        · simp [List.getD, h1, h i h1]

/-- `is_subset`: correct unless both operands are empty, i.e. of size zero. -/
theorem C04_is_subset_partial (e₁ e₂ : Spec.Expr) (hv₁ : e₁.valid) (hv₂ : e₂.valid)
    (hne : e₁.bits ≠ [] ∨ e₂.bits ≠ []) :
    ∃ x y b, e₁.eval = some x ∧ e₂.eval = some y ∧ isSubset x y = some b
      ∧ (b = true ↔ ∀ i : Nat, e₁.bits[i]? = some true → e₂.bits[i]? = some true) := by
  obtain ⟨x, hx1, hx2⟩ := eval_rep hv₁
  obtain ⟨y, hy1, hy2⟩ := eval_rep hv₂
  obtain ⟨r, h1, h2⟩ := isSubset_rep hx2 hy2 hne
  exact ⟨x, y, r, hx1, hy1, h1, h2⟩

/-- `is_subset` of two bitmaps of size zero: the empty set is not reported as a subset of itself. -/
theorem C04_is_subset_refuted :
    ∃ x, EwahBitmap.run [] = some x ∧ isSubset x x = some false := ⟨{}, rfl, by decide +kernel⟩

/-- C04, `select(bm, npos)`, "the last occurrence of Bit" (bitmap_algorithms.hpp:261): proved for
`Bit = true`. -/
theorem C04_select_last_partial (e : Spec.Expr) (hv : e.valid) :
    ∃ bm, e.eval = some bm
      ∧ ((∃ p, selectLast true bm = some p ∧ IsLast true e.bits p)
        ∨ (selectLast true bm = none ∧ true ∉ e.bits)) := by
  obtain ⟨bm, h1, h2⟩ := eval_rep hv
  obtain ⟨r1, r2, r3⟩ := bitRange_spec h2
  refine ⟨bm, h1, ?_⟩
  have hs := frameLastGo_spec true _ r3 none 0
  rw [r1, ← selectLastGo_eq] at hs
  rw [selectLast]
  rcases hs with ⟨p, hs1, hs2⟩ | ⟨hs1, hs2⟩
  · exact Or.inl ⟨p, by simpa using hs1, hs2⟩
  · refine Or.inr ⟨hs1, fun hm => ?_⟩
    obtain ⟨i, hi⟩ := List.mem_iff_getElem?.1 hm
    exact hs2 i hi

/-- `select<false>(bm, npos)` returns the last occurrence of a one: `find_last` on line 273 is called
with its default `Bit`. For the bits 1,0 the last zero is at 1 but the result is 0. -/
theorem C04_select_last_refuted :
    ∃ bm, EwahBitmap.run [.bit true, .bit false] = some bm
      ∧ selectLast false bm = some 0 ∧ IsLast false (history [.bit true, .bit false]) 1 := by
  refine ⟨_, rfl, by decide +kernel, ?_, ?_⟩
  · decide
  · intro q hq
    rw [List.getElem?_eq_none (by show 2 ≤ q; omega)]; simp

/-- C04, iteration: `for (id : select<Bit>(bm))` visits exactly the positions holding the value, in
ascending order, and ends. -/
theorem C04_select_range (e : Spec.Expr) (hv : e.valid) :
    ∃ bm, e.eval = some bm
      ∧ ∀ bit fuel, e.bits.length < fuel →
        BitwiseRange.enumerate bit fuel (BitwiseRange.selectRange bit bm.bitRange) = positions bit e.bits := by
  obtain ⟨bm, h1, h2⟩ := eval_rep hv
  obtain ⟨r1, r2, r3⟩ := bitRange_spec h2
  refine ⟨bm, h1, fun bit fuel hf => ?_⟩
  have hs := selectRange_at bit r3
  rw [r1] at hs
  rw [enumerate_spec fuel 0 _ hs (by omega), posFrom_zero]

/-- C04, iteration: `each(bm)` visits every position once with its value. -/
theorem C04_each (e : Spec.Expr) (hv : e.valid) :
    ∃ bm, e.eval = some bm
      ∧ ∀ fuel, e.bits.length < fuel →
        BitwiseRange.enumerateEach fuel (BitwiseRange.ofRange bm.bitRange)
          = (List.range e.bits.length).map fun i => (i, e.bits.getD i false) := by
  obtain ⟨bm, h1, h2⟩ := eval_rep hv
  obtain ⟨r1, r2, r3⟩ := bitRange_spec h2
  refine ⟨bm, h1, fun fuel hf => ?_⟩
  rcases ofRange_at r3 with ⟨h3, h4⟩ | h3
  · rw [r1] at h3
    cases fuel with
    | zero => omega
    | succ fuel => rw [BitwiseRange.enumerateEach, h4.done, if_pos rfl, h3]; rfl
  · rw [r1] at h3
    rw [enumerateEach_spec fuel 0 _ h3 (by omega), List.range_eq_range']; rfl

/-- C04, iteration by jumps: standing at position `o` of a range over one-bits, `next(k)` moves to the
`k`-th one-bit after `o`, or ends the range if there are fewer. The state at `o` is any state the
range reaches by `next()` calls from the start; `j` counts them. -/
theorem C04_select_many (e : Spec.Expr) (hv : e.valid) :
    ∃ bm, e.eval = some bm
      ∧ ∀ j k, 1 ≤ k →
        let r := Nat.repeat (BitwiseRange.selectNext true) j (BitwiseRange.selectRange true bm.bitRange)
        j < e.bits.count true →
        (j + k < e.bits.count true →
            (r.selectMany true k).done = false ∧ IsNth true e.bits (j + 1 + k) (r.selectMany true k).offset)
          ∧ (e.bits.count true ≤ j + k → (r.selectMany true k).done = true) := by
  obtain ⟨bm, h1, h2⟩ := eval_rep hv
  obtain ⟨r1, r2, r3⟩ := bitRange_spec h2
  refine ⟨bm, h1, fun j k hk hj => ?_⟩
  obtain ⟨o, ho1, ho2⟩ := iterate_at (l := e.bits) (r1 ▸ selectRange_at true r3) j hj
  have hcount := count_take_isNth ho2
  have := selectMany_at ho1 hk
  rw [hcount] at this
  rcases this with ⟨p, hp1, hp2⟩ | ⟨hp1, hp2⟩
  · refine ⟨fun _ => ⟨hp1.done, ?_⟩, fun hle => ?_⟩
    · rw [hp1.offset]; exact hp2
    · exfalso
      have h3 := count_take_isNth (k := j + k) (by rw [show j + k + 1 = j + 1 + k by omega]; exact hp2)
      have h4 : (e.bits.take (p + 1)).count true ≤ e.bits.count true := (List.take_sublist _ _).count_le _
      omega
  · exact ⟨fun hlt => by omega, fun _ => hp2.done⟩

/-- A bitmap with runs and mixed words: all of the above at a glance. -/
example : let e := Spec.Expr.or (.history [.bits true 100, .block 0x0F#64 6]) (.history [.bits false 70, .bits true 3, .bits false 200])
    e.valid
    ∧ (e.eval.map fun bm => (rank true bm 103, select false bm 3, frame true bm, any false bm, all true bm))
      = some (104, some 106, (some 0, some 103), true, false)
    ∧ (e.eval.map fun bm => (BitwiseRange.selectMany true (BitwiseRange.selectRange true bm.bitRange) 101).offset)
      = some 101 := by
  refine ⟨by simp [Spec.Expr.valid, Op.valid], by decide +kernel, by decide +kernel⟩

/-! ## C07 -/

/-- C07. For every list of non-empty half-open ranges, in any order and overlapping or not,
`make_ids` returns a bitmap that contains an ID iff one of the ranges does, or the ID is in the
padding that `min_size` and `default_bit` ask for. -/
theorem C07_make_ids (ranges : List (Nat × Nat)) (hr : ∀ r ∈ ranges, r.1 < r.2) (minSize : Nat)
    (defaultBit : Bool) :
    ∃ bm, makeIds ranges minSize defaultBit = some bm
      ∧ ∀ id, bm.get? id = some true ↔
          (∃ r ∈ ranges, r.1 ≤ id ∧ id < r.2)
          ∨ (defaultBit = true ∧ id < minSize ∧ ∀ r ∈ ranges, r.2 ≤ id) := by
  obtain ⟨bm, l, h1, h2, h3⟩ := makeIds_rep ranges hr minSize defaultBit
  refine ⟨bm, h1, fun id => ?_⟩
  obtain ⟨r1, r2, r3⟩ := bitRange_spec h2
  rw [EwahBitmap.get?, getGo_spec _ _ _ (Nat.zero_le _), r1]
  exact h3 id

/-- Overlapping, unordered ranges and padding. -/
example : (∀ r ∈ [(90, 200), (10, 12), (100, 300), (20, 95)], r.1 < r.2)
    ∧ (makeIds [(90, 200), (10, 12), (100, 300), (20, 95)] 310 true).map
        (fun bm => ([10, 12, 96, 299, 305].map bm.get?, bm.size))
      = some ([some true, some false, some true, some true, some true], 310) := by
  refine ⟨by decide, by decide +kernel⟩

/-! ## C08 -/

theorem selectWith_rep {α : Type} (f : α → Nat × Nat) {bm : EwahBitmap} {l : List Bool} (h2 : Represents bm l) {objs : List α}
    (ho : Ascending (objs.map f)) (fails : α → Bool) :
    selectWith f fails bm objs = some (untilFailure fails (objs.filter fun o => hit l (f o))) := by
  obtain ⟨r1, r2, r3⟩ := bitRange_spec h2
  rw [selectWith]
  apply selectWithGo_spec f fails _ _ _ (by omega) ho
  have hs := selectRange_at true r3
  rw [r1] at hs
  rcases hs with ⟨p, hp1, hp2, hp3, hp4⟩ | ⟨hp1, hp2⟩
  · left
    refine ⟨p, hp4, hp2, fun o _ id _ _ h3 => ?_⟩
    apply Nat.le_of_not_lt
    intro hlt
    exact hp3 id (Nat.zero_le _) hlt h3
  · exact Or.inr ⟨hp2, fun o _ id _ _ => hp1 id (Nat.zero_le _)⟩

theorem untilFailure_none {α : Type} (os : List α) : untilFailure (fun _ => false) os = (os, false) := by
  induction os with
  | nil => rfl
  | cons o os ih => simp [untilFailure, ih]

/-- C08. For objects that own ascending disjoint ID intervals and every set of IDs, `select_with`
calls its callback for exactly the objects whose interval contains a selected ID, in order and once
each; if the callback fails for one of them it stops there and reports the failure. -/
theorem C08_select_with {α : Type} (f : α → Nat × Nat) (e : Spec.Expr) (hv : e.valid) (objs : List α)
    (ho : Ascending (objs.map f)) (fails : α → Bool) :
    ∃ bm, e.eval = some bm
      ∧ selectWith f fails bm objs = some (untilFailure fails (objs.filter fun o => hit e.bits (f o))) := by
  obtain ⟨bm, h1, h2⟩ := eval_rep hv
  exact ⟨bm, h1, selectWith_rep f h2 ho fails⟩

/-- In particular, without failing callbacks an object is visited iff its interval contains a
selected ID. -/
theorem C08_visits_exactly {α : Type} (f : α → Nat × Nat) (e : Spec.Expr) (hv : e.valid) (objs : List α) (ho : Ascending (objs.map f)) :
    ∃ bm visited, e.eval = some bm ∧ selectWith f (fun _ => false) bm objs = some (visited, false)
      ∧ visited.Sublist objs
      ∧ ∀ o, o ∈ visited ↔ o ∈ objs ∧ ∃ id, (f o).1 ≤ id ∧ id < (f o).2 ∧ e.bits[id]? = some true := by
  obtain ⟨bm, h1, h2⟩ := C08_select_with f e hv objs ho (fun _ => false)
  rw [untilFailure_none] at h2
  refine ⟨bm, _, h1, h2, List.filter_sublist, fun o => ?_⟩
  rw [List.mem_filter, hit_iff]

/-- Objects with gaps and an empty interval; the ID set hits the first and the fourth. -/
example : let e := Spec.Expr.history [.bits false 5, .bits true 2, .bits false 300, .bit true, .bits false 5]
    let objs := [(0, 10), (10, 20), (20, 20), (300, 310), (400, 500)]
    e.valid ∧ Ascending objs
    ∧ (do selectWith id (fun _ => false) (← e.eval) objs) = some ([(0, 10), (300, 310)], false)
    ∧ (do selectWith id (fun o => o.1 = 0) (← e.eval) objs) = some ([(0, 10)], true) := by
  refine ⟨by simp [Spec.Expr.valid, Op.valid], by simp [Ascending], by decide +kernel, by decide +kernel⟩

end Verif.Bitmap
