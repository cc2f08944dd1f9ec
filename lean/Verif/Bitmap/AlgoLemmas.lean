import Verif.Bitmap.AlgoSpec
import Verif.Bitmap.EwahOps

/-!
# Lemmas for the bitmap algorithms
-/

namespace Verif.Bitmap

open Spec

/-! ## Sequences -/

/-- What `operator[]` needs: a sequence longer than a word is homogeneous. -/
def Bits.Good (b : Bits) : Prop := 64 < b.size → b.data = Word.none ∨ b.data = Word.all

theorem Bits.Valid.good {b : Bits} (h : b.Valid) : b.Good := h.2.1

theorem good_fill {w : Word} (h : w = Word.none ∨ w = Word.all) : w = fillWord (w != 0#64) := by
  rcases h with h | h <;> subst h <;> decide

@[simp] theorem toList_length (b : Bits) : b.toList.length = b.size := by simp [Bits.toList]

theorem toList_of_run {b : Bits} (h : 64 < b.size) : b.toList = List.replicate b.size (b.data != 0#64) := by
  rw [Bits.toList]
  apply List.ext_getElem?
  intro i
  rw [List.getElem?_map, List.getElem?_replicate]
  split
  · next hi =>
    rw [List.getElem?_range hi]
    have : b.isRun = true := by simp [Bits.isRun]; omega
    simp [Bits.get, this]
  · next hi => rw [List.getElem?_eq_none (by simpa using hi)]; rfl

/-- Up to a word's worth of a sequence is read off its data block. -/
theorem take_toList {b : Bits} (hg : b.Good) {n : Nat} (h1 : n ≤ b.size) (h2 : n ≤ 64) :
    b.toList.take n = wbits n b.data := by
  by_cases hr : 64 < b.size
  · have hf := good_fill (hg hr)
    rw [toList_of_run hr, List.take_replicate, Nat.min_eq_left h1, hf, wbits_fillWord h2, fillWord_ne_zero]
  · rw [toList_small (by omega)]
    apply list_ext_wbits
    · simp; omega
    · intro i hi
      rw [List.getElem?_take_of_lt hi, wbits_getElem?, if_pos (by omega)]

theorem toList_empty : Bits.empty.toList = [] := rfl

theorem toList_mk'_run {w : Word} {n : Nat} (h : w = Word.none ∨ w = Word.all) :
    (Bits.mk' w n).toList = List.replicate n (w != 0#64) := toList_run _ (good_fill h)

theorem drop_toList {b : Bits} (hg : b.Good) (n : Nat) : (b.drop n).toList = b.toList.drop n := by
  rw [Bits.drop]
  split
  · next hn =>
    rw [Bits.slice]
    by_cases hr : 64 < b.size
    · have hrun : b.isRun = true := by simp [Bits.isRun]; omega
      rw [hrun, if_pos rfl, toList_mk'_run (hg hr), toList_of_run hr, List.drop_replicate]
    · have hrun : b.isRun = false := by simp [Bits.isRun]; omega
      rw [hrun, if_neg (by simp), toList_mk' (by omega), toList_small (by omega)]
      symm
      apply list_ext_wbits (by simp)
      intro i hi
      rw [List.getElem?_drop, wbits_getElem?, if_pos (by omega), BitVec.getLsbD_ushiftRight]
  · next hn =>
    rw [toList_empty, List.drop_eq_nil_of_le (by simp; omega)]

/-- Valid or empty. -/
def Bits.Valid0 (b : Bits) : Prop := b.size = 0 ∨ b.Valid

theorem Bits.Valid0.good {b : Bits} (h : b.Valid0) : b.Good := by
  rcases h with h | h
  · intro h'; omega
  · exact h.good

theorem drop_valid0 {b : Bits} (hg : b.Good) (n : Nat) : (b.drop n).Valid0 := by
  rw [Bits.drop]
  split
  · next hn =>
    rw [Bits.slice]
    refine Or.inr (Bits.valid_mk' (by omega) ?_)
    intro h
    have hrun : b.isRun = true := by simp [Bits.isRun]; omega
    rw [hrun, if_pos rfl]
    exact hg (by omega)
  · exact Or.inl rfl

/-! ## Appending sequences -/

theorem append_rep {s : EwahBitmap} {l : List Bool} (h : Represents s l) {b : Bits} (hb : b.Good) :
    ∃ s', s.append b = some s' ∧ Represents s' (l ++ b.toList) := by
  rw [EwahBitmap.append]
  by_cases hr : 64 < b.size
  · have hrun : b.isRun = true := by simp [Bits.isRun]; omega
    rw [if_pos hrun, toList_of_run hr]
    exact appendBits_rep h _ _
  · have hrun : b.isRun = false := by simp [Bits.isRun]; omega
    rw [if_neg (by simp [hrun])]
    split
    · next h0 =>
      rw [toList_small (by omega)]
      exact appendBlock_rep h _ (by omega) (by omega)
    · next h0 =>
      have : b.toList = [] := by
        apply List.eq_nil_of_length_eq_zero; simp; omega
      exact ⟨s, rfl, by simpa [this] using h⟩

theorem appendAll_rep : ∀ {bs : List Bits}, (∀ b ∈ bs, b.Good) → ∀ {s : EwahBitmap} {l : List Bool},
    Represents s l → ∃ s', s.appendAll bs = some s' ∧ Represents s' (l ++ concat bs)
  | [], _, s, l, h => ⟨s, rfl, by simpa [concat] using h⟩
  | b :: bs, hb, s, l, h => by
    obtain ⟨s1, h1, h2⟩ := append_rep h (hb b (by simp))
    obtain ⟨s2, h3, h4⟩ := appendAll_rep (bs := bs) (fun b' hb' => hb b' (by simp [hb'])) h2
    refine ⟨s2, ?_, ?_⟩
    · rw [EwahBitmap.appendAll, List.foldlM_cons, h1]; exact h3
    · rw [concat, List.flatMap_cons, ← List.append_assoc]; exact h4

/-! ## Binary evaluation -/

/-- The booleans left in an operand. -/
def Cursor.toList (c : Cursor) : List Bool := c.bits.toList ++ concat c.rest

/-- The current sequence is exhausted only at the end. -/
def Cursor.Ok (c : Cursor) : Prop :=
  c.bits.Valid0 ∧ (∀ b ∈ c.rest, b.Valid) ∧ (c.bits.size = 0 → c.rest = [])

theorem Cursor.refill_toList (c : Cursor) : c.refill.toList = c.toList := by
  rw [Cursor.refill]
  split
  · next h =>
    have h0 : c.bits.toList = [] := List.eq_nil_of_length_eq_zero (by simpa using h)
    split
    · rfl
    · next b bs hb => simp [Cursor.toList, hb, h0, concat]
  · rfl

theorem Cursor.refill_ok {c : Cursor} (h1 : c.bits.Valid0) (h2 : ∀ b ∈ c.rest, b.Valid) : c.refill.Ok := by
  rw [Cursor.refill]
  split
  · next h =>
    split
    · next hb => exact ⟨h1, h2, fun _ => hb⟩
    · next b bs hb =>
      have hv := h2 b (by simp [hb])
      refine ⟨Or.inr hv, fun b' hb' => h2 b' (by simp [hb, hb']), fun h0 => ?_⟩
      have := hv.1
      simp only at h0
      omega
  · next h => exact ⟨h1, h2, fun h0 => absurd h0 h⟩

theorem Cursor.ofRange_ok {bs : List Bits} (h : ∀ b ∈ bs, b.Valid) : (Cursor.ofRange bs).Ok := by
  cases bs with
  | nil => exact ⟨Or.inl rfl, by simp [Cursor.ofRange], fun _ => rfl⟩
  | cons b bs =>
    have hv := h b (by simp)
    refine ⟨Or.inr hv, fun b' hb' => h b' (by simp [Cursor.ofRange] at hb'; simp [hb']), fun h0 => ?_⟩
    have := hv.1
    simp only [Cursor.ofRange] at h0
    omega

theorem Cursor.ofRange_toList (bs : List Bits) : (Cursor.ofRange bs).toList = concat bs := by
  cases bs <;> simp [Cursor.ofRange, Cursor.toList, concat, toList_empty]

theorem Cursor.remaining_toList (c : Cursor) : concat c.remaining = c.toList := by
  rw [Cursor.remaining, Cursor.toList]
  split
  · next h =>
    have h0 : c.bits.toList = [] := List.eq_nil_of_length_eq_zero (by simpa using h)
    simp [h0]
  · simp [concat]

theorem Cursor.remaining_good {c : Cursor} (h : c.Ok) : ∀ b ∈ c.remaining, b.Good := by
  intro b hb
  rw [Cursor.remaining] at hb
  rcases List.mem_append.1 hb with hb | hb
  · split at hb
    · simp at hb
    · rw [List.mem_singleton.1 hb]; exact h.1.good
  · exact (h.2.1 b hb).good

/-- A word operation that acts bit by bit as `f`. -/
def Bitwise (op : Word → Word → Word) (f : Bool → Bool → Bool) : Prop :=
  ∀ x y i, i < 64 → (op x y).getLsbD i = f (x.getLsbD i) (y.getLsbD i)

theorem Bitwise.fill {op : Word → Word → Word} {f : Bool → Bool → Bool} (h : Bitwise op f) (a b : Bool) :
    op (fillWord a) (fillWord b) = fillWord (f a b) := by
  apply BitVec.eq_of_getLsbD_eq
  intro i hi
  rw [h _ _ i hi, fillWord_getLsbD _ hi, fillWord_getLsbD _ hi, fillWord_getLsbD _ hi]

theorem Bitwise.wbits {op : Word → Word → Word} {f : Bool → Bool → Bool} (h : Bitwise op f) (x y : Word)
    {n : Nat} (hn : n ≤ 64) : wbits n (op x y) = List.zipWith f (Bitmap.wbits n x) (Bitmap.wbits n y) := by
  symm
  apply list_ext_wbits (by simp)
  intro i hi
  rw [List.getElem?_zipWith, wbits_getElem?, wbits_getElem?, if_pos hi, if_pos hi, h x y i (by omega)]

theorem evalStep_spec {op : Word → Word → Word} {f : Bool → Bool → Bool} (hop : Bitwise op f) {l r : Bits}
    (hl : l.Good) (hr : r.Good) (hl0 : l.size ≠ 0) (hr0 : r.size ≠ 0) :
    ∃ n, 1 ≤ n ∧ n ≤ l.size ∧ n ≤ r.size
      ∧ (evalStep op l r).1.toList = List.zipWith f (l.toList.take n) (r.toList.take n)
      ∧ (evalStep op l r).1.Good
      ∧ (evalStep op l r).2.1.toList = l.toList.drop n ∧ (evalStep op l r).2.1.Valid0
      ∧ (evalStep op l r).2.2.toList = r.toList.drop n ∧ (evalStep op l r).2.2.Valid0 := by
  have hlr : l.isRun = decide (64 < l.size) := rfl
  have hrr : r.isRun = decide (64 < r.size) := rfl
  have hsmall : ∀ n, n ≤ l.size → n ≤ r.size → n ≤ 64 →
      (Bits.mk' (op l.data r.data) n).toList = List.zipWith f (l.toList.take n) (r.toList.take n) := by
    intro n h1 h2 h3
    rw [toList_mk' h3, hop.wbits _ _ h3, take_toList hl h1 h3, take_toList hr h2 h3]
  simp only [evalStep]
  by_cases h1 : 64 < l.size
  · by_cases h2 : 64 < r.size
    · refine ⟨min l.size r.size, by omega, by omega, by omega, ?_⟩
      simp only [hlr, hrr, h1, h2, decide_true, Bool.not_true, Bool.and_false, Bool.false_and,
        Bool.false_eq_true, if_false]
      have hfl := good_fill (hl h1)
      have hfr := good_fill (hr h2)
      have hres : op l.data r.data = fillWord (f (l.data != 0#64) (r.data != 0#64)) := by
        rw [hfl, hfr, hop.fill, fillWord_ne_zero, fillWord_ne_zero]
      refine ⟨?_, ?_, drop_toList hl _, drop_valid0 hl _, drop_toList hr _, drop_valid0 hr _⟩
      · rw [toList_run _ hres, toList_of_run h1, toList_of_run h2, List.take_replicate, List.take_replicate,
          List.zipWith_replicate]
        congr 1; omega
      · intro h
        have h : 64 < min l.size r.size := h
        simp only [Bits.mk', if_neg (show ¬ min l.size r.size < 64 by omega), hres]
        exact fillWord_cases _
    · refine ⟨r.size, by omega, by omega, by omega, ?_⟩
      simp only [hlr, hrr, h1, h2, decide_true, decide_false, Bool.not_false, Bool.and_true, if_true]
      refine ⟨hsmall _ (by omega) (by omega) (by omega), fun h => absurd h h2, drop_toList hl _, drop_valid0 hl _, ?_, Or.inl rfl⟩
      rw [toList_empty, List.drop_eq_nil_of_le (by simp)]
  · by_cases h2 : 64 < r.size
    · refine ⟨l.size, by omega, by omega, by omega, ?_⟩
      simp only [hlr, hrr, h1, h2, decide_true, decide_false, Bool.not_false, Bool.not_true, Bool.and_true,
        Bool.false_and, Bool.false_eq_true, if_false, if_true]
      refine ⟨hsmall _ (by omega) (by omega) (by omega), fun h => absurd h h1, ?_, Or.inl rfl, drop_toList hr _, drop_valid0 hr _⟩
      rw [toList_empty, List.drop_eq_nil_of_le (by simp)]
    · refine ⟨min l.size r.size, by omega, by omega, by omega, ?_⟩
      simp only [hlr, hrr, h1, h2, decide_false, Bool.not_false, Bool.and_true, Bool.and_false,
        Bool.false_eq_true, if_false]
      refine ⟨hsmall _ (by omega) (by omega) (by omega), fun h => ?_, drop_toList hl _, drop_valid0 hl _, drop_toList hr _, drop_valid0 hr _⟩
      have h : 64 < min l.size r.size := h
      omega

theorem evalLoop_spec {op : Word → Word → Word} {f : Bool → Bool → Bool} (hop : Bitwise op f) :
    ∀ (m : Nat) (l r : Cursor), l.left = m → l.Ok → r.Ok →
      concat (evalLoop op l r).1 = List.zipWith f l.toList r.toList
      ∧ (∀ b ∈ (evalLoop op l r).1, b.Good)
      ∧ (evalLoop op l r).2.1.toList = l.toList.drop r.toList.length ∧ (evalLoop op l r).2.1.Ok
      ∧ (evalLoop op l r).2.2.toList = r.toList.drop l.toList.length ∧ (evalLoop op l r).2.2.Ok := by
  intro m
  induction m using Nat.strongRecOn with
  | _ m ih =>
    intro l r hm hl hr
    rw [evalLoop]
    split
    · next h =>
      obtain ⟨n, hn1, hn2, hn3, s1, s2, s3, s4, s5, s6⟩ := evalStep_spec hop hl.1.good hr.1.good h.1 h.2
      have hlt := evalStep_size op l.bits r.bits h.1 h.2
      have hl' := Cursor.refill_ok (c := ⟨(evalStep op l.bits r.bits).2.1, l.rest⟩) s4 hl.2.1
      have hr' := Cursor.refill_ok (c := ⟨(evalStep op l.bits r.bits).2.2, r.rest⟩) s6 hr.2.1
      have hi := ih _ (by rw [Cursor.refill_left]; simp only [Cursor.left] at hm ⊢; omega)
        (Cursor.refill ⟨(evalStep op l.bits r.bits).2.1, l.rest⟩)
        (Cursor.refill ⟨(evalStep op l.bits r.bits).2.2, r.rest⟩) rfl hl' hr'
      rw [Cursor.refill_toList, Cursor.refill_toList] at hi
      have hlt1 : Cursor.toList ⟨(evalStep op l.bits r.bits).2.1, l.rest⟩ = l.toList.drop n := by
        simp only [Cursor.toList, s3]
        rw [List.drop_append_of_le_length (by simp; omega)]
      have hrt1 : Cursor.toList ⟨(evalStep op l.bits r.bits).2.2, r.rest⟩ = r.toList.drop n := by
        simp only [Cursor.toList, s5]
        rw [List.drop_append_of_le_length (by simp; omega)]
      rw [hlt1, hrt1] at hi
      obtain ⟨i1, i2, i3, i4, i5, i6⟩ := hi
      have hll : n ≤ l.toList.length := by simp [Cursor.toList]; omega
      have hrl : n ≤ r.toList.length := by simp [Cursor.toList]; omega
      have hlt2 : l.bits.toList.take n = l.toList.take n := by
        rw [Cursor.toList, List.take_append_of_le_length (by simp; omega)]
      have hrt2 : r.bits.toList.take n = r.toList.take n := by
        rw [Cursor.toList, List.take_append_of_le_length (by simp; omega)]
      simp only
      refine ⟨?_, ?_, ?_, i4, ?_, i6⟩
      · rw [concat, List.flatMap_cons]
        rw [concat] at i1
        rw [i1, s1, hlt2, hrt2]
        conv => rhs; rw [← List.take_append_drop n l.toList, ← List.take_append_drop n r.toList]
        rw [List.zipWith_append (by simp; omega)]
      · intro b hb
        rcases List.mem_cons.1 hb with hb | hb
        · subst hb; exact s2
        · exact i2 b hb
      · rw [i3, List.drop_drop]; congr 1; simp; omega
      · rw [i5, List.drop_drop]; congr 1; simp; omega
    · next h =>
      have hor : l.bits.size = 0 ∨ r.bits.size = 0 := by omega
      have hnil : l.toList = [] ∨ r.toList = [] := by
        rcases hor with h0 | h0
        · left
          have h1 : l.bits.toList = [] := List.eq_nil_of_length_eq_zero (by simpa using h0)
          simp [Cursor.toList, h1, hl.2.2 h0, concat]
        · right
          have h1 : r.bits.toList = [] := List.eq_nil_of_length_eq_zero (by simpa using h0)
          simp [Cursor.toList, h1, hr.2.2 h0, concat]
      rcases hnil with h0 | h0 <;> simp [h0, concat, hl, hr]

theorem binaryEval_rep {op : Word → Word → Word} {f : Bool → Bool → Bool} (hop : Bitwise op f)
    (fl fr : Bool) {x y : EwahBitmap} {a b : List Bool} (hx : Represents x a) (hy : Represents y b) :
    ∃ z, binaryEval fl fr op x y = some z
      ∧ Represents z (List.zipWith f a b
          ++ ((if fl then a.drop b.length else List.replicate (a.length - b.length) false)
          ++ (if fr then b.drop a.length else List.replicate (b.length - a.length) false))) := by
  obtain ⟨x1, x2, x3⟩ := bitRange_spec hx
  obtain ⟨y1, y2, y3⟩ := bitRange_spec hy
  obtain ⟨e1, e2, e3, e4, e5, e6⟩ := evalLoop_spec hop _ (Cursor.ofRange x.bitRange) (Cursor.ofRange y.bitRange) rfl
    (Cursor.ofRange_ok x3) (Cursor.ofRange_ok y3)
  rw [Cursor.ofRange_toList, Cursor.ofRange_toList, x1, y1] at e1 e3 e5
  simp only [binaryEval]
  generalize evalLoop op (Cursor.ofRange x.bitRange) (Cursor.ofRange y.bitRange) = res at *
  have hgood : ∀ bb ∈ res.1 ++ (if fl then res.2.1.remaining else []) ++ (if fr then res.2.2.remaining else []), bb.Good := by
    intro bb hb
    rcases List.mem_append.1 hb with hb | hb
    · rcases List.mem_append.1 hb with hb | hb
      · exact e2 bb hb
      · split at hb
        · exact Cursor.remaining_good e4 bb hb
        · simp at hb
    · split at hb
      · exact Cursor.remaining_good e6 bb hb
      · simp at hb
  obtain ⟨s, hs1, hs2⟩ := appendAll_rep hgood (s := {}) (l := []) (Or.inl ⟨rfl, rfl⟩)
  have hcat : concat (res.1 ++ (if fl then res.2.1.remaining else []) ++ (if fr then res.2.2.remaining else []))
      = List.zipWith f a b ++ (if fl then a.drop b.length else []) ++ (if fr then b.drop a.length else []) := by
    rw [concat, List.flatMap_append, List.flatMap_append]
    have r1 := Cursor.remaining_toList res.2.1
    have r2 := Cursor.remaining_toList res.2.2
    rw [concat] at e1 r1 r2
    rw [e1]
    cases fl <;> cases fr <;> simp [r1, r2, e3, e5]
  rw [List.nil_append, hcat] at hs2
  rw [hs1]
  simp only [Option.bind_eq_bind, Option.bind_some]
  have hsz : s.size = (List.zipWith f a b ++ (if fl then a.drop b.length else []) ++ (if fr then b.drop a.length else [])).length :=
    (bitRange_spec hs2).2.1
  have hxs : x.size = a.length := x2
  have hys : y.size = b.length := y2
  have hle : max x.size y.size ≥ s.size := by
    rw [hsz, hxs, hys]
    cases fl <;> cases fr <;> simp <;> omega
  rw [if_pos hle]
  obtain ⟨z, hz1, hz2⟩ := appendBits_rep hs2 false (max x.size y.size - s.size)
  refine ⟨z, hz1, ?_⟩
  have : List.zipWith f a b ++ (if fl then a.drop b.length else []) ++ (if fr then b.drop a.length else [])
        ++ List.replicate (max x.size y.size - s.size) false
      = (List.zipWith f a b
          ++ ((if fl then a.drop b.length else List.replicate (a.length - b.length) false)
          ++ (if fr then b.drop a.length else List.replicate (b.length - a.length) false))) := by
    rw [hsz, hxs, hys]
    have hz : (List.zipWith f a b).length = min a.length b.length := by simp
    by_cases hab : a.length ≤ b.length
    · have ha : a.drop b.length = [] := List.drop_eq_nil_of_le hab
      have h2 : a.length - b.length = 0 := by omega
      cases fl <;> cases fr <;> simp [ha, h2] <;> omega
    · have hb : b.drop a.length = [] := List.drop_eq_nil_of_le (by omega)
      have h2 : b.length - a.length = 0 := by omega
      cases fl <;> cases fr <;> simp [hb, h2] <;> omega
  rw [← this]
  exact hz2

/-- The result of `binary_eval` position by position. -/
theorem eval_pointwise {f : Bool → Bool → Bool} {fl fr : Bool}
    (h0 : f false false = false)
    (hl : ∀ p, f p false = if fl then p else false) (hr : ∀ p, f false p = if fr then p else false)
    (a b : List Bool) :
    List.zipWith f a b
          ++ ((if fl then a.drop b.length else List.replicate (a.length - b.length) false)
          ++ (if fr then b.drop a.length else List.replicate (b.length - a.length) false))
      = pointwise f a b := by
  apply List.ext_getElem?
  intro i
  have hp : (pointwise f a b)[i]? = if i < max a.length b.length then some (f (a.getD i false) (b.getD i false)) else none := by
    rw [pointwise, List.getElem?_map]
    split
    · next h => rw [List.getElem?_range h]; rfl
    · next h => rw [List.getElem?_eq_none (by simpa using h)]; rfl
  rw [hp, List.getElem?_append]
  simp only [List.length_zipWith]
  by_cases h1 : i < min a.length b.length
  · rw [if_pos h1, if_pos (by omega), List.getElem?_zipWith]
    have ha : i < a.length := by omega
    have hb : i < b.length := by omega
    simp [List.getD, ha, hb]
  · rw [if_neg h1]
    by_cases hab : a.length ≤ b.length
    · have e1 : (if fl then a.drop b.length else List.replicate (a.length - b.length) false) = [] := by
        cases fl
        · simp; omega
        · simpa using hab
      rw [e1, List.nil_append]
      by_cases h2 : i < b.length
      · rw [if_pos (show i < max a.length b.length by omega)]
        have ha : a[i]? = none := List.getElem?_eq_none (by omega)
        have hb : b[i]? = some b[i] := List.getElem?_eq_getElem h2
        simp only [List.getD, ha, hb, Option.getD_none, Option.getD_some]
        rw [hr]
        cases fr
        · simp only [Bool.false_eq_true, if_false]; rw [List.getElem?_replicate, if_pos (by omega)]
        · simp only [if_true, List.getElem?_drop]
          rw [show a.length + (i - min a.length b.length) = i by omega, hb]
      · rw [if_neg (show ¬ i < max a.length b.length by omega)]
        apply List.getElem?_eq_none
        cases fr <;> simp <;> omega
    · have e1 : (if fr then b.drop a.length else List.replicate (b.length - a.length) false) = [] := by
        cases fr
        · simp; omega
        · simp; omega
      rw [e1, List.append_nil]
      by_cases h2 : i < a.length
      · rw [if_pos (show i < max a.length b.length by omega)]
        have hb : b[i]? = none := List.getElem?_eq_none (by omega)
        have ha : a[i]? = some a[i] := List.getElem?_eq_getElem h2
        simp only [List.getD, ha, hb, Option.getD_none, Option.getD_some]
        rw [hl]
        cases fl
        · simp only [Bool.false_eq_true, if_false]; rw [List.getElem?_replicate, if_pos (by omega)]
        · simp only [if_true, List.getElem?_drop]
          rw [show b.length + (i - min a.length b.length) = i by omega, ha]
      · rw [if_neg (show ¬ i < max a.length b.length by omega)]
        apply List.getElem?_eq_none
        cases fl <;> simp <;> omega

section
variable {x y : EwahBitmap} {a b : List Bool} (hx : Represents x a) (hy : Represents y b)
include hx hy

theorem binaryAnd_rep : ∃ z, binaryAnd x y = some z ∧ Represents z (pointwise (· && ·) a b) := by
  obtain ⟨z, h1, h2⟩ := binaryEval_rep (op := fun x y => x &&& y) (f := (· && ·))
    (fun _ _ _ _ => BitVec.getLsbD_and) false false hx hy
  exact ⟨z, h1, by rw [eval_pointwise rfl (by simp) (by simp)] at h2; exact h2⟩

theorem binaryOr_rep : ∃ z, binaryOr x y = some z ∧ Represents z (pointwise (· || ·) a b) := by
  obtain ⟨z, h1, h2⟩ := binaryEval_rep (op := fun x y => x ||| y) (f := (· || ·))
    (fun _ _ _ _ => BitVec.getLsbD_or) true true hx hy
  exact ⟨z, h1, by rw [eval_pointwise rfl (by simp) (by simp)] at h2; exact h2⟩

theorem binaryXor_rep : ∃ z, binaryXor x y = some z ∧ Represents z (pointwise Bool.xor a b) := by
  obtain ⟨z, h1, h2⟩ := binaryEval_rep (op := fun x y => x ^^^ y) (f := Bool.xor)
    (fun _ _ _ _ => BitVec.getLsbD_xor) true true hx hy
  exact ⟨z, h1, by rw [eval_pointwise rfl (by simp) (by simp)] at h2; exact h2⟩

theorem binaryNand_rep : ∃ z, binaryNand x y = some z ∧ Represents z (pointwise (fun p q => p && !q) a b) := by
  obtain ⟨z, h1, h2⟩ := binaryEval_rep (op := fun x y => x &&& ~~~y) (f := fun p q => p && !q)
    (fun x y i hi => by rw [BitVec.getLsbD_and, BitVec.getLsbD_not]; simp [hi]) true false hx hy
  exact ⟨z, h1, by rw [eval_pointwise rfl (by simp) (by simp)] at h2; exact h2⟩

end

theorem eval_rep : ∀ {e : Expr}, e.valid → ∃ bm, e.eval = some bm ∧ Represents bm e.bits
  | .history ops, h => run_rep h
  | .and x y, h => by
    obtain ⟨a, ha1, ha2⟩ := eval_rep h.1
    obtain ⟨b, hb1, hb2⟩ := eval_rep h.2
    simp only [Expr.eval, ha1, hb1, Option.bind_eq_bind, Option.bind_some]
    exact binaryAnd_rep ha2 hb2
  | .or x y, h => by
    obtain ⟨a, ha1, ha2⟩ := eval_rep h.1
    obtain ⟨b, hb1, hb2⟩ := eval_rep h.2
    simp only [Expr.eval, ha1, hb1, Option.bind_eq_bind, Option.bind_some]
    exact binaryOr_rep ha2 hb2
  | .xor x y, h => by
    obtain ⟨a, ha1, ha2⟩ := eval_rep h.1
    obtain ⟨b, hb1, hb2⟩ := eval_rep h.2
    simp only [Expr.eval, ha1, hb1, Option.bind_eq_bind, Option.bind_some]
    exact binaryXor_rep ha2 hb2
  | .diff x y, h => by
    obtain ⟨a, ha1, ha2⟩ := eval_rep h.1
    obtain ⟨b, hb1, hb2⟩ := eval_rep h.2
    simp only [Expr.eval, ha1, hb1, Option.bind_eq_bind, Option.bind_some]
    exact binaryNand_rep ha2 hb2
  | .not x, h => by
    obtain ⟨a, ha1, ha2⟩ := eval_rep (e := x) h
    simp only [Expr.eval, ha1, Option.bind_eq_bind, Option.bind_some]
    exact flip_rep ha2

end Verif.Bitmap
