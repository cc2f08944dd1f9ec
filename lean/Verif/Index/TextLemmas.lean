import Verif.Index.Text
import Verif.Index.ValueProps

/-!
# Lemmas about the string index
-/

namespace Verif.Index

open Verif.Data (RelOp)
open Spec (Row)

namespace StringIndex

/-- The character at position `i` of a row, after truncation. -/
def cell (m i : Nat) (o : Option (List UInt8)) : Option UInt8 := o.bind fun v => (v.take m)[i]?

theorem cell_none (m i : Nat) : cell m i none = none := rfl

/-- Character index `i` holds its column of characters. -/
structure CharInv (m i : Nat) (c : VectorCoder) (col : List (Option (List UInt8))) : Prop where
  le : c.size ≤ col.length
  rep : KRep .bitslice 8 c ((col.take c.size).map fun o => (cell m i o).map UInt8.toNat)
  rest : ∀ (j : Nat) o, c.size ≤ j → col[j]? = some o → cell m i o = none

/-- The column after an append. -/
def extend (col : List (Option (List UInt8))) (pos : Nat) (v : List UInt8) : List (Option (List UInt8)) :=
  col ++ List.replicate (pos - col.length) none ++ [some v]

theorem extend_length {col : List (Option (List UInt8))} {pos : Nat} {v : List UInt8} (hp : col.length ≤ pos) :
    (extend col pos v).length = pos + 1 := by
  simp [extend]; omega

theorem extend_getElem? {col : List (Option (List UInt8))} {pos : Nat} {v : List UInt8} (hp : col.length ≤ pos) (j : Nat) :
    (extend col pos v)[j]? = if j < col.length then col[j]? else if j < pos then some none
      else if j = pos then some (some v) else none := by
  have hl : (col ++ List.replicate (pos - col.length) (none : Option (List UInt8))).length = pos := by simp; omega
  rw [extend, List.getElem?_append, hl]
  split
  · rw [List.getElem?_append]
    split
    · rfl
    · rw [List.getElem?_replicate, if_pos (by omega)]
  · rw [if_neg (by omega)]
    split
    · next h' => subst h'; simp
    · rw [List.getElem?_eq_none]
      simp; omega

theorem charInv_make (m i : Nat) (col : List (Option (List UInt8))) (h : ∀ (j : Nat) o, col[j]? = some o → cell m i o = none) :
    CharInv m i (VectorCoder.make 8) col := by
  refine ⟨Nat.zero_le _, ?_, fun j o _ hj => h j o hj⟩
  have := kRep_make .bitslice 8
  simpa [VectorCoder.make] using this

theorem charInv_skip {m i : Nat} {c : VectorCoder} {col : List (Option (List UInt8))} (h : CharInv m i c col)
    {pos : Nat} (hp : col.length ≤ pos) {v : List UInt8} (hv : cell m i (some v) = none) :
    CharInv m i c (extend col pos v) := by
  have hle := h.le
  refine ⟨by rw [extend_length hp]; omega, ?_, ?_⟩
  · have : (extend col pos v).take c.size = col.take c.size := by
      rw [extend, List.append_assoc, List.take_append_of_le_length hle]
    rw [this]
    exact h.rep
  · intro j o hj ho
    rw [extend_getElem? hp] at ho
    split at ho
    · exact h.rest j o hj ho
    · split at ho
      · obtain rfl := Option.some.inj ho; rfl
      · split at ho
        · obtain rfl := Option.some.inj ho; exact hv
        · simp at ho

theorem charInv_append {m i : Nat} {c : VectorCoder} {col : List (Option (List UInt8))} (h : CharInv m i c col)
    {pos : Nat} (hp : col.length ≤ pos) {v : List UInt8} {x : UInt8} (hv : cell m i (some v) = some x) :
    CharInv m i (appendChar pos c x) (extend col pos v) := by
  have hle := h.le
  have hs := kRep_skip h.rep (pos - c.size)
  obtain ⟨c', e1, e2⟩ := kRep_encode (k := .bitslice) hs (x := x.toNat) trivial 1
  have e1' : appendChar pos c x = c' := by
    have : some (BitsliceCoder.encode (c.skip (pos - c.size)) x.toNat 1) = some c' := e1
    exact Option.some.inj this
  have hsize : c'.size = pos + 1 := by
    rw [e2.size]
    simp
    omega
  rw [e1']
  refine ⟨by rw [extend_length hp, hsize]; omega, ?_, ?_⟩
  · rw [hsize, List.take_of_length_le (by rw [extend_length hp]; omega)]
    have : (col.take c.size).map (fun o => (cell m i o).map UInt8.toNat) ++ List.replicate (pos - c.size) none ++ List.replicate 1 (some x.toNat)
        = (extend col pos v).map fun o => (cell m i o).map UInt8.toNat := by
      apply List.ext_getElem?
      intro j
      rw [List.getElem?_map, extend_getElem? hp, List.getElem?_append, List.getElem?_append, List.getElem?_map]
      have hl : ((col.take c.size).map (fun o => (cell m i o).map UInt8.toNat)).length = c.size := by simp; omega
      rw [List.length_append, hl, List.length_replicate]
      by_cases h1 : j < c.size
      · rw [if_pos (by omega), if_pos h1, if_pos (by omega), List.getElem?_take_of_lt h1]
      · by_cases h2 : j < pos
        · rw [if_pos (by omega), if_neg h1, List.getElem?_replicate, if_pos (by omega)]
          by_cases h3 : j < col.length
          · rw [if_pos h3, List.getElem?_eq_getElem h3, Option.map_some,
              h.rest j _ (by omega) (List.getElem?_eq_getElem h3)]
            rfl
          · rw [if_neg h3, if_pos h2]
            rfl
        · rw [if_neg (by omega), if_neg (by omega), if_neg h2]
          by_cases h3 : j = pos
          · subst h3
            rw [if_pos rfl]
            have : j - (c.size + (j - c.size)) = 0 := by omega
            rw [this]
            simp [hv]
          · rw [if_neg h3, List.getElem?_eq_none]
            · rfl
            · simp; omega
    rw [← this]
    exact e2
  · intro j o hj ho
    have := lt_of_getElem? ho
    rw [extend_length hp] at this
    omega

theorem bit_of_not_255 : ∀ x : Fin 256, x.val ≠ 255 → ∃ j, j < 8 ∧ x.val.testBit j = false := by decide +kernel

/-- Looking up a character: one bit per row. A row with another character never matches; a row
without a character at this position matches only 0xff. -/
theorem char_equal {m i : Nat} {c : VectorCoder} {col : List (Option (List UInt8))} (h : CharInv m i c col) (x : UInt8) :
    (BitsliceCoder.equal c x.toNat).length ≤ col.length ∧
    ∀ (j : Nat) o, col[j]? = some o →
      (cell m i o = some x → (BitsliceCoder.equal c x.toNat).bit j = true) ∧
      (x ≠ 255 → (BitsliceCoder.equal c x.toNat).bit j = true → cell m i o = some x) := by
  have hle := h.le
  have hx := x.toNat_lt
  obtain ⟨h1, h2, h3⟩ := bitslice_equal h.rep x.toNat
  have hlen : (BitsliceCoder.equal c x.toNat).length = c.size := by rw [h1]; simp; omega
  refine ⟨by omega, ?_⟩
  intro j o hj
  by_cases hjs : j < c.size
  · have hcol : ((col.take c.size).map fun o => (cell m i o).map UInt8.toNat)[j]? = some ((cell m i o).map UInt8.toNat) := by
      rw [List.getElem?_map, List.getElem?_take_of_lt hjs, hj]; rfl
    cases hc : cell m i o with
    | none =>
      refine ⟨by simp, ?_⟩
      intro hne hb
      rw [hc] at hcol
      obtain ⟨k, hk1, hk2⟩ := bit_of_not_255 ⟨x.toNat, hx⟩ (by
        intro he
        apply hne
        apply UInt8.toNat_inj.1
        exact he)
      rw [h3 j k hcol hk1 hk2] at hb
      simp at hb
    | some y =>
      rw [hc] at hcol
      have hb := h2 j _ hcol
      rw [all_testBit y.toNat_lt hx] at hb
      rw [hb]
      constructor
      · intro he; obtain rfl := Option.some.inj he; simp
      · intro _ he
        rw [beq_iff_eq] at he
        rw [UInt8.toNat_inj.1 he]
  · have hb : (BitsliceCoder.equal c x.toNat).bit j = false := Bm.bit_of_ge (by omega)
    rw [hb, h.rest j o (by omega) hj]
    simp

/-! ## The loops -/

/-- All characters match in row `j`. -/
def allB (cs : List VectorCoder) (xs : List UInt8) (j : Nat) : Bool :=
  (List.zipWith (fun c (x : UInt8) => (BitsliceCoder.equal c x.toNat).bit j) cs xs).all id

theorem bit_of_all {b : Bm} (h : b.all (!·) = true) (j : Nat) : b.bit j = false := by
  by_cases hj : j < b.length
  · have := List.all_eq_true.1 h (b.bit j) (List.mem_of_getElem? (Bm.getElem?_of_bit hj))
    simpa using this
  · exact Bm.bit_of_ge (by omega)

theorem equalLoop_spec (L : Nat) (cs : List VectorCoder) : ∀ (xs : List UInt8) (b : Bm), xs.length ≤ cs.length →
    (∀ c ∈ cs, ∀ x : UInt8, (BitsliceCoder.equal c x.toNat).length ≤ L) → b.length = L →
    (equalLoop cs xs b = none ∧ ∀ j, (b.bit j && allB cs xs j) = false) ∨
    (∃ r, equalLoop cs xs b = some r ∧ r.length = L ∧ ∀ j, r.bit j = (b.bit j && allB cs xs j)) := by
  induction cs with
  | nil =>
    intro xs b hx _ hb
    have : xs = [] := List.length_eq_zero_iff.1 (by simpa using hx)
    subst this
    exact Or.inr ⟨b, rfl, hb, by simp [allB]⟩
  | cons c cs ih =>
    intro xs b hx hc hb
    cases xs with
    | nil => exact Or.inr ⟨b, rfl, hb, by simp [allB]⟩
    | cons x xs =>
      have e : ∀ j, allB (c :: cs) (x :: xs) j = ((BitsliceCoder.equal c x.toNat).bit j && allB cs xs j) := by
        intro j; simp [allB]
      rw [equalLoop]
      split
      · next hall =>
        refine Or.inl ⟨rfl, ?_⟩
        intro j
        have := bit_of_all hall j
        rw [Bm.bit_and] at this
        rw [e, ← Bool.and_assoc, this, Bool.false_and]
      · have hl : (b.and (BitsliceCoder.equal c x.toNat)).length = L := by
          have := hc c (by simp) x
          rw [Bm.and_length]; omega
        rcases ih xs (b.and (BitsliceCoder.equal c x.toNat)) (by simpa using hx) (fun d hd => hc d (by simp [hd])) hl with
          ⟨h1, h2⟩ | ⟨r, h1, h2, h3⟩
        · refine Or.inl ⟨h1, ?_⟩
          intro j
          rw [e, ← Bool.and_assoc, ← Bm.bit_and]; exact h2 j
        · refine Or.inr ⟨r, h1, h2, ?_⟩
          intro j
          rw [h3, e, Bm.bit_and, Bool.and_assoc]

theorem substrLoop_spec (L : Nat) (cs : List VectorCoder) : ∀ (xs : List UInt8) (b : Bm), xs.length ≤ cs.length →
    (∀ c ∈ cs, ∀ x : UInt8, (BitsliceCoder.equal c x.toNat).length ≤ L) → b.length = L →
    (substrLoop cs xs b = none ∧ ∀ j, allB cs xs j = false) ∨
    (∃ r, substrLoop cs xs b = some r ∧ r.length = L ∧ ∀ j, r.bit j = (b.bit j && allB cs xs j)) := by
  induction cs with
  | nil =>
    intro xs b hx _ hb
    have : xs = [] := List.length_eq_zero_iff.1 (by simpa using hx)
    subst this
    exact Or.inr ⟨b, rfl, hb, by simp [allB]⟩
  | cons c cs ih =>
    intro xs b hx hc hb
    cases xs with
    | nil => exact Or.inr ⟨b, rfl, hb, by simp [allB]⟩
    | cons x xs =>
      have e : ∀ j, allB (c :: cs) (x :: xs) j = ((BitsliceCoder.equal c x.toNat).bit j && allB cs xs j) := by
        intro j; simp [allB]
      rw [substrLoop]
      split
      · next hall =>
        refine Or.inl ⟨rfl, ?_⟩
        intro j
        rw [e, bit_of_all hall j, Bool.false_and]
      · have hl : (b.and (BitsliceCoder.equal c x.toNat)).length = L := by
          have := hc c (by simp) x
          rw [Bm.and_length]; omega
        rcases ih xs (b.and (BitsliceCoder.equal c x.toNat)) (by simpa using hx) (fun d hd => hc d (by simp [hd])) hl with
          ⟨h1, h2⟩ | ⟨r, h1, h2, h3⟩
        · refine Or.inl ⟨h1, ?_⟩
          intro j
          rw [e, h2, Bool.and_false]
        · refine Or.inr ⟨r, h1, h2, ?_⟩
          intro j
          rw [h3, e, Bm.bit_and, Bool.and_assoc]

theorem niLoop_spec (L : Nat) (xs : List UInt8) (hx : 0 < xs.length) : ∀ (n : Nat) (cs : List VectorCoder) (b : Bm), n + xs.length ≤ cs.length + 1 →
    (∀ c ∈ cs, ∀ x : UInt8, (BitsliceCoder.equal c x.toNat).length ≤ L) → b.length = L →
    (niLoop L xs n cs b).length = L ∧
    ∀ j, j < L → (niLoop L xs n cs b).bit j = (b.bit j || (List.range n).any fun k => allB (cs.drop k) xs j) := by
  intro n
  induction n with
  | zero => intro cs b _ _ hb; exact ⟨hb, by simp [niLoop]⟩
  | succ n ih =>
    intro cs b hn hc hb
    rw [niLoop]
    have hstep : ∃ b' : Bm, niStep L xs cs b = b' ∧ b'.length = L ∧ ∀ j, j < L → b'.bit j = (b.bit j || allB cs xs j) := by
      rcases substrLoop_spec L cs xs (Bm.fill L true) (by omega) hc (by simp) with ⟨h1, h2⟩ | ⟨r, h1, h2, h3⟩
      · exact ⟨b, by rw [niStep, h1], hb, by intro j _; rw [h2, Bool.or_false]⟩
      · refine ⟨b.or r, by rw [niStep, h1], by rw [Bm.or_length]; omega, ?_⟩
        intro j hj
        rw [Bm.bit_or, h3, Bm.bit_fill]
        simp [hj]
    obtain ⟨b', e, hl, hb'⟩ := hstep
    rw [e]
    obtain ⟨i1, i2⟩ := ih cs.tail b' (by rw [List.length_tail]; omega) (fun c hc' => hc c (List.mem_of_mem_tail hc')) hl
    refine ⟨i1, ?_⟩
    intro j hj
    rw [i2 j hj, hb' j hj, Bool.or_assoc]
    congr 1
    rw [List.range_succ_eq_map, List.any_cons, List.any_map]
    congr 1
    congr 1
    funext k
    cases cs <;> simp

end StringIndex

end Verif.Index
