import Verif.Index.Coder
import Verif.Index.CoderSpec

/-! # Lemmas about the coders -/

namespace Verif.Index

open Verif.Data (RelOp)
open Spec (Hist)

namespace Kind

/-- The bit a coder reads past the end of a stored bitmap. -/
def padBit : Kind → Bool
  | .range => true
  | _ => false

/-- The bit of bitmap `j` for a row. -/
def rowBit : Kind → Nat → Option Nat → Bool
  | .equality, j, v => v == some j
  | .range, j, some v => decide (v ≤ j)
  | .range, _, none => true
  | .bitslice, j, some v => !v.testBit j
  | .bitslice, _, none => false

/-- The values a coder with `n` bitmaps accepts. -/
def accepts : Kind → Nat → Nat → Prop
  | .equality, n, x => x < n
  | .range, n, x => x ≤ n
  | .bitslice, _, _ => True

end Kind

/-- A coder with `n` bitmaps holds a column. -/
structure KRep (k : Kind) (n : Nat) (c : VectorCoder) (col : List (Option Nat)) : Prop where
  size : c.size = col.length
  count : c.bitmaps.length = n
  le : ∀ (j : Nat) b, c.bitmaps[j]? = some b → b.length ≤ c.size
  pad : ∀ (j : Nat) b, c.bitmaps[j]? = some b → c.padded k.padBit b = col.map (k.rowBit j)
  full : k = .bitslice → ∀ (j : Nat) b, c.bitmaps[j]? = some b → ∀ (i v : Nat), col[i]? = some (some v) → i < b.length

theorem padded_length {c : VectorCoder} {x : Bool} {b : Bm} (h : b.length ≤ c.size) :
    (c.padded x b).length = c.size := by
  simp [VectorCoder.padded]; omega

theorem kRep_make (k : Kind) (n : Nat) : KRep k n (VectorCoder.make n) [] where
  size := rfl
  count := by simp [VectorCoder.make]
  le := by
    intro j b h
    simp only [VectorCoder.make, List.getElem?_replicate] at h
    split at h <;> simp at h
    subst h; simp
  pad := by
    intro j b h
    simp only [VectorCoder.make, List.getElem?_replicate] at h
    split at h <;> simp at h
    subst h
    simp [VectorCoder.padded, VectorCoder.make, Bm.appendBits]
  full := by
    intro _ j b _ i v h
    simp at h

theorem rowBit_none (k : Kind) (j : Nat) : k.rowBit j none = k.padBit := by
  cases k <;> rfl

theorem padded_grow (c : VectorCoder) (x : Bool) (b : Bm) (n : Nat) (bs : List Bm) (h : b.length ≤ c.size) :
    VectorCoder.padded ⟨c.size + n, bs⟩ x b = c.padded x b ++ List.replicate n x := by
  simp only [VectorCoder.padded, Bm.appendBits, List.append_assoc, List.replicate_append_replicate]
  congr 2
  omega

theorem kRep_skip {k : Kind} {n : Nat} {c : VectorCoder} {col : List (Option Nat)} (h : KRep k n c col) (m : Nat) :
    KRep k n (c.skip m) (col ++ List.replicate m none) where
  size := by simp [VectorCoder.skip, h.size]
  count := h.count
  le := fun j b hb => by
    have := h.le j b hb
    simp only [VectorCoder.skip]; omega
  pad := fun j b hb => by
    rw [VectorCoder.skip, padded_grow _ _ _ _ _ (h.le j b hb), h.pad j b hb]
    simp [rowBit_none]
  full := fun hk j b hb i v hi => by
    apply h.full hk j b hb i v
    rw [List.getElem?_append] at hi
    split at hi
    · exact hi
    · rw [List.getElem?_replicate] at hi
      split at hi <;> simp at hi

/-- A step that appends to some bitmaps and leaves the others to be padded. -/
theorem kRep_grow {k : Kind} {n : Nat} {c : VectorCoder} {col : List (Option Nat)} (h : KRep k n c col) (x m : Nat)
    (bs : List Bm) (hl : bs.length = c.bitmaps.length)
    (hs : ∀ (j : Nat) b', bs[j]? = some b' → ∃ b, c.bitmaps[j]? = some b ∧
      ((b' = b ∧ k.rowBit j (some x) = k.padBit ∧ k ≠ .bitslice)
        ∨ b' = (c.padded k.padBit b).appendBits (k.rowBit j (some x)) m)) :
    KRep k n ⟨c.size + m, bs⟩ (col ++ List.replicate m (some x)) where
  size := by simp [h.size]
  count := by rw [hl]; exact h.count
  le := by
    intro j b' hb'
    obtain ⟨b, hb, ⟨rfl, _⟩ | rfl⟩ := hs j b' hb'
    · have := h.le j b' hb; simp only; omega
    · simp [padded_length (h.le j b hb)]
  pad := by
    intro j b' hb'
    obtain ⟨b, hb, ⟨rfl, hp, _⟩ | rfl⟩ := hs j b' hb'
    · rw [padded_grow _ _ _ _ _ (h.le j b' hb), h.pad j b' hb]
      simp [hp]
    · rw [VectorCoder.padded]
      simp only [Bm.appendBits_length, padded_length (h.le j b hb), Nat.sub_self]
      simp only [Bm.appendBits, List.replicate_zero, List.append_nil, List.map_append, List.map_replicate]
      rw [h.pad j b hb]
  full := by
    intro hk j b' hb' i v hi
    obtain ⟨b, hb, ⟨rfl, _, hn⟩ | rfl⟩ := hs j b' hb'
    · exact absurd hk hn
    · have := (List.getElem?_eq_some_iff.1 hi).1
      simp only [List.length_append, List.length_replicate] at this
      simp only [Bm.appendBits_length, padded_length (h.le j b hb), h.size]
      exact this

theorem kRep_encode {k : Kind} {n : Nat} {c : VectorCoder} {col : List (Option Nat)} (h : KRep k n c col)
    {x : Nat} (hx : k.accepts n x) (m : Nat) :
    ∃ c', k.encode c x m = some c' ∧ KRep k n c' (col ++ List.replicate m (some x)) := by
  cases k with
  | equality =>
    simp only [Kind.accepts] at hx
    simp only [Kind.encode, EqualityCoder.encode, h.count, hx, if_true]
    refine ⟨_, rfl, kRep_grow h x m _ (by simp) ?_⟩
    intro j b' hb'
    rw [List.getElem?_modify] at hb'
    cases hb : c.bitmaps[j]? with
    | none => simp [hb] at hb'
    | some b =>
      refine ⟨b, rfl, ?_⟩
      simp only [hb, Option.map_eq_map, Option.map_some, Option.some.injEq] at hb'
      by_cases hj : x = j
      · right
        rw [if_pos hj] at hb'
        subst hj
        simpa [Kind.padBit, Kind.rowBit] using hb'.symm
      · left
        rw [if_neg hj] at hb'
        refine ⟨by simpa using hb'.symm, ?_, by simp⟩
        simp [Kind.rowBit, Kind.padBit, hj]
  | range =>
    simp only [Kind.accepts] at hx
    simp only [Kind.encode, RangeCoder.encode, h.count, Nat.lt_succ_of_le hx, if_true]
    refine ⟨_, rfl, kRep_grow h x m _ (by simp [h.count]; omega) ?_⟩
    intro j b' hb'
    rw [List.getElem?_append] at hb'
    simp only [List.length_map, List.length_take, h.count, Nat.min_eq_left hx] at hb'
    split at hb'
    · next hj =>
      simp only [List.getElem?_map, List.getElem?_take, hj, if_true, Option.map_eq_some_iff] at hb'
      obtain ⟨b, hb, rfl⟩ := hb'
      refine ⟨b, hb, Or.inr ?_⟩
      simp [Kind.padBit, Kind.rowBit, Nat.not_le.2 hj]
    · next hj =>
      rw [List.getElem?_drop, show x + (j - x) = j by omega] at hb'
      refine ⟨b', hb', Or.inl ⟨rfl, ?_, by simp⟩⟩
      simp [Kind.padBit, Kind.rowBit]; omega
  | bitslice =>
    simp only [Kind.encode, BitsliceCoder.encode]
    refine ⟨_, rfl, kRep_grow h x m _ (by simp) ?_⟩
    intro j b' hb'
    simp only [List.getElem?_mapIdx, Option.map_eq_some_iff] at hb'
    obtain ⟨b, hb, rfl⟩ := hb'
    exact ⟨b, hb, Or.inr rfl⟩

theorem kRep_append {k : Kind} {n : Nat} {c d : VectorCoder} {col col' : List (Option Nat)} (h : KRep k n c col)
    (h' : KRep k n d col') : ∃ e, k.append c d = some e ∧ KRep k n e (col ++ col') := by
  have key : ∃ e, c.append d k.padBit = some e ∧ KRep k n e (col ++ col') := by
    simp only [VectorCoder.append, h.count, h'.count, if_true]
    refine ⟨_, rfl, ?_⟩
    have hz : ∀ (j : Nat) b', (List.zipWith (fun x y => c.padded k.padBit x ++ y) c.bitmaps d.bitmaps)[j]? = some b' →
        ∃ x y, c.bitmaps[j]? = some x ∧ d.bitmaps[j]? = some y ∧ b' = c.padded k.padBit x ++ y := by
      intro j b' hb'
      rw [List.getElem?_zipWith] at hb'
      cases hx : c.bitmaps[j]? with
      | none => simp [hx] at hb'
      | some x =>
        cases hy : d.bitmaps[j]? with
        | none => simp [hx, hy] at hb'
        | some y =>
          simp only [hx, hy, Option.some.injEq] at hb'
          exact ⟨x, y, rfl, rfl, hb'.symm⟩
    refine ⟨by simp [h.size, h'.size], by simp [h.count, h'.count], ?_, ?_, ?_⟩
    · intro j b' hb'
      obtain ⟨x, y, hx, hy, rfl⟩ := hz j b' hb'
      have := h'.le j y hy
      simp [padded_length (h.le j x hx)]; omega
    · intro j b' hb'
      obtain ⟨x, y, hx, hy, rfl⟩ := hz j b' hb'
      have hle := h'.le j y hy
      rw [VectorCoder.padded]
      simp only [List.length_append, padded_length (h.le j x hx), Bm.appendBits, List.append_assoc]
      rw [h.pad j x hx, List.map_append, ← h'.pad j y hy, VectorCoder.padded, Bm.appendBits]
      congr 3
      omega
    · intro hk j b' hb' i v hi
      obtain ⟨x, y, hx, hy, rfl⟩ := hz j b' hb'
      simp only [List.length_append, padded_length (h.le j x hx)]
      rw [List.getElem?_append] at hi
      split at hi
      · rw [h.size]; omega
      · have := h'.full hk j y hy _ v hi
        rw [h.size]; omega
  cases k <;> exact key

/-! ## Decoding a single coder -/

theorem bit_map {α : Type} (f : α → Bool) (col : List α) (i : Nat) (v : α) (h : col[i]? = some v) :
    Bm.bit (col.map f) i = f v := by
  apply Bm.bit_of_getElem?
  simp [h]

/-- The padded bitmap `j` of a coder. -/
theorem kRep_bitmap {k : Kind} {n : Nat} {c : VectorCoder} {col : List (Option Nat)} (h : KRep k n c col) {j : Nat}
    (hj : j < n) : c.bitmaps[j]?.map (c.padded k.padBit) = some (col.map (k.rowBit j)) := by
  have : j < c.bitmaps.length := by rw [h.count]; exact hj
  rw [List.getElem?_eq_getElem this]
  simp only [Option.map_some, Option.some.injEq]
  exact h.pad j _ (List.getElem?_eq_getElem this)

theorem range_bitmapAt {n : Nat} {c : VectorCoder} {col : List (Option Nat)} (h : KRep .range n c col) {j : Nat}
    (hj : j < n) : RangeCoder.bitmapAt c j = some (col.map (Kind.range.rowBit j)) := kRep_bitmap h hj

theorem equality_bitmapAt {n : Nat} {c : VectorCoder} {col : List (Option Nat)} (h : KRep .equality n c col) {j : Nat}
    (hj : j < n) : EqualityCoder.bitmapAt c j = some (col.map (Kind.equality.rowBit j)) := kRep_bitmap h hj

/-- A bitmap of the equality coder without padding. -/
theorem equality_bit {n : Nat} {c : VectorCoder} {col : List (Option Nat)} (h : KRep .equality n c col) {j : Nat} {b : Bm}
    (hb : c.bitmaps[j]? = some b) (i : Nat) : b.bit i = (col[i]? == some (some j)) := by
  have hp := h.pad j b hb
  have hle := h.le j b hb
  have : (c.padded false b).bit i = b.bit i := by
    rw [VectorCoder.padded, Bm.bit_appendBits]
    split
    · rfl
    · rw [Bm.bit_of_ge (by omega)]; simp
  rw [← this]
  simp only [Kind.padBit] at hp
  rw [hp]
  cases hi : col[i]? with
  | none =>
    rw [Bm.bit_of_ge (by simpa using hi)]
    rfl
  | some v =>
    rw [bit_map _ _ _ _ hi]
    simp [Kind.rowBit]

/-- A bitmap of the bitslice coder without padding. -/
theorem bitslice_bit {n : Nat} {c : VectorCoder} {col : List (Option Nat)} (h : KRep .bitslice n c col) {j : Nat} {b : Bm}
    (hb : c.bitmaps[j]? = some b) (i : Nat) :
    b.bit i = match col[i]? with | some (some v) => !v.testBit j | _ => false := by
  have hp := h.pad j b hb
  have hle := h.le j b hb
  have : (c.padded false b).bit i = b.bit i := by
    rw [VectorCoder.padded, Bm.bit_appendBits]
    split
    · rfl
    · rw [Bm.bit_of_ge (by omega)]; simp
  rw [← this]
  simp only [Kind.padBit] at hp
  rw [hp]
  cases hi : col[i]? with
  | none => rw [Bm.bit_of_ge (by simpa using hi)]
  | some v =>
    rw [bit_map _ _ _ _ hi]
    cases v <;> rfl

theorem mem_take_bit {n : Nat} {c : VectorCoder} {col : List (Option Nat)} (h : KRep .equality n c col) (x i : Nat) :
    (c.bitmaps.take x).any (·.bit i) = match col[i]? with
      | some (some v) => decide (v < x ∧ v < n) | _ => false := by
  rw [Bool.eq_iff_iff, List.any_eq_true]
  constructor
  · rintro ⟨b, hb, hbit⟩
    obtain ⟨j, hj, hjb⟩ := List.mem_iff_getElem.1 hb
    have hj' : j < min x c.bitmaps.length := by simpa using hj
    have hb' : c.bitmaps[j]? = some b := by
      rw [List.getElem?_eq_getElem (by omega)]
      rw [List.getElem_take] at hjb
      rw [hjb]
    rw [equality_bit h hb'] at hbit
    simp only [beq_iff_eq] at hbit
    rw [hbit, ← h.count]
    simp; omega
  · intro hm
    cases hi : col[i]? with
    | none => simp [hi] at hm
    | some o =>
      cases o with
      | none => simp [hi] at hm
      | some v =>
        simp only [hi, decide_eq_true_eq, ← h.count] at hm
        have hg := List.getElem?_eq_getElem hm.2
        refine ⟨c.bitmaps[v], ?_, ?_⟩
        · rw [List.mem_iff_getElem]
          exact ⟨v, by simp; omega, by simp⟩
        · rw [equality_bit h hg, hi]; simp

theorem mem_drop_bit {n : Nat} {c : VectorCoder} {col : List (Option Nat)} (h : KRep .equality n c col) (x i : Nat) :
    (c.bitmaps.drop x).any (·.bit i) = match col[i]? with
      | some (some v) => decide (x ≤ v ∧ v < n) | _ => false := by
  rw [Bool.eq_iff_iff, List.any_eq_true]
  constructor
  · rintro ⟨b, hb, hbit⟩
    obtain ⟨j, hj, hjb⟩ := List.mem_iff_getElem.1 hb
    have hj' : j < c.bitmaps.length - x := by simpa using hj
    have hb' : c.bitmaps[x + j]? = some b := by
      rw [List.getElem?_eq_getElem (by omega)]
      rw [List.getElem_drop] at hjb
      rw [hjb]
    rw [equality_bit h hb'] at hbit
    simp only [beq_iff_eq] at hbit
    rw [hbit, ← h.count]
    simp; omega
  · intro hm
    cases hi : col[i]? with
    | none => simp [hi] at hm
    | some o =>
      cases o with
      | none => simp [hi] at hm
      | some v =>
        simp only [hi, decide_eq_true_eq, ← h.count] at hm
        have hg := List.getElem?_eq_getElem hm.2
        refine ⟨c.bitmaps[v], ?_, ?_⟩
        · rw [List.mem_iff_getElem]
          refine ⟨v - x, by simp; omega, ?_⟩
          rw [List.getElem_drop]
          congr 1
          omega
        · rw [equality_bit h hg, hi]; simp

theorem fillUp_length {c : VectorCoder} {b : Bm} (h : b.length ≤ c.size) : (EqualityCoder.fillUp c b).length = c.size := by
  simp [EqualityCoder.fillUp]; omega

theorem fillUp_bit (c : VectorCoder) (b : Bm) (i : Nat) : (EqualityCoder.fillUp c b).bit i = b.bit i := by
  rw [EqualityCoder.fillUp, Bm.bit_appendBits]
  split
  · rfl
  · rw [Bm.bit_of_ge (by omega)]; simp

theorem bitmaps_le {k : Kind} {n : Nat} {c : VectorCoder} {col : List (Option Nat)} (h : KRep k n c col) :
    ∀ b ∈ c.bitmaps, b.length ≤ c.size := by
  intro b hb
  obtain ⟨j, hj, rfl⟩ := List.mem_iff_getElem.1 hb
  exact h.le j _ (List.getElem?_eq_getElem hj)

/-! ### The bitslice loops -/

theorem rangeLoop_length (x : Nat) (bs : List Bm) : ∀ (i : Nat) (r : Bm) (n : Nat), r.length ≤ n →
    (∀ b ∈ bs, b.length ≤ n) →
    r.length ≤ (BitsliceCoder.rangeLoop x i bs r).length ∧ (BitsliceCoder.rangeLoop x i bs r).length ≤ n := by
  induction bs with
  | nil => intro i r n hr _; exact ⟨Nat.le_refl _, hr⟩
  | cons b bs ih =>
    intro i r n hr hb
    rw [BitsliceCoder.rangeLoop]
    have hb0 := hb b (by simp)
    have hl : (if x.testBit i then r.or b else r.and b).length = max r.length b.length := by
      split <;> simp
    have := ih (i + 1) (if x.testBit i then r.or b else r.and b) n (by rw [hl]; omega)
      (fun c hc => hb c (by simp [hc]))
    rw [hl] at this
    omega

/-- Comparing the low bits. -/
theorem mod_two_pow_succ' (v i : Nat) : v % 2 ^ (i + 1) = v % 2 ^ i + (v.testBit i).toNat * 2 ^ i := by
  rw [Nat.pow_succ, Nat.mod_mul, Nat.testBit_eq_decide_div_mod_eq, Nat.mul_comm]
  congr 2
  rcases Nat.mod_two_eq_zero_or_one (v / 2 ^ i) with h | h <;> simp [h]

/-- Range-Eval-Opt on the bits of a value. -/
theorem rangeLoop_bit (x v r : Nat) (bs : List Bm) : ∀ (i : Nat) (m : Bm),
    (∀ (j : Nat) b, bs[j]? = some b → b.bit r = !v.testBit (i + j)) →
    m.bit r = decide (v % 2 ^ i ≤ x % 2 ^ i) →
    (BitsliceCoder.rangeLoop x i bs m).bit r = decide (v % 2 ^ (i + bs.length) ≤ x % 2 ^ (i + bs.length)) := by
  induction bs with
  | nil => intro i m _ hm; simpa [BitsliceCoder.rangeLoop] using hm
  | cons b bs ih =>
    intro i m hb hm
    rw [BitsliceCoder.rangeLoop, ih (i + 1)]
    · rw [List.length_cons, show i + 1 + bs.length = i + (bs.length + 1) by omega]
    · intro j b' hj
      have := hb (j + 1) b' (by simpa using hj)
      rw [this, show i + 1 + j = i + (j + 1) by omega]
    · have hb0 := hb 0 b rfl
      simp only [Nat.add_zero] at hb0
      have hv := mod_two_pow_succ' v i
      have hx := mod_two_pow_succ' x i
      have h1 : v % 2 ^ i < 2 ^ i := Nat.mod_lt _ (Nat.two_pow_pos i)
      have h2 : x % 2 ^ i < 2 ^ i := Nat.mod_lt _ (Nat.two_pow_pos i)
      cases hxi : x.testBit i <;> cases hvi : v.testBit i <;>
        simp only [hxi, hvi, Bool.toNat_true, Bool.toNat_false, Nat.one_mul, Nat.zero_mul, Nat.add_zero] at hv hx <;>
        simp only [Bool.false_eq_true, if_false, if_true, Bm.bit_and, Bm.bit_or, hb0, hm, hvi, Bool.not_true,
          Bool.not_false, Bool.and_true, Bool.and_false, Bool.or_true, Bool.or_false, hv, hx] <;>
        first
          | rfl
          | (symm; simp only [decide_eq_true_eq, decide_eq_false_iff_not]; omega)
          | (rw [decide_eq_decide]; omega)

theorem equalLoop_length (x : Nat) (bs : List Bm) : ∀ (i : Nat) (r : Bm), (∀ b ∈ bs, b.length ≤ r.length) →
    (BitsliceCoder.equalLoop x i bs r).length = r.length := by
  induction bs with
  | nil => intro i r _; rfl
  | cons b bs ih =>
    intro i r h
    have hb0 := h b (by simp)
    have hl : (r.and (if x.testBit i then b.not else b)).length = r.length := by
      split <;> simp <;> omega
    rw [BitsliceCoder.equalLoop, ih (i + 1) _ (fun c hc => by rw [hl]; exact h c (by simp [hc])), hl]

/-- The bit of the equality loop: each bitmap agrees with the query. -/
theorem equalLoop_bit (x r : Nat) (bs : List Bm) : ∀ (i : Nat) (m : Bm),
    (BitsliceCoder.equalLoop x i bs m).bit r =
      (m.bit r && (List.range bs.length).all fun j =>
        match bs[j]? with
        | none => true
        | some b => if x.testBit (i + j) then decide (r < b.length) && !b.bit r else b.bit r) := by
  induction bs with
  | nil => intro i m; simp [BitsliceCoder.equalLoop]
  | cons b bs ih =>
    intro i m
    rw [BitsliceCoder.equalLoop, ih (i + 1), List.length_cons, List.range_succ_eq_map, List.all_cons, List.all_map,
      Bm.bit_and, Bool.and_assoc]
    congr 1
    simp only [List.getElem?_cons_zero, Nat.add_zero]
    congr 1
    · split
      · rw [Bm.bit_not']
      · rfl
    · congr 1
      funext j
      simp only [Function.comp_apply, List.getElem?_cons_succ, Nat.succ_eq_add_one]
      rw [show i + 1 + j = i + (j + 1) by omega]

theorem eq_of_testBit_lt {v x n : Nat} (hv : v < 2 ^ n) (hx : x < 2 ^ n)
    (h : ∀ j, j < n → v.testBit j = x.testBit j) : v = x := by
  apply Nat.eq_of_testBit_eq
  intro j
  by_cases hj : j < n
  · exact h j hj
  · have : ∀ y, y < 2 ^ n → y.testBit j = false := fun y hy =>
      Nat.testBit_lt_two_pow (Nat.lt_of_lt_of_le hy (Nat.pow_le_pow_right (by omega) (by omega)))
    rw [this v hv, this x hx]

end Verif.Index
