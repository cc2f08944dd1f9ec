import Verif.Index.TextLemmas

/-!
# C13: the string index
-/

namespace Verif.Index

open Verif.Data (RelOp)
open Spec (Row)

namespace StringIndex

theorem log10_bound (n : Nat) : n < 10 ^ (log10 n + 1) := by
  induction n using Nat.strongRecOn with
  | _ n ih =>
    rw [log10]
    split
    · omega
    · have := ih (n / 10) (by omega)
      rw [Nat.pow_succ]
      omega

/-- The index holds a column. -/
structure StrInv (m : Nat) (s : StringIndex) (col : List (Option (List UInt8))) : Prop where
  max : s.maxLength = m
  length : ∃ cs, s.length = ⟨.range, uniform 10 (lengthDigits m), cs⟩ ∧
    MRep .range (uniform 10 (lengthDigits m)) cs (col.map (·.map fun v => (v.take m).length))
  chars : ∀ (i : Nat) c, s.chars[i]? = some c → CharInv m i c col
  beyond : ∀ (i j : Nat) o, s.chars.length ≤ i → col[j]? = some o → cell m i o = none

theorem product_uniform (b n : Nat) : Spec.product (uniform b n) = b ^ n := by
  induction n with
  | zero => rfl
  | succ n ih =>
    rw [uniform, List.replicate_succ, Spec.product, List.foldr_cons]
    rw [Spec.product, uniform] at ih
    rw [ih, Nat.pow_succ, Nat.mul_comm]

theorem digits_pos {m : Nat} (hm : m % 10 ≠ 0) : wellDefined (uniform 10 (lengthDigits m)) = true ∧
    m < Spec.product (uniform 10 (lengthDigits m)) := by
  rw [product_uniform, lengthDigits, if_neg hm]
  refine ⟨?_, log10_bound m⟩
  rw [wellDefined_iff]
  refine ⟨by simp [uniform], ?_⟩
  intro b hb
  simp only [uniform, List.mem_replicate] at hb
  omega

theorem strInv_make {m : Nat} (hm : m % 10 ≠ 0) : ∃ s, make m = some s ∧ StrInv m s [] := by
  have hw := (digits_pos hm).1
  refine ⟨_, by rw [make, MultiLevelCoder.make, if_pos hw]; rfl, rfl, ⟨_, rfl, mRep_make _ _⟩, ?_, ?_⟩
  · intro i c hc; simp at hc
  · intro i j o _ hj; simp at hj

theorem appendChars_length (pos : Nat) (cs : List VectorCoder) : ∀ xs, (appendChars pos cs xs).length = cs.length := by
  induction cs with
  | nil => intro xs; rfl
  | cons c cs ih => intro xs; cases xs <;> simp [appendChars, ih]

theorem appendChars_getElem? (pos : Nat) (cs : List VectorCoder) : ∀ (xs : List UInt8) (i : Nat) c,
    (appendChars pos cs xs)[i]? = some c →
    ∃ d, cs[i]? = some d ∧ ((xs[i]? = none ∧ c = d) ∨ ∃ x, xs[i]? = some x ∧ c = appendChar pos d x) := by
  induction cs with
  | nil => intro xs i c h; simp [appendChars] at h
  | cons d cs ih =>
    intro xs i c h
    cases xs with
    | nil => exact ⟨c, h, Or.inl ⟨by simp, rfl⟩⟩
    | cons x xs =>
      cases i with
      | zero =>
        simp only [appendChars, List.getElem?_cons_zero, Option.some.injEq] at h
        exact ⟨d, rfl, Or.inr ⟨x, rfl, h.symm⟩⟩
      | succ i => exact ih xs i c h

theorem strAppends {m : Nat} (hm : m % 10 ≠ 0) : Appends impl (StrInv m) (fun _ => True) := by
  refine ⟨?_⟩
  intro s col v pos h hp _
  obtain ⟨mx, l, chars⟩ := s
  obtain ⟨h1, ⟨cs, h2, h3⟩, h4, h5⟩ := h
  simp only at h1 h2 h3 h4 h5
  subst h1 h2
  have hw := (wellDefined_iff _).1 (digits_pos hm).1
  obtain ⟨hsz, _⟩ := mRep_size hw.1 h3
  have hs := mRep_skip (pos - col.length) h3
  obtain ⟨cs', e1, e2⟩ := mRep_encode 1 hw.2 (v.take mx).length hs
  refine ⟨⟨mx, ⟨.range, uniform 10 (lengthDigits mx), cs'⟩,
    appendChars pos (resize chars (v.take mx).length) (v.take mx)⟩, ?_, rfl, ⟨cs', rfl, ?_⟩, ?_, ?_⟩
  · simp only [impl, append, hsz, List.length_map, MultiLevelCoder.skip, MultiLevelCoder.encode, e1, Option.map_some]
  · simpa using e2
  · intro i c hc
    obtain ⟨d, hd, hx⟩ := appendChars_getElem? _ _ _ _ _ hc
    have hinv : CharInv mx i d col := by
      rw [resize, List.getElem?_append] at hd
      split at hd
      · exact h4 i d hd
      · next hle =>
        rw [List.getElem?_replicate] at hd
        split at hd
        · obtain rfl := Option.some.inj hd
          exact charInv_make mx i col fun j o hj => h5 i j o (by omega) hj
        · simp at hd
    rcases hx with ⟨hx, rfl⟩ | ⟨x, hx, rfl⟩
    · exact charInv_skip hinv hp hx
    · exact charInv_append hinv hp hx
  · intro i j o hi hj
    rw [appendChars_length, resize, List.length_append, List.length_replicate] at hi
    have hj' : (extend col pos v)[j]? = some o := hj
    rw [extend_getElem? hp] at hj'
    split at hj'
    · exact h5 i j o (by omega) hj'
    · split at hj'
      · obtain rfl := Option.some.inj hj'; rfl
      · split at hj'
        · obtain rfl := Option.some.inj hj'
          simp only [cell, Option.bind_some]
          exact List.getElem?_eq_none (by omega)
        · simp at hj'

/-! ## Lookup -/

theorem allB_iff (cs : List VectorCoder) : ∀ (xs : List UInt8) (j : Nat), xs.length ≤ cs.length →
    (allB cs xs j = true ↔ ∀ (i : Nat) x c, xs[i]? = some x → cs[i]? = some c → (BitsliceCoder.equal c x.toNat).bit j = true) := by
  induction cs with
  | nil =>
    intro xs j hx
    have : xs = [] := List.length_eq_zero_iff.1 (by simpa using hx)
    subst this
    simp [allB]
  | cons c cs ih =>
    intro xs j hx
    cases xs with
    | nil => simp [allB]
    | cons x xs =>
      have e : allB (c :: cs) (x :: xs) j = ((BitsliceCoder.equal c x.toNat).bit j && allB cs xs j) := by simp [allB]
      rw [e, Bool.and_eq_true, ih xs j (by simpa using hx)]
      constructor
      · rintro ⟨h1, h2⟩ i y d hy hd
        cases i with
        | zero =>
          simp only [List.getElem?_cons_zero, Option.some.injEq] at hy hd
          subst hy hd
          exact h1
        | succ i => exact h2 i y d hy hd
      · intro h
        exact ⟨h 0 x c rfl rfl, fun i y d hy hd => h (i + 1) y d hy hd⟩

theorem isPrefixOf_iff (q l : List UInt8) : q.isPrefixOf l = true ↔ ∀ (i : Nat) x, q[i]? = some x → l[i]? = some x := by
  rw [List.isPrefixOf_iff_prefix, List.prefix_iff_getElem?]
  constructor
  · intro h i x hx
    obtain ⟨hi, rfl⟩ := List.getElem?_eq_some_iff.1 hx
    exact h i hi
  · intro h i hi
    exact h i _ (List.getElem?_eq_getElem hi)

/-- The characters from column `k` on match a row exactly if the operand is there. -/
theorem allB_row {m : Nat} {s : StringIndex} {col : List (Option (List UInt8))} (h : StrInv m s col) (q : List UInt8)
    (k : Nat) (hk : k + q.length ≤ s.chars.length) (j : Nat) (v : List UInt8) (hj : col[j]? = some (some v)) :
    (q.isPrefixOf ((v.take m).drop k) = true → allB (s.chars.drop k) q j = true) ∧
    ((∀ x ∈ q, x ≠ 255) → allB (s.chars.drop k) q j = true → q.isPrefixOf ((v.take m).drop k) = true) := by
  rw [isPrefixOf_iff, allB_iff _ _ _ (by rw [List.length_drop]; omega)]
  constructor
  · intro hp i x c hx hc
    rw [List.getElem?_drop] at hc
    have := hp i x hx
    rw [List.getElem?_drop] at this
    exact ((char_equal (h.chars (k + i) c hc) x).2 j _ hj).1 this
  · intro hne hb i x hx
    have hi := lt_of_getElem? hx
    have hc : s.chars[k + i]? = some s.chars[k + i] := List.getElem?_eq_getElem (by omega)
    have := hb i x _ hx (by rw [List.getElem?_drop]; exact hc)
    rw [List.getElem?_drop]
    exact ((char_equal (h.chars (k + i) _ hc) x).2 j _ hj).2 (hne x (List.mem_of_getElem? hx)) this

theorem bounded_chars {m : Nat} {s : StringIndex} {col : List (Option (List UInt8))} (h : StrInv m s col) :
    ∀ c ∈ s.chars, ∀ x : UInt8, (BitsliceCoder.equal c x.toNat).length ≤ col.length := by
  intro c hc x
  obtain ⟨i, hi⟩ := List.mem_iff_getElem?.1 hc
  exact (char_equal (h.chars i c hi) x).1

/-- `==` and `!=` for an operand `q` of at most the maximal length. `e j` says whether row `j`
matches. -/
theorem lookupEqual_spec {m : Nat} (hm : m % 10 ≠ 0) {s : StringIndex} {col : List (Option (List UInt8))} (h : StrInv m s col)
    {offset : Nat} (ho : col.length ≤ offset) (q : List UInt8) (hq : q.length ≤ m) (ne : Bool) :
    ∃ r, lookupEqual offset s ne q = .ok r ∧ r.length ≤ offset ∧
      ∀ (j : Nat) v, col[j]? = some (some v) →
        (v.take m = q → r.bit j = !ne) ∧
        ((∀ x ∈ q, x ≠ 255) → v.take m ≠ q → r.bit j = ne) := by
  obtain ⟨cs, hl, hr⟩ := h.length
  obtain ⟨hw, hP⟩ := digits_pos hm
  obtain ⟨hne, hw'⟩ := (wellDefined_iff _).1 hw
  have hfill : ∀ (j : Nat) v, col[j]? = some (some v) → (Bm.fill offset ne).bit j = ne := by
    intro j v hj
    have := lt_of_getElem? hj
    rw [Bm.bit_fill]
    simp only [show j < offset by omega, decide_true, Bool.true_and]
  unfold lookupEqual
  have hcol : ∀ (j : Nat) v, col[j]? = some (some v) →
      (col.map (·.map fun v => (v.take m).length))[j]? = some (some (v.take m).length) := by
    intro j v hj; simp [hj]
  split
  · next h0 =>
    have hq0 : q = [] := List.length_eq_zero_iff.1 h0
    subst hq0
    obtain ⟨r, d1, d2, d3⟩ := mRange_decode hne hw' hr .equal 0 (by omega) (by simp [Spec.compare])
    rw [hl, d1]
    have hrow : ∀ (j : Nat) v, col[j]? = some (some v) → r.bit j = decide (v.take m = []) := by
      intro j v hj
      have hlen : (v.take m).length < Spec.product (uniform 10 (lengthDigits m)) := by rw [List.length_take]; omega
      have := d3 j _ (hcol j v hj) (by simpa using hlen)
      simp only [Option.getD_some, Spec.compare, Option.some.injEq] at this
      rw [this, Bool.eq_iff_iff, beq_iff_eq, decide_eq_true_eq, List.length_eq_zero_iff]
    refine ⟨_, rfl, ?_, ?_⟩
    · have : r.length ≤ offset := by rw [d2]; simpa using ho
      split
      · rw [Bm.not_length]; exact this
      · exact this
    · intro j v hj
      have hjl := lt_of_getElem? hj
      have hb := hrow j v hj
      cases ne
      · simp only [Bool.false_eq_true, if_false, hb]
        exact ⟨fun e => by simp [e], fun _ e => decide_eq_false e⟩
      · simp only [if_true]
        rw [Bm.bit_not _ (by rw [d2]; simpa using hjl), hb]
        exact ⟨fun e => by simp [e], fun _ e => by rw [decide_eq_false e]; rfl⟩
  · next h0 =>
    split
    · next hlt =>
      refine ⟨_, rfl, by simp, ?_⟩
      intro j v hj
      refine ⟨?_, fun _ _ => hfill j v hj⟩
      intro he
      have hb := h.beyond s.chars.length j _ (Nat.le_refl _) hj
      simp only [cell, Option.bind_some, he] at hb
      rw [List.getElem?_eq_none_iff] at hb
      omega
    · next hle =>
      obtain ⟨r, d1, d2, d3⟩ := mRange_decode hne hw' hr .lessEqual q.length (by omega) (by simp [Spec.compare])
      rw [hl, d1]
      simp only
      have hd2 : r.length = col.length := by simpa using d2
      have hrow : ∀ (j : Nat) v, col[j]? = some (some v) → r.bit j = decide ((v.take m).length ≤ q.length) := by
        intro j v hj
        have hlen : (v.take m).length < Spec.product (uniform 10 (lengthDigits m)) := by rw [List.length_take]; omega
        have := d3 j _ (hcol j v hj) (by simpa using hlen)
        simpa only [Option.getD_some, Spec.compare, Option.some.injEq] using this
      have hall : ∀ (j : Nat) v, col[j]? = some (some v) →
          (v.take m = q → (r.bit j && allB s.chars q j) = true) ∧
          ((∀ x ∈ q, x ≠ 255) → (r.bit j && allB s.chars q j) = true → v.take m = q) := by
        intro j v hj
        have hp := allB_row h q 0 (by omega) j v hj
        simp only [List.drop_zero] at hp
        rw [hrow j v hj, Bool.and_eq_true, decide_eq_true_eq]
        constructor
        · intro he
          refine ⟨by rw [he]; exact Nat.le_refl _, hp.1 ?_⟩
          rw [he, List.isPrefixOf_iff_prefix]
          exact List.prefix_refl _
        · rintro hx ⟨h1, h2⟩
          have := List.isPrefixOf_iff_prefix.1 (hp.2 hx h2)
          exact (this.eq_of_length_le h1).symm
      split
      · next hz =>
        refine ⟨_, rfl, by simp, ?_⟩
        intro j v hj
        refine ⟨?_, fun _ _ => hfill j v hj⟩
        intro he
        have := (hall j v hj).1 he
        rw [bit_of_all hz j] at this
        simp at this
      · rcases equalLoop_spec col.length s.chars q r (by omega) (bounded_chars h) hd2 with ⟨l1, l2⟩ | ⟨r', l1, l2, l3⟩
        · rw [l1]
          refine ⟨_, rfl, by simp, ?_⟩
          intro j v hj
          refine ⟨?_, fun _ _ => hfill j v hj⟩
          intro he
          have := (hall j v hj).1 he
          rw [l2 j] at this
          simp at this
        · rw [l1]
          refine ⟨_, rfl, ?_, ?_⟩
          · split
            · rw [Bm.not_length]; omega
            · omega
          · intro j v hj
            have hjl := lt_of_getElem? hj
            have ha := hall j v hj
            rw [← l3] at ha
            cases ne
            · simp only [Bool.false_eq_true, if_false]
              refine ⟨ha.1, fun hx hn => ?_⟩
              cases hb : r'.bit j with
              | false => rfl
              | true => exact absurd (ha.2 hx hb) hn
            · simp only [if_true]
              rw [Bm.bit_not _ (by omega)]
              refine ⟨fun he => by rw [ha.1 he], fun hx hn => ?_⟩
              cases hb : r'.bit j with
              | false => rfl
              | true => exact absurd (ha.2 hx hb) hn

theorem substring_nil (v : List UInt8) : Spec.substring [] v = true := by
  rw [Spec.substring, List.any_eq_true]
  exact ⟨0, by simp, by simp⟩

theorem substring_iff (q v : List UInt8) (hq : 0 < q.length) :
    Spec.substring q v = true ↔ ∃ k, k + q.length ≤ v.length ∧ q.isPrefixOf (v.drop k) = true := by
  rw [Spec.substring, List.any_eq_true]
  constructor
  · rintro ⟨k, hk, hp⟩
    refine ⟨k, ?_, hp⟩
    have := (List.isPrefixOf_iff_prefix.1 hp).length_le
    rw [List.length_drop] at this
    omega
  · rintro ⟨k, hk, hp⟩
    exact ⟨k, by rw [List.mem_range]; omega, hp⟩

/-- `ni` and `not_ni` for an operand without 0xff. -/
theorem lookupNi_spec {m : Nat} {s : StringIndex} {col : List (Option (List UInt8))} (h : StrInv m s col)
    {offset : Nat} (ho : col.length ≤ offset) (q : List UInt8) (neg : Bool) (hx : ∀ x ∈ q, x ≠ 255) :
    (lookupNi offset s neg q).length ≤ offset ∧
      ∀ (j : Nat) v, col[j]? = some (some v) → (lookupNi offset s neg q).bit j = (Spec.substring q (v.take m) ^^ neg) := by
  have hfill : ∀ (b : Bool) (j : Nat) v, col[j]? = some (some v) → (Bm.fill offset b).bit j = b := by
    intro b j v hj
    have := lt_of_getElem? hj
    rw [Bm.bit_fill]
    simp only [show j < offset by omega, decide_true, Bool.true_and]
  have hlen : ∀ (j : Nat) v, col[j]? = some (some v) → (v.take m).length ≤ s.chars.length := by
    intro j v hj
    have hb := h.beyond s.chars.length j _ (Nat.le_refl _) hj
    simpa only [cell, Option.bind_some, List.getElem?_eq_none_iff] using hb
  unfold lookupNi
  split
  · next h0 =>
    have hq0 : q = [] := List.length_eq_zero_iff.1 h0
    subst hq0
    refine ⟨by simp, ?_⟩
    intro j v hj
    rw [hfill _ j v hj, substring_nil]
    cases neg <;> rfl
  · next h0 =>
    have hq : 0 < q.length := by omega
    split
    · next hlt =>
      refine ⟨by simp, ?_⟩
      intro j v hj
      rw [hfill _ j v hj]
      have : Spec.substring q (v.take m) = false := by
        cases hs : Spec.substring q (v.take m) with
        | false => rfl
        | true =>
          obtain ⟨k, hk, _⟩ := (substring_iff q _ hq).1 hs
          have := hlen j v hj
          omega
      rw [this]
      cases neg <;> rfl
    · next hle =>
      obtain ⟨n1, n2⟩ := niLoop_spec offset q hq (s.chars.length - q.length + 1) s.chars (Bm.fill offset false) (by omega)
        (fun c hc x => Nat.le_trans (bounded_chars h c hc x) ho) (by simp)
      have hrow : ∀ (j : Nat) v, col[j]? = some (some v) →
          (niLoop offset q (s.chars.length - q.length + 1) s.chars (Bm.fill offset false)).bit j = Spec.substring q (v.take m) := by
        intro j v hj
        have hjl := lt_of_getElem? hj
        rw [n2 j (by omega), hfill _ j v hj, Bool.false_or, Bool.eq_iff_iff, List.any_eq_true, substring_iff q _ hq]
        constructor
        · rintro ⟨k, hk, hb⟩
          rw [List.mem_range] at hk
          have hp := (allB_row h q k (by omega) j v hj).2 hx hb
          refine ⟨k, ?_, hp⟩
          have := (List.isPrefixOf_iff_prefix.1 hp).length_le
          rw [List.length_drop] at this
          omega
        · rintro ⟨k, hk, hp⟩
          have := hlen j v hj
          exact ⟨k, by rw [List.mem_range]; omega, (allB_row h q k (by omega) j v hj).1 hp⟩
      cases neg
      · simp only [Bool.false_eq_true, if_false]
        refine ⟨by omega, ?_⟩
        intro j v hj
        rw [hrow j v hj, Bool.xor_false]
      · simp only [if_true]
        refine ⟨by rw [Bm.not_length]; omega, ?_⟩
        intro j v hj
        have hjl := lt_of_getElem? hj
        rw [Bm.bit_not _ (by omega), hrow j v hj, Bool.xor_true]

theorem impl_max {m : Nat} {s : StringIndex} {col : List (Option (List UInt8))} (h : StrInv m s col) : s.maxLength = m := h.max

/-! ## Theorems -/

/-- The four operators of the string index. -/
def _root_.Verif.Index.Spec.compareString (op : RelOp) (v q : List UInt8) : Option Bool :=
  match op with
  | .equal => some (v == q)
  | .notEqual => some (v != q)
  | .ni => some (Spec.substring q v)
  | .notNi => some (!Spec.substring q v)
  | _ => none

/-- C13. For every maximal length `m` that is not a multiple of ten (the default is 1024), every
history of appends of strings not longer than `m`, and every operand not longer than `m` that does
not contain the byte 0xff (which UTF-8 text never does), the string index answers `==`, `!=`, `ni`
and `not_ni` exactly, with the null rows in the result of `!=`; and `in` and `not_in` with a list of
such strings. Missing: operands with the byte 0xff (`C13_ff_refuted`), other maximal lengths
(`C13_max_size_refuted`), longer strings and operands (`C13_long_refuted`). -/
theorem C13_string_partial (m : Nat) (hm : m % 10 ≠ 0) (h : List (Nat × Option (List UInt8)))
    (hv : ∀ pos v, (pos, some v) ∈ h → v.length ≤ m) :
    ∃ v, index m h = some v ∧
      (∀ op (q : List UInt8), (Spec.compareString op [] []).isSome → q.length ≤ m → (∀ x ∈ q, x ≠ 255) →
        v.lookup impl op (.val q) = .ok (Spec.answer (Spec.rows h)
          (fun y => Spec.compareString op y q == some true) (decide (op = .notEqual)))) ∧
      ∀ xs : List (Option (List UInt8)), (∀ q, some q ∈ xs → q.length ≤ m ∧ ∀ x ∈ q, x ≠ 255) →
        v.lookup impl .in_ (.list xs)
          = .ok (Spec.answer (Spec.rows h) (fun y => xs.contains (some y)) false) ∧
        v.lookup impl .notIn (.list xs)
          = .ok (Spec.answer (Spec.rows h) (fun y => !xs.contains (some y)) false) := by
  obtain ⟨s, hs, hinv⟩ := strInv_make hm
  obtain ⟨v, e1, e2⟩ := vRep_run (strAppends hm) h (vRep_make hinv) (fun _ _ _ => trivial)
  have e1' : index m h = some v := by rw [index, hs]; exact e1
  have hmax := e2.impl.max
  have hoff : ((Spec.rows h).map Spec.Row.toOption |>.take v.mask.length).length ≤ v.offset := by
    rw [e2.offset]; exact e2.col_length
  have htake : ∀ (i : Nat) y, (Spec.rows h)[i]? = some (.value y) → y.take m = y := by
    intro i y hi
    obtain ⟨pos, hp⟩ := rows_mem h i y hi
    exact List.take_of_length_le (hv pos y hp)
  have key : ∀ op (q : List UInt8), (Spec.compareString op [] []).isSome → q.length ≤ m → (∀ x ∈ q, x ≠ 255) →
        v.lookupVal impl op q = .ok (Spec.answer (Spec.rows h)
          (fun y => Spec.compareString op y q == some true) (decide (op = .notEqual))) := by
    intro op q hop hq hx
    refine lookupVal_frame e2 op q _ ?_
    have hqt : q.take v.impl.maxLength = q := List.take_of_length_le (by omega)
    cases op <;> try (simp [Spec.compareString] at hop; done)
    case equal =>
      obtain ⟨r, r1, r2, r3⟩ := lookupEqual_spec hm e2.impl hoff q hq false
      refine ⟨r, by simp only [impl, lookup, hqt, r1], by rw [← e2.offset]; exact r2, ?_⟩
      intro i y hi
      have := r3 i y ((e2.col i y).2 hi)
      rw [htake i y hi] at this
      simp only [Spec.compareString]
      by_cases he : y = q
      · rw [this.1 he]; simp [he]
      · rw [this.2 hx he]; simp [he]
    case notEqual =>
      obtain ⟨r, r1, r2, r3⟩ := lookupEqual_spec hm e2.impl hoff q hq true
      refine ⟨r, by simp only [impl, lookup, hqt, r1], by rw [← e2.offset]; exact r2, ?_⟩
      intro i y hi
      have := r3 i y ((e2.col i y).2 hi)
      rw [htake i y hi] at this
      simp only [Spec.compareString]
      by_cases he : y = q
      · rw [this.1 he]; simp [he]
      · rw [this.2 hx he]; simp [he]
    case ni =>
      obtain ⟨r2, r3⟩ := lookupNi_spec e2.impl hoff q false hx
      refine ⟨_, (by simp only [impl, lookup, hqt]; rfl), by rw [← e2.offset]; exact r2, ?_⟩
      intro i y hi
      rw [r3 i y ((e2.col i y).2 hi), htake i y hi]
      simp [Spec.compareString]
    case notNi =>
      obtain ⟨r2, r3⟩ := lookupNi_spec e2.impl hoff q true hx
      refine ⟨_, (by simp only [impl, lookup, hqt]; rfl), by rw [← e2.offset]; exact r2, ?_⟩
      intro i y hi
      rw [r3 i y ((e2.col i y).2 hi), htake i y hi]
      simp [Spec.compareString]
  refine ⟨v, e1', key, ?_⟩
  intro xs hxs
  refine in_exact e2 xs ?_
  intro q hq
  rw [key .equal q rfl (hxs q hq).1 (hxs q hq).2]
  congr 2
  funext y
  simp [Spec.compareString]

/-- C13, no loss. For arbitrary strings and operands, longer than the maximal length or with any
bytes, every row whose string equals the operand is in the result of `==`. -/
theorem C13_equal_complete (m : Nat) (hm : m % 10 ≠ 0) (h : List (Nat × Option (List UInt8))) (q : List UInt8) :
    ∃ v r, index m h = some v ∧ v.lookup impl .equal (.val q) = .ok r ∧ r.length = (Spec.rows h).length ∧
      ∀ i : Nat, (Spec.rows h)[i]? = some (.value q) → r[i]? = some true := by
  obtain ⟨s, hs, hinv⟩ := strInv_make hm
  obtain ⟨v, e1, e2⟩ := vRep_run (strAppends hm) h (vRep_make hinv) (fun _ _ _ => trivial)
  have e1' : index m h = some v := by rw [index, hs]; exact e1
  have hmax := e2.impl.max
  have hoff : ((Spec.rows h).map Spec.Row.toOption |>.take v.mask.length).length ≤ v.offset := by
    rw [e2.offset]; exact e2.col_length
  obtain ⟨r, r1, r2, r3⟩ := lookupEqual_spec hm e2.impl hoff (q.take m) (by rw [List.length_take]; omega) false
  have r2' : r.length ≤ (Spec.rows h).length := by have := e2.offset; rw [← Spec.rows] at this; omega
  obtain ⟨f1, f2⟩ := finish_spec (rs := Spec.rows h) e2 .equal r r2'
  refine ⟨v, v.finish .equal r, e1', ?_, f1, ?_⟩
  · simp only [ValueIndex.lookup, ValueIndex.lookupVal, impl, lookup, hmax, r1]
  · intro i hi
    rw [bm_getElem? f1 rfl hi, f2 i _ hi]
    simp only
    rw [(r3 i q ((e2.col i q).2 hi)).1 rfl]
    rfl

/-- "foo", null, a gap, "foobar", "" and "oba" -/
def demoStrings : List (Nat × Option (List UInt8)) :=
  [(0, some [102, 111, 111]), (1, none), (3, some [102, 111, 111, 98, 97, 114]), (4, some []), (5, some [111, 98, 97])]

example : (index 1024 demoStrings).map (fun v => (v.lookup impl .equal (.val [102, 111, 111]),
      v.lookup impl .notEqual (.val []), v.lookup impl .ni (.val [111, 98]), v.lookup impl .notNi (.val [111, 98])))
    = some (.ok [true, false, false, false, false, false], .ok [true, true, false, true, false, true],
      .ok [false, false, false, true, false, true], .ok [true, false, false, false, true, false]) := by decide +kernel

/-- C13, refuted for operands with the byte 0xff: the row "f" is returned for `== "f\xff"`, because
a longer string in a later row makes the index pad the character column, and padding reads as 0xff. -/
theorem C13_ff_refuted :
    (index 1024 [(0, some [102]), (1, some [102, 111])]).map (fun v => v.lookup impl .equal (.val [102, 255]))
      = some (.ok [true, false]) := by decide +kernel

/-- C13, refuted for maximal lengths that are multiples of ten: with `max-size = 10`, a string of
ten characters is returned for `== ""`. -/
theorem C13_max_size_refuted :
    (index 10 [(0, some (List.replicate 10 97))]).map (fun v => v.lookup impl .equal (.val []))
      = some (.ok [true]) := by decide +kernel

/-- C13, refuted for strings longer than the maximum: with `max-size = 3`, the row "foobar" is lost
for `!= "foo"` and for `ni "bar"`. -/
theorem C13_long_refuted :
    (index 3 [(0, some [102, 111, 111, 98, 97, 114])]).map (fun v => (v.lookup impl .notEqual (.val [102, 111, 111]),
        v.lookup impl .ni (.val [98, 97, 114])))
      = some (.ok [false], .ok [false]) := by decide +kernel

end StringIndex

end Verif.Index
