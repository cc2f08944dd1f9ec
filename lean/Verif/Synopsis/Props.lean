import Verif.Synopsis.Model
import Verif.Data.Lemmas
/-
C18, C19 and C20: synopses never rule out a partition that holds a match.
-/
namespace Verif.Synopsis
open Verif.Data

/-! ### C18: min-max synopsis -/

/-- Adding several values. -/
def MinMax.addAll (s : MinMax) (xs : List Int) : MinMax := xs.foldl MinMax.add s

theorem addAll_bounds (xs : List Int) : ∀ s : MinMax,
    (s.addAll xs).min ≤ s.min ∧ s.max ≤ (s.addAll xs).max ∧
    (∀ x ∈ xs, (s.addAll xs).min ≤ x ∧ x ≤ (s.addAll xs).max) := by
  induction xs with
  | nil => intro s; simp [MinMax.addAll]
  | cons y ys ih =>
    intro s
    have h := ih (s.add y)
    have e : s.addAll (y :: ys) = (s.add y).addAll ys := rfl
    rw [e]
    have h1 : (s.add y).min ≤ s.min ∧ (s.add y).min ≤ y ∧ s.max ≤ (s.add y).max ∧
        y ≤ (s.add y).max := by
      unfold MinMax.add
      simp only
      refine ⟨?_, ?_, ?_, ?_⟩ <;> split <;> omega
    refine ⟨by omega, by omega, ?_⟩
    intro x hx
    rcases List.mem_cons.1 hx with rfl | hx
    · omega
    · exact h.2.2 x hx

/-- The extreme values are reached, if not by the initial ones then by an added
one. -/
theorem addAll_attained (xs : List Int) : ∀ s : MinMax,
    ((s.addAll xs).min = s.min ∨ (s.addAll xs).min ∈ xs) ∧
    ((s.addAll xs).max = s.max ∨ (s.addAll xs).max ∈ xs) := by
  induction xs with
  | nil => intro s; simp [MinMax.addAll]
  | cons y ys ih =>
    intro s
    have h := ih (s.add y)
    have e : s.addAll (y :: ys) = (s.add y).addAll ys := rfl
    rw [e]
    have h1 : (s.add y).min = s.min ∨ (s.add y).min = y := by
      unfold MinMax.add; simp only; split <;> simp
    have h2 : (s.add y).max = s.max ∨ (s.add y).max = y := by
      unfold MinMax.add; simp only; split <;> simp
    simp only [List.mem_cons]
    constructor
    · rcases h.1 with h | h
      · rcases h1 with h1 | h1 <;> simp [h, h1]
      · simp [h]
    · rcases h.2 with h | h
      · rcases h2 with h2 | h2 <;> simp [h, h2]
      · simp [h]

theorem time_eq {x : Int} {d : Data} (h : (Data.time x).eq d = true) : d = .time x := by
  cases d <;> simp [Data.eq] at h
  simp [h]

/-- **C18 (partial).** If a time was added to the synopsis and satisfies
`op rhs`, the synopsis does not answer "no", for all operators except `!=` and
`!in`. Missing, and false: these two operators, see
`C18_not_equal_refuted` and `C18_not_in_refuted`. -/
theorem C18_no_false_negative_partial (R : Regex) (s : MinMax) (xs : List Int) (x : Int)
    (hx : x ∈ xs) (op : RelOp) (rhs : Data) (h1 : op ≠ .notEqual) (h2 : op ≠ .notIn)
    (h : evaluate R (.time x) op rhs = true) :
    (s.addAll xs).lookup op rhs ≠ some false := by
  have hb := (addAll_bounds xs s).2.2 x hx
  have heq : ∀ d, (Data.time x).eq d = true → (s.addAll xs).doLookup .equal d = some true := by
    intro d hd
    rw [time_eq hd]
    simp [MinMax.doLookup, MinMax.lookupImpl, hb]
  cases op <;> simp only [MinMax.lookup, ne_eq, reduceCtorEq, not_false_eq_true] <;>
    try contradiction
  · -- in
    cases rhs <;> simp [MinMax.membership]
    next ys =>
      simp only [evaluate, evalIn, List.any_eq_true] at h
      obtain ⟨y, hy, hxy⟩ := h
      exact ⟨y, hy, heq y (Data.eq_comm _ _ ▸ hxy)⟩
  · -- equal
    have : (Data.time x).eq rhs = true := by
      revert h
      cases rhs <;> simp [evaluate, evalStringAndPattern]
    rw [heq rhs this]; simp
  all_goals
    cases rhs <;> simp [MinMax.doLookup]
    next y =>
      simp [evaluate, Data.lt, Data.cmp, intCmp] at h
      simp only [MinMax.lookupImpl, decide_eq_true_eq]
      omega

/-- **C18.** For the four order comparisons with a time, the answer is exact
once a value was added: "yes" if and only if some added value satisfies the
comparison. Times are 64-bit. -/
theorem C18_range_exact (R : Regex) (xs : List Int) (hne : xs ≠ [])
    (hr : ∀ x ∈ xs, -2 ^ 63 ≤ x ∧ x ≤ 2 ^ 63 - 1) (op : RelOp) (d : Int)
    (hop : op = .less ∨ op = .lessEqual ∨ op = .greater ∨ op = .greaterEqual) :
    (MinMax.initial.addAll xs).lookup op (.time d)
      = some (xs.any fun x => evaluate R (.time x) op (.time d)) := by
  obtain ⟨y, hy⟩ := List.exists_mem_of_ne_nil xs hne
  have hb := (addAll_bounds xs MinMax.initial).2.2
  have ha := addAll_attained xs MinMax.initial
  have hmin : (MinMax.initial.addAll xs).min ∈ xs := by
    rcases ha.1 with h | h
    · have h1 := (hb y hy).1
      have h2 := (hr y hy).2
      rw [h] at h1
      have e : MinMax.initial.min = y := by unfold MinMax.initial at *; simp only at *; omega
      rw [h, e]; exact hy
    · exact h
  have hmax : (MinMax.initial.addAll xs).max ∈ xs := by
    rcases ha.2 with h | h
    · have h1 := (hb y hy).2
      have h2 := (hr y hy).1
      rw [h] at h1
      have e : MinMax.initial.max = y := by unfold MinMax.initial at *; simp only at *; omega
      rw [h, e]; exact hy
    · exact h
  generalize MinMax.initial.addAll xs = s at *
  rcases hop with rfl | rfl | rfl | rfl <;>
  · simp only [MinMax.lookup, MinMax.doLookup, MinMax.lookupImpl, Option.some.injEq]
    rw [Bool.eq_iff_iff, List.any_eq_true]
    simp only [decide_eq_true_eq, evaluate, Data.lt, Data.cmp, intCmp, Bool.not_eq_true',
      decide_eq_false_iff_not]
    constructor
    · intro h
      first
        | exact ⟨s.min, hmin, by omega⟩
        | exact ⟨s.max, hmax, by omega⟩
    · rintro ⟨z, hz, h⟩
      have := hb z hz
      omega

/-- Three times, of which one is below 5: both theorems apply. -/
example : (MinMax.initial.addAll [7, 3, 9]).lookup .less (.time 5) = some true ∧
    (MinMax.initial.addAll [7, 3, 9]).lookup .less (.time 3) = some false ∧
    (MinMax.initial.addAll [7, 3, 9]).lookup .in_ (.list [.time 1, .time 4]) = some true := by
  decide

/-- **C18 (refuted: `!=`).** The times 1 and 3 were added; 1 differs from 2, but
the synopsis rules out `!= 2`. -/
theorem C18_not_equal_refuted (R : Regex) :
    evaluate R (.time 1) .notEqual (.time 2) = true ∧
    (MinMax.initial.addAll [1, 3]).lookup .notEqual (.time 2) = some false := by
  constructor
  · rfl
  · decide

/-- **C18 (refuted: `!in`).** The times 1 and 3 were added; 1 is not in `[2]`,
but the synopsis rules out `!in [2]`. -/
theorem C18_not_in_refuted (R : Regex) :
    evaluate R (.time 1) .notIn (.list [.time 2]) = true ∧
    (MinMax.initial.addAll [1, 3]).lookup .notIn (.list [.time 2]) = some false := by
  constructor
  · rfl
  · decide

/-! ### C19: bool synopsis -/

/-- Adding several values. -/
def BoolSyn.addAll (s : BoolSyn) (xs : List Bool) : BoolSyn := xs.foldl BoolSyn.add s

theorem BoolSyn.addAll_eq (xs : List Bool) : ∀ s : BoolSyn,
    s.addAll xs = ⟨s.anyTrue || xs.any (· == true), s.anyFalse || xs.any (· == false)⟩ := by
  induction xs with
  | nil => intro s; simp [BoolSyn.addAll]
  | cons x xs ih =>
    intro s
    have e : s.addAll (x :: xs) = (s.add x).addAll xs := rfl
    rw [e, ih]
    cases x <;> simp [BoolSyn.add]

/-- **C19.** The synopsis never answers "no" if an added boolean satisfies
`op rhs`, for every operator and operand. -/
theorem C19_no_false_negative (R : Regex) (xs : List Bool) (x : Bool) (hx : x ∈ xs)
    (op : RelOp) (rhs : Data) (h : evaluate R (.bool x) op rhs = true) :
    (BoolSyn.initial.addAll xs).lookup op rhs ≠ some false := by
  rw [BoolSyn.addAll_eq]
  cases rhs <;> simp only [BoolSyn.lookup, ne_eq, reduceCtorEq, not_false_eq_true]
  next b =>
    cases op <;> simp only [ne_eq, reduceCtorEq, not_false_eq_true, Option.some.injEq] <;>
      simp [evaluate, evalStringAndPattern, Data.eq] at h <;>
      cases b <;> cases x <;> simp at h <;> simp [hx, BoolSyn.initial]

/-- **C19.** For `==` and `!=` with a boolean the answer is exact: "yes" if and
only if some added value satisfies the comparison. -/
theorem C19_exact (R : Regex) (xs : List Bool) (op : RelOp) (b : Bool)
    (hop : op = .equal ∨ op = .notEqual) :
    (BoolSyn.initial.addAll xs).lookup op (.bool b)
      = some (xs.any fun x => evaluate R (.bool x) op (.bool b)) := by
  rw [BoolSyn.addAll_eq]
  rcases hop with rfl | rfl <;> cases b <;>
    simp [BoolSyn.lookup, BoolSyn.initial, evaluate, evalStringAndPattern, Data.eq]

/-- Two times `true`: `!= false` is possible, `== false` is ruled out. -/
example : (BoolSyn.initial.addAll [true, true]).lookup .notEqual (.bool false) = some true ∧
    (BoolSyn.initial.addAll [true, true]).lookup .equal (.bool false) = some false := by decide

/-! ### C20: Bloom filters -/

variable {α : Type}

/-- `bits'` has at least the bits of `bits`. -/
def Covers (bits bits' : List Bool) : Prop :=
  bits'.length = bits.length ∧ ∀ p : Nat, bits[p]? = some true → bits'[p]? = some true

theorem Covers.refl (bits : List Bool) : Covers bits bits := ⟨rfl, fun _ h => h⟩

theorem Covers.trans {a b c : List Bool} (h : Covers a b) (h' : Covers b c) : Covers a c :=
  ⟨h'.1.trans h.1, fun p hp => h'.2 p (h.2 p hp)⟩

theorem covers_set (bits : List Bool) (p : Nat) : Covers bits (bits.set p true) := by
  refine ⟨by simp, fun q hq => ?_⟩
  rw [List.getElem?_set]
  split
  · next h =>
    subst h
    have := (List.getElem?_eq_some_iff.1 hq).1
    simp [this]
  · exact hq

theorem addLoop_covers (policy : Partitioning) (k : Nat) : ∀ (ds : List Nat) (i : Nat) (u : Bool)
    (bits : List Bool) (u' : Bool) (bits' : List Bool),
    addLoop policy k i ds u bits = some (u', bits') →
    Covers bits bits' ∧ lookupLoop policy k bits' i ds = some true := by
  intro ds
  induction ds with
  | nil =>
    intro i u bits u' bits' h
    simp [addLoop] at h
    obtain ⟨_, rfl⟩ := h
    exact ⟨Covers.refl _, rfl⟩
  | cons d ds ih =>
    intro i u bits u' bits' h
    rw [addLoop] at h
    split at h
    · simp at h
    · next p hp =>
      split at h
      · simp at h
      · next bit hb =>
        obtain ⟨hc, hl⟩ := ih _ _ _ _ _ h
        have hlen : p < bits.length := (List.getElem?_eq_some_iff.1 hb).1
        have hp' : bits'[p]? = some true := hc.2 p (by rw [List.getElem?_set]; simp [hlen])
        refine ⟨(covers_set bits p).trans hc, ?_⟩
        have e : bits'.length = bits.length := by simpa using hc.1
        rw [lookupLoop, e, hp]
        simp [hp', hl]

theorem lookupLoop_covers (policy : Partitioning) (k : Nat) (bits bits' : List Bool)
    (hc : Covers bits bits') : ∀ (ds : List Nat) (i : Nat),
    lookupLoop policy k bits i ds = some true → lookupLoop policy k bits' i ds = some true := by
  intro ds
  induction ds with
  | nil => intro i _; rfl
  | cons d ds ih =>
    intro i h
    rw [lookupLoop] at h ⊢
    rw [hc.1]
    split at h
    · simp at h
    · next p hp =>
      split at h
      · simp at h
      · next bit hb =>
        split at h
        · simp at h
        · next hbit =>
          have : bit = true := by simpa using hbit
          subst this
          simp [hc.2 p hb, ih _ h]

theorem add_spec {b b' : Bloom α} {x : α} {u : Bool} (h : b.add x = some (u, b')) :
    b'.digests = b.digests ∧ b'.policy = b.policy ∧ Covers b.bits b'.bits ∧
      b'.lookup x = some true := by
  unfold Bloom.add at h
  simp only [Option.map_eq_some_iff] at h
  obtain ⟨⟨u', bits⟩, h, h'⟩ := h
  simp at h'
  obtain ⟨rfl, rfl⟩ := h'
  obtain ⟨hc, hl⟩ := addLoop_covers _ _ _ _ _ _ _ _ h
  exact ⟨rfl, rfl, hc, hl⟩

theorem addAll_spec (xs : List α) : ∀ {b b' : Bloom α}, b.addAll xs = some b' →
    b'.digests = b.digests ∧ b'.policy = b.policy ∧ Covers b.bits b'.bits ∧
      ∀ x ∈ xs, b'.lookup x = some true := by
  induction xs with
  | nil =>
    intro b b' h
    simp [Bloom.addAll] at h
    subst h
    exact ⟨rfl, rfl, Covers.refl _, by simp⟩
  | cons x xs ih =>
    intro b b' h
    rw [Bloom.addAll] at h
    split at h
    · simp at h
    · next u b1 h1 =>
      obtain ⟨d1, p1, c1, l1⟩ := add_spec h1
      obtain ⟨d2, p2, c2, l2⟩ := ih h
      refine ⟨d2.trans d1, p2.trans p1, c1.trans c2, ?_⟩
      intro y hy
      rcases List.mem_cons.1 hy with rfl | hy
      · unfold Bloom.lookup at l1 ⊢
        rw [d2, p2]
        exact lookupLoop_covers _ _ _ _ c2 _ _ l1
      · exact l2 y hy

/-- **C20.** A Bloom filter has no false negatives: after any sequence of
additions to any filter, with any hash functions, either partitioning and any
number of bits, each added value is found. -/
theorem C20_no_false_negatives (b b' : Bloom α) (xs : List α) (h : b.addAll xs = some b')
    (x : α) (hx : x ∈ xs) : b'.lookup x = some true :=
  (addAll_spec xs h).2.2.2 x hx

/-- C20. Every access of a Bloom filter is inside the filter; with the partitioning policy, the
`i`-th hash function addresses only the `i`-th of `k` equal parts. -/
theorem C20_position (size k i d p : Nat) (hi : i < k) :
    (position .no size k i d = some p → p < size) ∧
    (position .yes size k i d = some p →
      i * (size / k) ≤ p ∧ p < (i + 1) * (size / k) ∧ p < size) := by
  constructor
  · intro h
    simp only [position] at h
    split at h
    · simp at h
    · simp only [Option.some.injEq] at h
      subst h
      exact Nat.mod_lt _ (by omega)
  · intro h
    simp only [position] at h
    split at h
    · simp at h
    · simp only [Option.some.injEq] at h
      have hm : d % (size / k) < size / k := Nat.mod_lt _ (Nat.pos_of_ne_zero ‹_›)
      have h1 : (i + 1) * (size / k) ≤ k * (size / k) := Nat.mul_le_mul_right _ hi
      have h2 : k * (size / k) ≤ size := Nat.mul_div_le size k
      have h3 : (i + 1) * (size / k) = i * (size / k) + size / k := by rw [Nat.add_mul, Nat.one_mul]
      omega

example : position .yes 32 4 3 1234567 = some 31 ∧ position .no 31 4 3 1234567 = some 23 := by decide

theorem addLoop_defined (k : Nat) : ∀ (ds : List Nat) (i : Nat) (u : Bool) (bits : List Bool),
    bits ≠ [] → (addLoop .no k i ds u bits).isSome := by
  intro ds
  induction ds with
  | nil => intros; rfl
  | cons d ds ih =>
    intro i u bits h
    have hl : 0 < bits.length := List.length_pos_iff.2 h
    have hm := Nat.mod_lt d hl
    rw [addLoop]
    simp only [position, Nat.ne_of_gt hl, if_false]
    rw [List.getElem?_eq_getElem hm]
    exact ih _ _ _ (by simpa using h)

/-- **C20.** Additions are well defined for every filter that
`make_bloom_filter` returns: it uses no partitioning and at least one bit
(vast/bloom_filter.hpp:157-158), so no addition divides by zero or writes out
of bounds. -/
theorem C20_defined (xs : List α) : ∀ (b : Bloom α), b.policy = .no → b.bits ≠ [] →
    (b.addAll xs).isSome := by
  induction xs with
  | nil => intros; rfl
  | cons x xs ih =>
    intro b hp hb
    have h := addLoop_defined (b.digests x).length (b.digests x) 0 false b.bits hb
    rw [Bloom.addAll]
    split
    · next h' =>
      unfold Bloom.add at h'
      rw [hp] at h'
      simp at h'
      rw [h'] at h
      simp at h
    · next u b' h' =>
      obtain ⟨_, h2, h3, _⟩ := add_spec h'
      refine ih b' (h2.trans hp) ?_
      intro h0
      have := h3.1
      rw [h0] at this
      exact hb (List.eq_nil_of_length_eq_zero (by simpa using this.symm))

/-- The flag `unique` of the loop: an already set flag stays set, otherwise it
tells whether the lookup would have failed. -/
theorem addLoop_unique (policy : Partitioning) (k : Nat) : ∀ (ds : List Nat) (i : Nat) (u : Bool)
    (bits : List Bool) (u' : Bool) (bits' : List Bool),
    addLoop policy k i ds u bits = some (u', bits') →
    (u' = false ↔ u = false ∧ lookupLoop policy k bits i ds = some true) := by
  intro ds
  induction ds with
  | nil =>
    intro i u bits u' bits' h
    simp [addLoop] at h
    simp [lookupLoop, h.1]
  | cons d ds ih =>
    intro i u bits u' bits' h
    rw [addLoop] at h
    rw [lookupLoop]
    split at h
    · simp at h
    · next p hp =>
      split at h
      · simp at h
      · next bit hb =>
        have := ih _ _ _ _ _ h
        rw [this]
        cases bit with
        | false => simp
        | true =>
          have e : bits.set p true = bits := by
            apply List.ext_getElem?
            intro q
            rw [List.getElem?_set]
            split
            · next hq => subst hq; rw [hb]; simp [(List.getElem?_eq_some_iff.1 hb).1]
            · rfl
          simp [e]

/-- **C20.** `add` returns `false` if and only if the value was found before the
addition, as documented. -/
theorem C20_add_result (b b' : Bloom α) (x : α) (u : Bool) (h : b.add x = some (u, b')) :
    u = false ↔ b.lookup x = some true := by
  unfold Bloom.add at h
  simp only [Option.map_eq_some_iff] at h
  obtain ⟨⟨u', bits⟩, h, h'⟩ := h
  simp at h'
  obtain ⟨rfl, rfl⟩ := h'
  simpa [Bloom.lookup] using addLoop_unique _ _ _ _ _ _ _ _ h

theorem holds_eq (t : Elem) {x y : Data} (hx : t.holds x = true) (h : x.eq y = true) : y = x := by
  cases t <;> cases x <;> simp [Elem.holds] at hx <;> cases y <;> simp [Data.eq] at h <;>
    simp [h]

theorem bloomIn_sound (t : Elem) (lk : Data → Option Bool) (x : Data) (hx : t.holds x = true)
    (hl : lk x = some true) : ∀ ys : List Data, (∃ y ∈ ys, x.eq y = true) →
    bloomIn t lk ys ≠ some (some false) := by
  intro ys
  induction ys with
  | nil => simp
  | cons y ys ih =>
    rintro ⟨z, hz, he⟩
    have key : t.holds y = true → lk y = some false → z ≠ y := by
      intro _ h2 h3
      subst h3
      rw [holds_eq t hx he, hl] at h2
      simp at h2
    have key2 : t.holds y = false → z ≠ y := by
      intro h1 h2
      subst h2
      rw [holds_eq t hx he, hx] at h1
      simp at h1
    have hrest : z ≠ y → bloomIn t lk ys ≠ some (some false) := fun hne =>
      ih ⟨z, by simpa [hne] using hz, he⟩
    by_cases hn : y = .none
    · subst hn; simp [bloomIn]
    · rw [bloomIn]
      · split
        · next h => exact hrest (key2 (by simpa using h))
        · next h =>
          split
          · simp
          · simp
          · next h2 => exact hrest (key (by simpa using h) h2)
      · exact hn

/-- **C20 (partial: synopsis).** A Bloom filter synopsis for strings or
addresses does not answer "no" if an added value satisfies `op rhs`. Missing,
and false: comparing a string with a pattern by `==`, which means matching
(`C20_pattern_refuted`). -/
theorem C20_synopsis_partial (R : Regex) (t : Elem) (b b' : Bloom Data) (xs : List Data)
    (ht : ∀ x ∈ xs, t.holds x = true) (h : b.addAll xs = some b') (x : Data) (hx : x ∈ xs)
    (op : RelOp) (rhs : Data) (hpat : ∀ p, rhs ≠ .pattern p)
    (hm : evaluate R x op rhs = true) :
    bloomLookup t b' op rhs ≠ some (some false) := by
  have hl := C20_no_false_negatives b b' xs h x hx
  have hT := ht x hx
  cases op <;> simp only [bloomLookup, ne_eq, Option.some.injEq, reduceCtorEq, not_false_eq_true]
  · cases rhs <;> simp only [ne_eq, Option.some.injEq, reduceCtorEq, not_false_eq_true]
    next ys =>
      apply bloomIn_sound t _ x hT hl
      revert hm
      cases t <;> cases x <;> simp [Elem.holds] at hT <;>
        simp only [evaluate, evalIn, List.any_eq_true] <;>
        exact fun ⟨y, hy, he⟩ => ⟨y, hy, Data.eq_comm _ _ ▸ he⟩
  · have he : x.eq rhs = true := by
      revert hm
      cases t <;> cases x <;> simp [Elem.holds] at hT <;> cases rhs <;>
        simp [evaluate, evalStringAndPattern] <;> simp at hpat
    have := holds_eq t hT he
    subst this
    split
    · simp
    · simp [hT, hl]

/-- **C20.** A buffered synopsis answers `==` with a value of its type
exactly. -/
theorem C20_buffered_exact (t : Elem) (xs : List Data) (rhs : Data)
    (ht : ∀ x ∈ xs, t.holds x = true) (hr : t.holds rhs = true) :
    bufferedLookup t (xs.foldl bufferedAdd []) .equal rhs = some (some (xs.any (Data.eq rhs))) ∧
    (xs.any (Data.eq rhs) = true ↔ rhs ∈ xs) := by
  have hself : ∀ y : Data, t.holds y = true → y.eq y = true := by
    intro y hy
    cases t <;> cases y <;> simp [Elem.holds] at hy <;> simp [Data.eq]
  have hmem : ∀ (data : List Data), data.any (Data.eq rhs) = true ↔ rhs ∈ data := by
    intro data
    rw [List.any_eq_true]
    constructor
    · rintro ⟨y, hy, he⟩; rw [holds_eq t hr he] at hy; exact hy
    · intro h; exact ⟨rhs, h, hself rhs hr⟩
  have hfold : ∀ (xs acc : List Data), (∀ x ∈ xs, t.holds x = true) →
      (rhs ∈ xs.foldl bufferedAdd acc ↔ rhs ∈ acc ∨ rhs ∈ xs) := by
    intro xs
    induction xs with
    | nil => intro acc _; simp
    | cons x xs ih =>
      intro acc h
      rw [List.foldl_cons, ih _ fun y hy => h y (by simp [hy])]
      unfold bufferedAdd
      split
      · next hin =>
        rw [List.any_eq_true] at hin
        obtain ⟨y, hy, he⟩ := hin
        have e := holds_eq t (h x (by simp)) he
        subst e
        constructor
        · rintro (h | h) <;> simp [h]
        · rintro (h | h)
          · exact .inl h
          · rcases List.mem_cons.1 h with rfl | h
            · exact .inl hy
            · exact .inr h
      · simp only [List.mem_cons]
        constructor
        · rintro ((h | h) | h) <;> simp [h]
        · rintro (h | (h | h)) <;> simp [h]
  simp only [bufferedLookup, hr, Bool.not_true, Bool.false_eq_true, if_false, Option.some.injEq]
  refine ⟨?_, hmem xs⟩
  rw [Bool.eq_iff_iff, hmem, hmem, hfold xs [] ht]
  simp

/-- **C20.** Shrinking a buffered synopsis loses nothing: the Bloom filter it
builds finds every buffered value, whatever filter `make` provides. -/
theorem C20_shrink (make : Nat → Option (Bloom Data)) (data : List Data) (b : Bloom Data)
    (h : shrink make data = some (some b)) (x : Data) (hx : x ∈ data) :
    b.lookup x = some true := by
  unfold shrink at h
  split at h
  · simp at h
  · next b0 _ =>
    simp only [Option.map_eq_some_iff, Option.some.injEq, exists_eq_right] at h
    exact C20_no_false_negatives b0 b data h x hx

theorem nextPowerOfTwo_ge (n p : Nat) (hp : 0 < p) : n ≤ nextPowerOfTwo n p := by
  induction p using nextPowerOfTwo.induct n with
  | case1 p h ih => rw [nextPowerOfTwo, dif_pos h]; exact ih (by omega)
  | case2 p h => rw [nextPowerOfTwo, dif_neg h]; omega

theorem nextPowerOfTwo_pow (n p : Nat) (hp : 0 < p) : ∃ k, nextPowerOfTwo n p = p * 2 ^ k := by
  induction p using nextPowerOfTwo.induct n with
  | case1 p h ih =>
    obtain ⟨k, hk⟩ := ih (by omega)
    exact ⟨k + 1, by rw [nextPowerOfTwo, dif_pos h, hk, Nat.pow_succ]; ac_rfl⟩
  | case2 p h => exact ⟨0, by rw [nextPowerOfTwo, dif_neg h]; simp⟩

/-- **C20.** The capacity requested for the shrunk filter is a power of two that
is large enough for the buffered values. -/
theorem C20_shrink_capacity (data : List Data) :
    data.length ≤ nextPowerOfTwo data.length 1 ∧ ∃ k, nextPowerOfTwo data.length 1 = 2 ^ k :=
  ⟨nextPowerOfTwo_ge _ _ (by decide), by simpa using nextPowerOfTwo_pow data.length 1 (by decide)⟩

/-- A filter with 16 bits and three digests per value, by double hashing over a
toy hash. -/
def demoBloom : Bloom Data where
  digests := doubleHasher (fun seed x => match x with
    | .string s => (s.length + 7) * (seed + 3)
    | _ => seed) 3 0 1
  policy := .no
  bits := List.replicate 16 false

/-- The hypotheses are met: two strings can be added, both are found and a third
one is not. -/
example : ((demoBloom.addAll [.string (str "a"), .string (str "foo")]).map fun b =>
    (b.lookup (.string (str "foo")), b.lookup (.string (str "foobar"))))
    = some (some true, some false) := by decide

/-- **C20 (refuted: patterns).** The string `a` matches the pattern, so
`s == /a/` holds for it, but the synopsis rules it out. -/
theorem C20_pattern_refuted :
    let R : Regex := ⟨fun _ _ => true, fun _ _ => true⟩
    evaluate R (.string (str "a")) .equal (.pattern (str "a")) = true ∧
    ∃ b, demoBloom.addAll [.string (str "a")] = some b ∧
      bloomLookup .string b .equal (.pattern (str "a")) = some (some false) := by
  refine ⟨by decide, _, rfl, by decide⟩

/-- **C20 (refuted: buffered synopsis and null).** Looking up `== null` in a
buffered synopsis reads the wrong alternative of a variant. -/
theorem C20_buffered_null_refuted (t : Elem) (data : List Data) :
    bufferedLookup t data .equal .none = none := by
  cases t <;> rfl

end Verif.Synopsis
