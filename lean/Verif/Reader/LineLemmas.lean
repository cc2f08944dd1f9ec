import Verif.Reader.LineSpec
/-! Helper lemmas about `line_range`. -/
namespace Verif.Reader

/-- The lines still to be delivered. -/
def pending (r : LineRange) : List (List UInt8) :=
  if r.input.eof || r.input.fail then []
  else linesFrom (if r.timedOut then r.line else []) (bytes r.input.arrivals)

/-- What holds between requests: a stream that is not good has nothing left to arrive. -/
def Inv (r : LineRange) : Prop :=
  ((r.input.eof = true ∨ r.input.fail = true) → r.input.arrivals = [] ∧ r.timedOut = false)
  ∧ CrOk r.input.arrivals
  ∧ (r.timedOut = false → r.input.timeoutFail = false)
  ∧ (r.input.fail = true → r.input.eof = true)

theorem crOk_tail {a : Arr} {r : List Arr} (h : CrOk (a :: r)) : CrOk r := by
  cases a <;> simp_all [CrOk]

theorem nonEmpty_nil : nonEmpty [] = [] := rfl
theorem nonEmpty_ne {l : List UInt8} (h : l ≠ []) : nonEmpty l = [l] := by simp [nonEmpty, h]

theorem linesFrom_head (cur : List UInt8) (bs : List UInt8)
    (h : bs.head? = none ∨ bs.head? = some 10 ∨ bs.head? = some 13) :
    linesFrom cur bs = nonEmpty cur ++ linesFrom [] bs := by
  cases bs with
  | nil => simp [linesFrom, nonEmpty_nil]
  | cons c r =>
    simp at h
    simp [linesFrom, h, nonEmpty_nil]

/-- The three ways a read can end, given the text `a` it starts from with `line` already read. -/
def Outcome (line : List UInt8) (a : List Arr) (s : Stream) (l : List UInt8) : Prop :=
  CrOk s.arrivals ∧
  -- end of file
  ((s.eof = true ∧ s.timeoutFail = false ∧ s.arrivals = [] ∧ linesFrom line (bytes a) = nonEmpty l) ∨
  -- a time-out
   (s.timeoutFail = true ∧ s.arrivals.length < a.length ∧
      linesFrom line (bytes a) = linesFrom l (bytes s.arrivals) ∧
      (s.eof = false → s.fail = false ∧
        ((bytes s.arrivals).head? = none ∨ (bytes s.arrivals).head? = some 10 ∨ (bytes s.arrivals).head? = some 13)) ∧
      (s.eof = true → s.fail = false → l ≠ [])) ∨
  -- a complete line
   (s.eof = false ∧ s.fail = false ∧ s.timeoutFail = false ∧ s.arrivals.length < a.length ∧
      linesFrom line (bytes a) = nonEmpty l ++ linesFrom [] (bytes s.arrivals)))

theorem absorbLoop_spec (a : List Arr) : ∀ (n : Nat) (line : List UInt8), CrOk a → (n ≠ 0 → line ≠ []) →
    Outcome line a (absorbLoop n line a).1 (absorbLoop n line a).2 ∧
      ((absorbLoop n line a).1.fail = false → (absorbLoop n line a).1.eof = true → (absorbLoop n line a).2 ≠ [])
      ∧ ((absorbLoop n line a).1.fail = true → (absorbLoop n line a).1.eof = true) := by
  induction a with
  | nil =>
    intro n line _ hn
    simp [absorbLoop, Outcome, CrOk, bytes, linesFrom]
    exact hn
  | cons x r ih =>
    intro n line hc hn
    cases x with
    | timeout => simpa [absorbLoop, Outcome, CrOk, bytes] using ⟨crOk_tail hc, hn⟩
    | byte c =>
      have hr := crOk_tail hc
      by_cases h10 : c = 10
      · subst h10
        simpa [absorbLoop, Outcome, bytes, linesFrom] using hr
      · by_cases h13 : c = 13
        · subst h13
          cases r with
          | nil => simp [absorbLoop, Outcome, bytes, linesFrom, CrOk]
          | cons y r' =>
            cases y with
            | timeout =>
              have hh := hc.1 rfl r' rfl
              have hl := linesFrom_head line (bytes r') hh
              have := crOk_tail hr
              simp [absorbLoop, Outcome, bytes, linesFrom, hl, this]
              exact ⟨by omega, by simpa using hh⟩
            | byte d =>
              have := crOk_tail hr
              by_cases hd : d = 10
              · subst hd
                simp [absorbLoop, Outcome, bytes, linesFrom, this, nonEmpty_nil]
                omega
              · simp [absorbLoop, Outcome, bytes, linesFrom, hr, hd]
        · have := ih (n + 1) (line ++ [c]) hr (by simp)
          have e : absorbLoop n line (.byte c :: r) = absorbLoop (n + 1) (line ++ [c]) r := by
            simp [absorbLoop, h10, h13]
          rw [e]
          refine ⟨?_, this.2⟩
          obtain ⟨hk, h⟩ := this.1
          refine ⟨hk, ?_⟩
          have e2 : linesFrom line (bytes (.byte c :: r)) = linesFrom (line ++ [c]) (bytes r) := by
            simp [bytes, linesFrom, h10, h13]
          rw [e2]
          rcases h with h | h | h
          · exact .inl h
          · exact .inr (.inl ⟨h.1, by simp; omega, h.2.2⟩)
          · exact .inr (.inr ⟨h.1, h.2.1, h.2.2.1, by simp; omega, h.2.2.2.2⟩)

/-- The three ways `nextLoop` can end. -/
def Ending (line : List UInt8) (a : List Arr) (s : Stream) (l : List UInt8) : Prop :=
  CrOk s.arrivals ∧
  ((s.eof = true ∧ s.timeoutFail = false ∧ s.arrivals = [] ∧ linesFrom line (bytes a) = nonEmpty l) ∨
   (s.timeoutFail = true ∧ s.arrivals.length < a.length ∧
      linesFrom line (bytes a) = linesFrom l (bytes s.arrivals)) ∨
   (s.eof = false ∧ s.fail = false ∧ s.timeoutFail = false ∧ s.arrivals.length < a.length ∧ l ≠ [] ∧
      linesFrom line (bytes a) = l :: linesFrom [] (bytes s.arrivals)))

theorem nextLoop_spec : ∀ (f : Nat) (s : Stream) (line : List UInt8) (k : Nat), s.eof = false → s.fail = false →
    s.arrivals.length < f → CrOk s.arrivals →
    Ending line s.arrivals (nextLoop f s line k).1 (nextLoop f s line k).2.1 ∧
      ((nextLoop f s line k).1.fail = true → (nextLoop f s line k).1.eof = true) := by
  intro f
  induction f with
  | zero => intro s line k _ _ h; omega
  | succ f ih =>
    intro s line k he hf hlen hc
    obtain ⟨⟨hk, h⟩, h2, h3⟩ := absorbLoop_spec s.arrivals 0 line hc (by simp)
    have e : absorb s line = absorbLoop 0 line s.arrivals := by simp [absorb, he, hf]
    rw [← e] at hk h h2 h3
    simp only [nextLoop]
    generalize absorb s line = q at *
    obtain ⟨s', l'⟩ := q
    simp only at *
    by_cases hf' : s'.fail = true
    · simp only [hf', ↓reduceIte]
      refine ⟨⟨hk, ?_⟩, fun _ => h3 hf'⟩
      rcases h with h | h | h
      · exact .inl h
      · exact .inr (.inl ⟨h.1, h.2.1, h.2.2.1⟩)
      · simp [h.2.1] at hf'
    · have hf'' : s'.fail = false := by simpa using hf'
      by_cases hl : l' = []
      · subst hl
        simp only [hf'', List.isEmpty_nil, ↓reduceIte, Bool.false_eq_true]
        have he' : s'.eof = false := by
          by_cases hh : s'.eof = true
          · exact absurd rfl (h2 hf'' hh)
          · simpa using hh
        have hlen' : s'.arrivals.length < s.arrivals.length := by
          rcases h with h | h | h
          · simp [h.1] at he'
          · exact h.2.1
          · exact h.2.2.2.1
        have hlines : linesFrom line (bytes s.arrivals) = linesFrom [] (bytes s'.arrivals) := by
          rcases h with h | h | h
          · simp [h.1] at he'
          · exact h.2.2.1
          · simpa [nonEmpty_nil] using h.2.2.2.2
        obtain ⟨⟨i0, i1⟩, i2⟩ := ih s' [] (k + 1) he' hf'' (by omega) hk
        refine ⟨⟨i0, ?_⟩, i2⟩
        rw [hlines]
        rcases i1 with i | i | i
        · exact .inl i
        · exact .inr (.inl ⟨i.1, by omega, i.2.2⟩)
        · exact .inr (.inr ⟨i.1, i.2.1, i.2.2.1, by omega, i.2.2.2.2⟩)
      · have hl' : l'.isEmpty = false := by simpa using hl
        simp only [hf'', hl', ↓reduceIte, Bool.false_eq_true]
        refine ⟨⟨hk, ?_⟩, fun c => absurd c (by simp)⟩
        rcases h with h | h | h
        · exact .inl h
        · exact .inr (.inl ⟨h.1, h.2.1, h.2.2.1⟩)
        · exact .inr (.inr ⟨h.1, h.2.1, h.2.2.1, h.2.2.2.1, hl, by simpa [nonEmpty_ne hl] using h.2.2.2.2⟩)

/-- How much is left to do. -/
def measure (r : LineRange) : Nat :=
  if r.input.eof || r.input.fail then (if r.done then 0 else 1) else r.input.arrivals.length + 2

theorem nextTimeout_spec (r : LineRange) (hi : Inv r) (hd : r.done = false) :
    Inv (nextTimeout r).2 ∧ measure (nextTimeout r).2 < measure r ∧
    (nextTimeout r).2.timedOut = (nextTimeout r).1 ∧
    (if (nextTimeout r).1 then pending r = pending (nextTimeout r).2
     else pending r = nonEmpty (nextTimeout r).2.line ++ pending (nextTimeout r).2) := by
  obtain ⟨h1, h2, h3, h4⟩ := hi
  by_cases hbad : r.input.eof = true ∨ r.input.fail = true
  · obtain ⟨ha, ht⟩ := h1 hbad
    have htf := h3 ht
    have he : r.input.eof = true := hbad.elim id h4
    have hp : pending r = [] := by simp [pending, he]
    have hm : measure r = 1 := by simp [measure, he, hd]
    have key : nextTimeout r = (false, { r with input := { r.input with fail := true }, line := [], timedOut := false }) := by
      by_cases hf : r.input.fail = true
      · simp only [nextTimeout, ht, nextImpl]
        simp [hf, htf]
        cases hr : r.input
        simp_all
      · have hf : r.input.fail = false := by simpa using hf
        simp [nextTimeout, ht, nextImpl, hf, nextLoop, absorb, he, htf]
    rw [key, hp, hm]
    simp [Inv, ha, CrOk, htf, he, measure, LineRange.done, pending, nonEmpty_nil]
  · have he : r.input.eof = false := by simp at hbad; exact hbad.1
    have hf : r.input.fail = false := by simp at hbad; exact hbad.2
    have hm : measure r = r.input.arrivals.length + 2 := by simp [measure, he, hf]
    obtain ⟨⟨k0, k1⟩, k2⟩ := nextLoop_spec (r.input.arrivals.length + 2) r.input
      (if r.timedOut then r.line else []) r.lineNumber he hf (by omega) h2
    have key : nextTimeout r =
        let q := nextLoop (r.input.arrivals.length + 2) r.input (if r.timedOut then r.line else []) r.lineNumber
        (q.1.timeoutFail, ⟨if q.1.timeoutFail then { q.1 with eof := false, fail := false } else q.1, q.2.1, q.2.2, q.1.timeoutFail⟩) := by
      cases ht : r.timedOut <;> simp [nextTimeout, nextImpl, hf, ht]
    have hp : pending r = linesFrom (if r.timedOut then r.line else []) (bytes r.input.arrivals) := by
      simp [pending, he, hf]
    rw [key, hp, hm]
    generalize nextLoop (r.input.arrivals.length + 2) r.input (if r.timedOut then r.line else []) r.lineNumber = q at *
    obtain ⟨s, l, k⟩ := q
    simp only at *
    rcases k1 with c | c | c
    · obtain ⟨c1, c2, c3, c4⟩ := c
      simp [Inv, c1, c2, c3, c4, CrOk, measure, pending]
      split <;> omega
    · obtain ⟨c1, c2, c3⟩ := c
      simp [Inv, c1, c3, measure, pending, k0]
      omega
    · obtain ⟨c1, c2, c3, c4, c5, c6⟩ := c
      simp [Inv, c1, c2, c3, c6, measure, pending, k0, nonEmpty_ne c5]
      omega

theorem pending_done (r : LineRange) (hd : r.done = true) : pending r = [] := by
  simp [LineRange.done] at hd
  simp [pending, hd.2]

theorem request_spec : ∀ (n : Nat) (r : LineRange), Inv r →
    pending r = (request n r).1 ++ pending (request n r).2 ∧ Inv (request n r).2 ∧
      (measure r ≤ n → (request n r).2.done = true) := by
  intro n
  induction n with
  | zero =>
    intro r hi
    refine ⟨rfl, hi, fun h => ?_⟩
    simp only [request]
    simp only [measure] at h
    split at h
    · split at h
      · assumption
      · omega
    · omega
  | succ n ih =>
    intro r hi
    by_cases hd : r.done = true
    · simp [request, hd, hi]
    · have hd : r.done = false := by simpa using hd
      obtain ⟨a1, a2, a3, a4⟩ := nextTimeout_spec r hi hd
      obtain ⟨b1, b2, b3⟩ := ih (nextTimeout r).2 a1
      simp only [request, hd]
      refine ⟨?_, b2, fun h => b3 (by omega)⟩
      simp only [Bool.false_eq_true, ↓reduceIte]
      by_cases ht : (nextTimeout r).1 = true
      · simp [ht] at a4 ⊢
        rw [a4, b1]
      · simp at ht
        simp [ht] at a4 ⊢
        rw [a4, b1]
        by_cases hl : (nextTimeout r).2.line = []
        · simp [hl, nonEmpty_nil]
        · simp [hl, nonEmpty]

theorem inv_init (a : List Arr) (h : CrOk a) : Inv (.init a) := by
  simp [Inv, LineRange.init, h]

theorem pending_init (a : List Arr) : pending (.init a) = linesOf (bytes a) := by
  simp [pending, LineRange.init, linesOf]

end Verif.Reader
