import Verif.DataText.Lemmas
import Verif.DataText.Spec

/-!
Printed strings and patterns read back.
-/
namespace Verif.DataText
open Verif.Data Spec

theorem trail_cons_ne {c : UInt8} (h : c ≠ backslash) (a : Str) : trail (c :: a) = trail a := by
  unfold trail
  rw [List.reverse_cons]
  have : ∀ l : Str, List.takeWhile (· == backslash) (l ++ [c]) = List.takeWhile (· == backslash) l := by
    intro l
    induction l with
    | nil => simp [h]
    | cons x l ih => simp only [List.cons_append, List.takeWhile_cons]; split <;> simp_all
  rw [this]

/-- Two more backslashes at the front do not change the parity. -/
theorem trail_pair (a : Str) : trail (backslash :: backslash :: a) % 2 = trail a % 2 := by
  unfold trail
  rw [List.reverse_cons, List.reverse_cons, List.append_assoc]
  have : ∀ l : Str, (List.takeWhile (· == backslash) (l ++ ([backslash] ++ [backslash]))).length % 2 =
      (List.takeWhile (· == backslash) l).length % 2 := by
    intro l
    induction l with
    | nil => simp [backslash]
    | cons x l ih => simp only [List.cons_append, List.takeWhile_cons]; split <;> simp_all <;> omega
  exact this _

/-- A backslash in front of another character does not count. -/
theorem trail_skip {d : UInt8} (h : d ≠ backslash) (a : Str) : trail (backslash :: d :: a) = trail (d :: a) := by
  unfold trail
  rw [List.reverse_cons (a := backslash), List.reverse_cons]
  have : ∀ l : Str, List.takeWhile (· == backslash) (l ++ [d] ++ [backslash]) = List.takeWhile (· == backslash) (l ++ [d]) := by
    intro l
    induction l with
    | nil => simp [h]
    | cons x l ih => simp only [List.cons_append, List.takeWhile_cons] at *; split <;> simp_all
  rw [this]

theorem ch_backslash : ch '\\' = backslash := by decide
theorem ch_quote : ch '"' = quote := by decide
theorem ch_slash : ch '/' = slash := by decide

theorem isPrint_iff (b : UInt8) : isPrint b = true ↔ Visible b := by
  simp only [isPrint, Visible, Bool.and_eq_true, decide_eq_true_eq]; omega

theorem isPrint_cntrl {b : UInt8} (h : isPrint b = true) : isCntrl b = false := by
  simp only [isPrint, isCntrl, Bool.and_eq_true, decide_eq_true_eq, Bool.or_eq_false_iff, decide_eq_false_iff_not,
    beq_eq_false_iff_ne] at *
  omega

/-- One character that is nothing special. -/
theorem quotedBody_plain (q c : UInt8) (s : Str) (hc : isCntrl c = false) (hq : c ≠ q) (hb : c ≠ ch '\\' ∨
    headNot (fun d => d == q || d == ch '\\') s = true) :
    quotedBody q (c :: s) = (c :: (quotedBody q s).1, (quotedBody q s).2) := by
  cases s with
  | nil => simp [quotedBody, hc, hq]
  | cons d s =>
    rw [quotedBody]
    have h1 : ¬ (c = ch '\\' ∧ d = q) := by
      rintro ⟨h1, h2⟩
      rcases hb with hb | hb
      · exact hb h1
      · simp [h2] at hb
    have h2 : ¬ (c = ch '\\' ∧ d = ch '\\') := by
      rintro ⟨h1, h2⟩
      rcases hb with hb | hb
      · exact hb h1
      · simp [h2] at hb
    rw [if_neg h1, if_neg h2, if_neg (by simp [hc, hq])]

theorem quotedBody_pair (q : UInt8) (hq : q ≠ ch '\\') (s : Str) :
    quotedBody q (ch '\\' :: ch '\\' :: s) = (ch '\\' :: ch '\\' :: (quotedBody q s).1, (quotedBody q s).2) := by
  rw [quotedBody, if_neg (by simp [Ne.symm hq]), if_pos ⟨rfl, rfl⟩]

theorem quotedBody_escaped (q : UInt8) (s : Str) :
    quotedBody q (ch '\\' :: q :: s) = (q :: (quotedBody q s).1, (quotedBody q s).2) := by
  rw [quotedBody, if_pos ⟨rfl, rfl⟩]

theorem quotedBody_end (q : UInt8) (hq : q ≠ ch '\\') (r : Str) : quotedBody q (q :: r) = ([], q :: r) := by
  cases r with
  | nil => simp [quotedBody]
  | cons d r => rw [quotedBody, if_neg (by simp [hq]), if_neg (by simp [hq]), if_pos (.inr rfl)]

theorem StringOk.tail_plain {c : UInt8} {s : Str} (hc : c ≠ backslash) (h : StringOk (c :: s)) : StringOk s := by
  refine ⟨fun b hb => h.1 b (by simp [hb]), fun a b e hb => ?_⟩
  have := h.2 (c :: a) b (by simp [e]) hb
  rwa [trail_cons_ne hc] at this

theorem StringOk.tail_pair {s : Str} (h : StringOk (backslash :: backslash :: s)) : StringOk s := by
  refine ⟨fun b hb => h.1 b (by simp [hb]), fun a b e hb => ?_⟩
  have := h.2 (backslash :: backslash :: a) b (by simp [e]) hb
  rwa [trail_pair] at this

theorem StringOk.tail_skip {d : UInt8} {s : Str} (hd : d ≠ backslash) (h : StringOk (backslash :: d :: s)) :
    StringOk (d :: s) := by
  refine ⟨fun b hb => h.1 b (by simp only [List.mem_cons] at *; exact .inr hb), fun a b e hb => ?_⟩
  cases a with
  | nil => rfl
  | cons x a =>
    injection e with e1 e2
    subst e1
    have := h.2 (backslash :: d :: a) b (by simp [e2]) hb
    rwa [trail_skip hd] at this

theorem escapeByte_plain {b : UInt8} (h : Visible b) (hq : b ≠ quote) : escapeByte b = [b] := by
  simp [escapeByte, ch_quote, hq, (isPrint_iff b).mpr h]

theorem escapeByte_quote : escapeByte quote = [ch '\\', quote] := by decide

theorem quotedBody_string (s : Str) (h : StringOk s) (r : Str) :
    quotedBody quote (s.flatMap escapeByte ++ quote :: r) = (s, quote :: r) := by
  match s with
  | [] => exact quotedBody_end quote (by decide) r
  | [c] =>
    have hv := h.1 c (by simp)
    by_cases hq : c = quote
    · subst hq
      simp only [List.flatMap_cons, escapeByte_quote, List.flatMap_nil, List.append_nil, List.cons_append, List.nil_append]
      rw [quotedBody_escaped, quotedBody_end quote (by decide) r]
    · have hb : c ≠ backslash := by
        intro e
        have := h.2 [c] [] (by simp) (.inl rfl)
        rw [e] at this
        simp [trail] at this
      simp only [List.flatMap_cons, escapeByte_plain hv hq, List.flatMap_nil, List.append_nil, List.cons_append, List.nil_append]
      rw [quotedBody_plain quote c _ (isPrint_cntrl ((isPrint_iff c).mpr hv)) hq (.inl (by rwa [ch_backslash])),
        quotedBody_end quote (by decide) r]
  | c :: d :: s =>
    have hv := h.1 c (by simp)
    have hc := isPrint_cntrl ((isPrint_iff c).mpr hv)
    by_cases hb : c = backslash
    · subst hb
      by_cases hd : d = backslash
      · subst hd
        have ih := quotedBody_string s (StringOk.tail_pair h) r
        simp only [List.flatMap_cons, escapeByte_plain hv (by decide), List.cons_append, List.nil_append]
        rw [← ch_backslash, quotedBody_pair quote (by decide), ih]
      · have ih := quotedBody_string (d :: s) (StringOk.tail_skip hd h) r
        have hdq : d ≠ quote := by
          intro e
          have := h.2 [backslash] (d :: s) (by simp) (.inr (by simp [e]))
          simp [trail] at this
        rw [List.flatMap_cons, escapeByte_plain hv (by decide)]
        have hd2 := escapeByte_plain (h.1 d (by simp)) hdq
        rw [List.cons_append, List.nil_append, List.cons_append,
          quotedBody_plain quote backslash _ hc (by decide) (.inr (by simp [List.flatMap_cons, hd2, hdq, ch_backslash, hd])), ih]
    · have ih := quotedBody_string (d :: s) (StringOk.tail_plain hb h) r
      by_cases hq : c = quote
      · subst hq
        rw [List.flatMap_cons, escapeByte_quote]
        simp only [List.cons_append, List.nil_append]
        rw [quotedBody_escaped, ih]
      · rw [List.flatMap_cons, escapeByte_plain hv hq, List.cons_append, List.nil_append, List.cons_append,
          quotedBody_plain quote c _ hc hq (.inl (by rwa [ch_backslash])), ih]
termination_by s.length

theorem quotedP_string (s : Str) (h : StringOk s) (r : Str) : quotedP '"' (printString s ++ r) = some (s, r) := by
  have := quotedBody_string s h r
  simp [quotedP, printString, eat, ch_quote, this]

theorem quotedBody_pattern (s : Str) (h : PatternOk s) (r : Str) :
    quotedBody slash (s ++ slash :: r) = (s, slash :: r) := by
  have hc : ∀ b ∈ s, isCntrl b = false ∧ b ≠ slash := by
    intro b hb
    obtain ⟨h1, h2, h3⟩ := h.1 b hb
    refine ⟨?_, h3⟩
    simp only [isCntrl, Bool.or_eq_false_iff, decide_eq_false_iff_not, beq_eq_false_iff_ne]
    omega
  match s with
  | [] => exact quotedBody_end slash (by decide) r
  | [c] =>
    have hb : c ≠ backslash := by
      intro e
      have := h.2
      rw [e] at this
      simp [trail] at this
    rw [List.cons_append, quotedBody_plain slash c _ (hc c (by simp)).1 (hc c (by simp)).2 (.inl (by rwa [ch_backslash])),
      List.nil_append, quotedBody_end slash (by decide) r]
  | c :: d :: s =>
    by_cases hb : c = backslash
    · subst hb
      by_cases hd : d = backslash
      · subst hd
        have ih := quotedBody_pattern s ⟨fun b hb => h.1 b (by simp [hb]), by rw [← trail_pair]; exact h.2⟩ r
        simp only [List.cons_append]
        rw [← ch_backslash, quotedBody_pair slash (by decide), ih]
      · have ih := quotedBody_pattern (d :: s) ⟨fun b hb => h.1 b (by simp only [List.mem_cons] at *; exact .inr hb),
          by rw [← trail_skip hd]; exact h.2⟩ r
        rw [List.cons_append, quotedBody_plain slash backslash _ (hc _ (by simp)).1 (by decide)
          (.inr (by simp [hd, ch_backslash, (hc d (by simp)).2])), ih]
    · have ih := quotedBody_pattern (d :: s) ⟨fun b hb => h.1 b (by simp only [List.mem_cons] at *; exact .inr hb),
          by rw [← trail_cons_ne hb]; exact h.2⟩ r
      rw [List.cons_append, quotedBody_plain slash c _ (hc c (by simp)).1 (hc c (by simp)).2 (.inl (by rwa [ch_backslash])), ih]
termination_by s.length

theorem quotedP_pattern (s : Str) (h : PatternOk s) (r : Str) : quotedP '/' (printPattern s ++ r) = some (s, r) := by
  have := quotedBody_pattern s h r
  simp [quotedP, printPattern, eat, ch_slash, this]

end Verif.DataText
