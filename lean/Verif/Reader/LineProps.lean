import Verif.Reader.LineLemmas
/-!
# C71: the lines a reader gets are the lines of its input

Whatever the moments at which the input stalls, a reader obtains the non-empty lines of the text it
reads, in order, each once and whole, and then learns that the input is exhausted.
-/
namespace Verif.Reader

/-- Whatever bytes arrive and wherever the input stalls in between: asking for lines until done
yields exactly the non-empty lines of the input, after at most as many requests as there are arrivals
plus two.  Hypothesis `CrOk`: the input does not stall right behind a carriage return that ends a
line by itself. -/
theorem C71_lines_partial (a : List Arr) (h : CrOk a) (n : Nat) (hn : a.length + 2 ≤ n) :
    (request n (.init a)).1 = linesOf (bytes a) ∧ (request n (.init a)).2.done = true := by
  obtain ⟨h1, _, h3⟩ := request_spec n (.init a) (inv_init a h)
  have hd := h3 (by simpa [measure, LineRange.init] using hn)
  rw [pending_init, pending_done _ hd] at h1
  exact ⟨by simpa using h1.symm, hd⟩

/-- After any number of requests, what was obtained is an initial part of the lines of the input. -/
theorem C71_prefix_partial (a : List Arr) (h : CrOk a) (n : Nat) :
    (request n (.init a)).1 <+: linesOf (bytes a) := by
  obtain ⟨h1, _, _⟩ := request_spec n (.init a) (inv_init a h)
  rw [pending_init] at h1
  exact ⟨_, h1.symm⟩

/-- Without time-outs, any bytes qualify, in particular text with carriage returns only. -/
theorem crOk_of_no_timeout (a : List Arr) (h : ∀ x ∈ a, x ≠ .timeout) : CrOk a := by
  induction a with
  | nil => trivial
  | cons x r ih =>
    cases x with
    | timeout => exact absurd rfl (h .timeout (by simp))
    | byte c =>
      refine ⟨fun _ r' e => ?_, ih fun y hy => h y (by simp [hy])⟩
      subst e
      exact absurd rfl (h .timeout (by simp))

/-- Without carriage returns, any pattern of time-outs qualifies. -/
theorem crOk_of_no_cr (a : List Arr) (h : ∀ x ∈ a, x ≠ .byte 13) : CrOk a := by
  induction a with
  | nil => trivial
  | cons x r ih =>
    have ih := ih fun y hy => h y (by simp [hy])
    cases x with
    | timeout => exact ih
    | byte c =>
      refine ⟨fun e => ?_, ih⟩
      subst e
      exact absurd rfl (h _ (by simp))

/-- C71 for an input that never stalls (a file). -/
theorem C71_file (bs : List UInt8) :
    (request (bs.length + 2) (.init (bs.map .byte))).1 = linesOf bs := by
  have e : ∀ l : List UInt8, bytes (l.map .byte) = l := by
    intro l; induction l with
    | nil => rfl
    | cons x r ih => simp [bytes, ih]
  have := C71_lines_partial (bs.map .byte) (crOk_of_no_timeout _ (by simp)) (bs.length + 2) (by simp)
  rw [e] at this
  exact this.1

/-- C71 for text whose lines end in a line feed only, wherever the input stalls. -/
theorem C71_lf (a : List Arr) (h : ∀ x ∈ a, x ≠ .byte 13) :
    (request (a.length + 2) (.init a)).1 = linesOf (bytes a) :=
  (C71_lines_partial a (crOk_of_no_cr a h) _ (Nat.le_refl _)).1

/-- A line that ends in a carriage return, followed by a stall: the line is not delivered, and the next
line is glued to it. -/
theorem C71_glued_refuted : ∃ a : List Arr,
    linesOf (bytes a) = [[65], [66]] ∧ (request (a.length + 2) (.init a)).1 = [[65, 66]] :=
  ⟨[.byte 65, .byte 13, .timeout, .byte 66, .byte 13], by decide, by decide⟩

/-- The hypothesis of the theorems holds for an input with every kind of line ending and with stalls in
the middle of a line, between the two bytes of a line ending, and at the end. -/
example : CrOk [.byte 65, .timeout, .byte 66, .byte 13, .timeout, .byte 10, .byte 10, .byte 13, .byte 67, .timeout] ∧
    linesOf (bytes [.byte 65, .timeout, .byte 66, .byte 13, .timeout, .byte 10, .byte 10, .byte 13, .byte 67, .timeout])
      = [[65, 66], [67]] := by
  refine ⟨?_, by decide⟩
  simp [CrOk, bytes]

/-- The same input, obtained request by request. -/
example : (request 12 (.init [.byte 65, .timeout, .byte 66, .byte 13, .timeout, .byte 10, .byte 10, .byte 13, .byte 67, .timeout])).1
    = [[65, 66], [67]] := by decide

end Verif.Reader
