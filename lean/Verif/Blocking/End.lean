import Verif.Blocking.Own
import Verif.Blocking.Spec
/-! # The length of executions -/
namespace Verif.Blocking
open Spec

theorem work_le (s : State) : s.work ≤ 10 * s.slices.length + 6 := by
  have h1 : ∀ x : Slice, x.work ≤ 10 := by
    intro x
    unfold Slice.work
    have h2 : ∀ b : Bool, (if b = true then 0 else 1) ≤ 1 := by decide
    have := h2 x.ackIndex
    have := h2 x.ackPart
    have := h2 x.stored
    split <;> omega
  have h2 : ∀ l : List Slice, (l.map Slice.work).sum ≤ 10 * l.length := by
    intro l
    induction l with
    | nil => exact Nat.le_refl _
    | cons x l ih =>
      have := h1 x
      simp only [List.map_cons, List.sum_cons, List.length_cons]
      omega
  have h3 : s.sub.work ≤ 6 := by cases s.sub <;> simp [Sub.work]
  have := h2 s.slices
  unfold State.work
  omega

theorem isPush_false {e : Event} (h : ∀ own rows, e ≠ .push own rows) : e.isPush = false := by
  cases e with
  | push own rows => exact absurd rfl (h own rows)
  | _ => rfl

theorem progress_work {cap : Nat} {s : State} (hi : Inv s) {es : List Event} (h : Progress cap s es) : es.length ≤ s.work := by
  induction es generalizing s with
  | nil => exact Nat.zero_le _
  | cons e es ih =>
    obtain ⟨h1, h2, h3⟩ := h
    have := ih (inv_step hi e) h3
    rcases work_step (cap := cap) hi e (isPush_false h1) with h4 | h4
    · exact absurd h4 h2
    · simp only [List.length_cons]
      omega

end Verif.Blocking
