import Verif.Sink.Model
/-!
C94: what a sink writes.
-/
namespace Verif.Sink
variable {R : Type}

/-- The events that arrive: those of all slices that could be transformed. -/
def Spec.arriving : List (Msg R) → List R
  | [] => []
  | .slice (some xs) _ _ :: ms => xs ++ Spec.arriving ms
  | _ :: ms => Spec.arriving ms

/-- Slices only, and a writer that takes them. -/
def Spec.Plain (m : Msg R) : Prop := ∃ t i, m = .slice t true i

/-- Limits are 64-bit numbers. -/
def Spec.Fits : Msg R → Prop
  | .limit n => n < 2 ^ 64
  | _ => True

/-- The invariant. -/
structure Inv (s : State R) : Prop where
  count : s.processed = s.written.length
  le : s.processed ≤ s.max
  lt : s.over = none → s.processed < s.max
  fits : s.max < 2 ^ 64

theorem start_inv (n : Nat) (h : n < 2 ^ 64) : Inv (start n : State R) := by
  unfold start
  refine ⟨rfl, Nat.zero_le _, fun _ => ?_, ?_⟩ <;> simp only <;> split <;> omega

theorem remaining_eq {s : State R} (h : Inv s) (ho : s.over = none) : (s.max + 2 ^ 64 - s.processed) % 2 ^ 64 = s.max - s.processed := by
  have := h.lt ho; have := h.fits
  omega

/-- A slice that is written. -/
theorem onSlice_some {s : State R} (h : Inv s) (ho : s.over = none) (xs : List R) (i : Bool) :
    (onSlice s (some xs) true i).written = s.written ++ xs.take (s.max - s.written.length)
    ∧ (onSlice s (some xs) true i).max = s.max
    ∧ ((onSlice s (some xs) true i).over = none ↔ s.written.length + xs.length < s.max)
    ∧ ((onSlice s (some xs) true i).over ≠ none → (onSlice s (some xs) true i).flushed = (onSlice s (some xs) true i).written.length
        ∧ (onSlice s (some xs) true i).over = some false)
    ∧ Inv (onSlice s (some xs) true i) := by
  have hr := remaining_eq h ho
  have hlt := h.lt ho
  have hf := h.fits
  have hc := h.count
  unfold onSlice
  simp only [hr]
  rw [if_neg (by omega : ¬ s.max - s.processed = 0)]
  simp only [Bool.true_eq_false, if_false]
  have hy : (if xs.length > s.max - s.processed then xs.take (s.max - s.processed) else xs) = xs.take (s.max - s.processed) := by
    split
    · rfl
    · rw [List.take_of_length_le (by omega)]
  rw [hy]
  have hl : (xs.take (s.max - s.processed)).length = min (s.max - s.processed) xs.length := List.length_take
  have hm : (s.processed + (xs.take (s.max - s.processed)).length) % 2 ^ 64 = s.processed + (xs.take (s.max - s.processed)).length :=
    Nat.mod_eq_of_lt (by omega)
  rw [hm]
  have hc' : s.processed + (xs.take (s.max - s.processed)).length = (s.written ++ xs.take (s.max - s.processed)).length := by
    rw [List.length_append]; omega
  have hn : s.max - s.written.length = s.max - s.processed := by omega
  rw [hn]
  split
  · simp only [reached]
    refine ⟨trivial, trivial, ?_, fun _ => ⟨trivial, trivial⟩, hc', by simp only; omega, by simp, hf⟩
    simp; omega
  · split
    · refine ⟨rfl, rfl, ?_, fun h => absurd ho h, hc', by simp only; omega, fun _ => by simp only; omega, hf⟩
      simp [ho]; omega
    · refine ⟨rfl, rfl, ?_, fun h => absurd ho h, hc', by simp only; omega, fun _ => by simp only; omega, hf⟩
      simp [ho]; omega

theorem step_over {s : State R} (h : s.over ≠ none) (m : Msg R) : step s m = s := by
  unfold step
  rw [if_pos (Option.isSome_iff_ne_none.mpr h)]

theorem run_over {s : State R} (h : s.over ≠ none) (ms : List (Msg R)) : run s ms = s := by
  induction ms with
  | nil => rfl
  | cons m ms ih => simp only [run, List.foldl_cons, step_over h] at ih ⊢; exact ih

theorem step_inv {s : State R} (h : Inv s) (m : Msg R) (hm : Spec.Fits m) : Inv (step s m) := by
  cases ho : s.over with
  | some b => rw [step_over (by simp [ho])]; exact h
  | none =>
    unfold step
    rw [ho]
    simp only [Option.isSome_none, Bool.false_eq_true, if_false]
    cases m with
    | slice t w i =>
      cases t with
      | none => exact h
      | some xs =>
        cases w with
        | true => exact (onSlice_some h ho xs i).2.2.2.2
        | false =>
          have hr := remaining_eq h ho
          have := h.lt ho
          simp only [onSlice, hr, if_neg (by omega : ¬ s.max - s.processed = 0), if_true]
          exact ⟨h.count, h.le, by simp, h.fits⟩
    | limit n =>
      simp only
      split
      · rename_i hn
        exact ⟨h.count, Nat.le_of_lt hn, fun _ => hn, hm⟩
      · exact h
    | exit => exact ⟨h.count, h.le, by simp, h.fits⟩

theorem run_inv {s : State R} (h : Inv s) (ms : List (Msg R)) (hm : ∀ m ∈ ms, Spec.Fits m) : Inv (run s ms) := by
  induction ms generalizing s with
  | nil => exact h
  | cons m ms ih =>
    exact ih (step_inv h m (hm m (by simp))) (fun m' h' => hm m' (by simp [h']))

/-- The number of events that were written is at most the limit, and the sink counts them correctly; as long as it runs, they are
fewer. -/
theorem C94_below (n : Nat) (hn : n < 2 ^ 64) (ms : List (Msg R)) (hm : ∀ m ∈ ms, Spec.Fits m) :
    (run (start n) ms).processed = (run (start n) ms).written.length ∧ (run (start n) ms).written.length ≤ (run (start n) ms).max
    ∧ ((run (start n) ms).over = none → (run (start n) ms).written.length < (run (start n) ms).max) := by
  have h := run_inv (start_inv (R := R) n hn) ms hm
  exact ⟨h.count, h.count ▸ h.le, fun ho => h.count ▸ h.lt ho⟩

theorem plain_run {s : State R} (h : Inv s) (ms : List (Msg R)) (hp : ∀ m ∈ ms, Spec.Plain m) (ho : s.over = none) :
    (run s ms).written = s.written ++ (Spec.arriving ms).take (s.max - s.written.length)
    ∧ ((run s ms).over = none ↔ s.written.length + (Spec.arriving ms).length < s.max)
    ∧ ((run s ms).over ≠ none → (run s ms).over = some false ∧ (run s ms).flushed = (run s ms).written.length) := by
  induction ms generalizing s with
  | nil =>
    have := h.lt ho
    simp [run, Spec.arriving, ho, ← h.count, this]
  | cons m ms ih =>
    obtain ⟨t, i, rfl⟩ := hp m (by simp)
    have hp' : ∀ m ∈ ms, Spec.Plain m := fun m' h' => hp m' (by simp [h'])
    have hs : step s (.slice t true i) = onSlice s t true i := by simp [step, ho]
    have hrun : run s (.slice t true i :: ms) = run (onSlice s t true i) ms := by simp [run, hs]
    rw [hrun]
    cases t with
    | none =>
      have := ih h hp' ho
      simpa [onSlice, Spec.arriving] using this
    | some xs =>
      obtain ⟨w1, w2, w3, w4, w5⟩ := onSlice_some h ho xs i
      simp only [Spec.arriving, List.length_append]
      cases ho' : (onSlice s (some xs) true i).over with
      | some b =>
        have hne : (onSlice s (some xs) true i).over ≠ none := by simp [ho']
        have hge : ¬ s.written.length + xs.length < s.max := fun hh => hne (w3.mpr hh)
        rw [run_over hne, w1]
        refine ⟨?_, ?_, fun _ => ⟨(w4 hne).2, by rw [(w4 hne).1, w1]⟩⟩
        · rw [List.take_append_of_le_length (by omega)]
        · rw [ho']; simp; omega
      | none =>
        have hlt := w3.mp ho'
        obtain ⟨r1, r2, r3⟩ := ih w5 hp' ho'
        have hx : xs.take (s.max - s.written.length) = xs := List.take_of_length_le (by omega)
        rw [w1, w2, hx] at r1
        rw [w1, w2, hx] at r2
        rw [List.length_append] at r1 r2
        refine ⟨?_, ?_, r3⟩
        · rw [r1, List.append_assoc, List.take_append, hx]
          congr 3
          omega
        · rw [r2]; omega

/-- The sink writes the first events that arrive, in their order, up to the limit, where 0 stands for 2⁶⁴ - 1; it ends exactly when
that many have arrived, and then all it has written is flushed. -/
theorem C94_written (n : Nat) (hn : n < 2 ^ 64) (ms : List (Msg R)) (hp : ∀ m ∈ ms, Spec.Plain m) :
    (run (start n) ms).written = (Spec.arriving ms).take (if n = 0 then 2 ^ 64 - 1 else n)
    ∧ ((run (start n) ms).over = none ↔ (Spec.arriving ms).length < (if n = 0 then 2 ^ 64 - 1 else n))
    ∧ ((run (start n) ms).over ≠ none → (run (start n) ms).over = some false ∧ (run (start n) ms).flushed = (run (start n) ms).written.length) := by
  have := plain_run (start_inv (R := R) n hn) ms hp rfl
  have hmax : (start n : State R).max = if n = 0 then 2 ^ 64 - 1 else n := by
    unfold start; simp only; split <;> split <;> omega
  rw [hmax] at this
  simpa [start] using this

/-- Three slices, one of which cannot be transformed, for a limit of three. -/
example : let ms : List (Msg Nat) := [.slice (some [1, 2]) true false, .slice none true false, .slice (some [3, 4]) true true]
    (∀ m ∈ ms, Spec.Plain m) ∧ (run (start 3) ms).written = [1, 2, 3] ∧ (run (start 3) ms).over = some false ∧ (run (start 3) ms).flushed = 3
    ∧ (run (start 0) ms).written = [1, 2, 3, 4] ∧ (run (start 0) ms).over = none := by
  refine ⟨?_, by decide, by decide, by decide, by decide +kernel, by decide +kernel⟩
  intro m hm
  simp at hm
  rcases hm with rfl | rfl | rfl
  · exact ⟨_, _, rfl⟩
  · exact ⟨_, _, rfl⟩
  · exact ⟨_, _, rfl⟩

/-- A new limit counts from the first event on, if it is above the number of events written so far; otherwise it is ignored. -/
theorem C94_limit (n : Nat) (hn : n < 2 ^ 64) (ms : List (Msg R)) (hm : ∀ m ∈ ms, Spec.Fits m) (k : Nat) (hk : k < 2 ^ 64)
    (ms' : List (Msg R)) (hp : ∀ m ∈ ms', Spec.Plain m) (ho : (run (start n) ms).over = none) :
    let s := run (start n) ms
    (run (start n) (ms ++ .limit k :: ms')).written
      = (s.written ++ Spec.arriving ms').take (if s.written.length < k then k else s.max) := by
  intro s
  have h : Inv s := run_inv (start_inv (R := R) n hn) ms hm
  have hstep : run (start n) (ms ++ .limit k :: ms') = run (step s (.limit k)) ms' := by simp [run, s]
  have ho : s.over = none := ho
  have hs : step s (.limit k) = { s with max := if s.written.length < k then k else s.max } := by
    have : step s (.limit k) = if s.processed < k then { s with max := k } else s := by simp [step, ho]
    rw [this, ← h.count]
    split <;> rfl
  have hi : Inv (step s (.limit k)) := step_inv h _ hk
  rw [hs] at hi
  obtain ⟨r, _, _⟩ := plain_run hi ms' hp ho
  rw [hstep, hs, r]
  have hle : s.written.length ≤ (if s.written.length < k then k else s.max) := by
    have := h.le; have := h.count; split <;> omega
  simp only
  rw [List.take_append, List.take_of_length_le hle]

example : let ms : List (Msg Nat) := [.slice (some [1, 2]) true false]
    (run (start 3) ms).over = none ∧ (run (start 3) (ms ++ .limit 5 :: [.slice (some [3, 4, 5, 6]) true false])).written = [1, 2, 3, 4, 5]
    ∧ (run (start 3) (ms ++ .limit 2 :: [.slice (some [3, 4, 5, 6]) true false])).written = [1, 2, 3] := by
  refine ⟨by decide, by decide, by decide⟩

theorem onSlice_prefix {s : State R} (h : Inv s) (ho : s.over = none) (t : Option (List R)) (w i : Bool) :
    ∃ ys, (onSlice s t w i).written = s.written ++ ys ∧ ys <+: t.getD [] := by
  cases t with
  | none => exact ⟨[], by simp [onSlice], by simp⟩
  | some xs =>
    cases w with
    | true => exact ⟨_, (onSlice_some h ho xs i).1, List.take_prefix _ _⟩
    | false =>
      have := h.lt ho
      refine ⟨[], ?_, by simp⟩
      simp only [onSlice, remaining_eq h ho, if_neg (by omega : ¬ s.max - s.processed = 0), if_true, List.append_nil]

theorem full_slice {s : State R} (h : Inv s) (ho : s.over = none) (xs : List R) (i : Bool)
    (ho' : (onSlice s (some xs) true i).over = none) : (onSlice s (some xs) true i).written = s.written ++ xs := by
  obtain ⟨w1, _, w3, _⟩ := onSlice_some h ho xs i
  rw [w1, List.take_of_length_le (by have := w3.mp ho'; omega)]

/-- Whatever happens, with new limits, errors and requests to end, what was written is the beginning of what arrived: nothing is
left out, repeated or swapped. -/
theorem C94_prefix (n : Nat) (hn : n < 2 ^ 64) (ms : List (Msg R)) (hm : ∀ m ∈ ms, Spec.Fits m) :
    (run (start n) ms).written <+: Spec.arriving ms
    ∧ ((run (start n) ms).over = none → (run (start n) ms).written = Spec.arriving ms) := by
  have key : ∀ (s : State R) (ms : List (Msg R)), Inv s → (∀ m ∈ ms, Spec.Fits m) → s.over = none →
      ∃ ys, (run s ms).written = s.written ++ ys ∧ ys <+: Spec.arriving ms ∧ ((run s ms).over = none → ys = Spec.arriving ms) := by
    intro s ms h hm ho
    induction ms generalizing s with
    | nil => exact ⟨[], by simp [run], by simp [Spec.arriving], fun _ => rfl⟩
    | cons m ms ih =>
      have hf := hm m (by simp)
      have hm' : ∀ m ∈ ms, Spec.Fits m := fun m' h' => hm m' (by simp [h'])
      have hi := step_inv h m hf
      have hrun : run s (m :: ms) = run (step s m) ms := rfl
      rw [hrun]
      cases m with
      | slice t w i =>
        have hs : step s (.slice t w i) = onSlice s t w i := by simp [step, ho]
        rw [hs] at hi ⊢
        obtain ⟨ys, y1, y2⟩ := onSlice_prefix h ho t w i
        have harr : Spec.arriving (.slice t w i :: ms) = t.getD [] ++ Spec.arriving ms := by cases t <;> simp [Spec.arriving]
        rw [harr]
        cases ho' : (onSlice s t w i).over with
        | some b =>
          rw [run_over (by simp [ho'])]
          exact ⟨ys, y1, List.IsPrefix.trans y2 (List.prefix_append _ _), fun hh => by simp [ho'] at hh⟩
        | none =>
          have e : (onSlice s t w i).written = s.written ++ t.getD [] := by
            cases t with
            | none => simp [onSlice]
            | some xs =>
              cases w with
              | true => exact full_slice h ho xs i ho'
              | false =>
                have := h.lt ho
                simp [onSlice, remaining_eq h ho, if_neg (by omega : ¬ s.max - s.processed = 0)] at ho'
          obtain ⟨zs, z1, z2, z3⟩ := ih _ hi hm' ho'
          refine ⟨t.getD [] ++ zs, by rw [z1, e, List.append_assoc], ?_, fun hh => by rw [z3 hh]⟩
          exact (List.prefix_append_right_inj _).mpr z2
      | limit k =>
        have hs : ∃ k', step s (.limit k) = { s with max := k' } := by
          have : step s (.limit k) = if s.processed < k then { s with max := k } else s := by simp [step, ho]
          rw [this]
          split
          · exact ⟨k, rfl⟩
          · exact ⟨s.max, rfl⟩
        obtain ⟨k', hs⟩ := hs
        rw [hs] at hi ⊢
        exact ih { s with max := k' } hi hm' ho
      | exit =>
        have hs : step s .exit = { s with over := some false } := by simp [step, ho]
        rw [hs, run_over (by simp)]
        exact ⟨[], by simp, by simp, by simp⟩
  obtain ⟨ys, y1, y2, y3⟩ := key (start n) ms (start_inv n hn) hm rfl
  have : (start n : State R).written = [] := rfl
  rw [this, List.nil_append] at y1
  rw [y1]
  exact ⟨y2, y3⟩

example : let ms : List (Msg Nat) := [.slice (some [1, 2]) true false, .limit 9, .slice (some [3]) false false, .slice (some [4]) true false]
    (∀ m ∈ ms, Spec.Fits m) ∧ (run (start 3) ms).written = [1, 2] ∧ (run (start 3) ms).over = some true := by
  refine ⟨?_, by decide, by decide⟩
  intro m hm
  simp at hm
  rcases hm with rfl | rfl | rfl | rfl <;> simp [Spec.Fits]

/-- An error of the writer ends the sink. -/
theorem C94_error (n : Nat) (hn : n < 2 ^ 64) (ms : List (Msg R)) (hm : ∀ m ∈ ms, Spec.Fits m) (xs : List R) (i : Bool)
    (ho : (run (start n) ms).over = none) (ms' : List (Msg R)) :
    (run (start n) (ms ++ .slice (some xs) false i :: ms')).over = some true
    ∧ (run (start n) (ms ++ .slice (some xs) false i :: ms')).written = (run (start n) ms).written := by
  have h : Inv (run (start n) ms) := run_inv (start_inv (R := R) n hn) ms hm
  have hlt := h.lt ho
  have hs : step (run (start n) ms) (.slice (some xs) false i) = { run (start n) ms with over := some true } := by
    simp [step, ho, onSlice, remaining_eq h ho, if_neg (by omega : ¬ (run (start n) ms).max - (run (start n) ms).processed = 0)]
  have e : run (start n) (ms ++ .slice (some xs) false i :: ms') = run (step (run (start n) ms) (.slice (some xs) false i)) ms' := by
    simp [run]
  rw [e, hs, run_over (by simp)]
  exact ⟨rfl, rfl⟩

end Verif.Sink
