import Verif.Processor.Spec

/-! # Lemmas about counting -/

namespace Verif.Processor
open Verif.Processor.Spec

/-- The number of counts that the candidates send. -/
def numCounts (candidates : List Candidate) : Nat := (candidates.filterMap id).flatten.length

theorem total_cons_none (ps : List Candidate) : total (none :: ps) = total ps := rfl
theorem total_cons_some (c : List Nat) (ps : List Candidate) : total (some c :: ps) = c.sum + total ps := by
  simp [total]
theorem num_cons_none (ps : List Candidate) : numCounts (none :: ps) = numCounts ps := rfl
theorem num_cons_some (c : List Nat) (ps : List Candidate) : numCounts (some c :: ps) = c.length + numCounts ps := by
  simp [numCounts]

theorem sum_perm {a b : List Nat} (h : a.Perm b) : a.sum = b.sum := by
  induction h with
  | nil => rfl
  | cons _ _ ih => simp [ih]
  | swap _ _ _ => simp; omega
  | trans _ _ ih1 ih2 => rw [ih1, ih2]

theorem total_perm {a b : List Candidate} (h : a.Perm b) : total a = total b := by
  induction h with
  | nil => rfl
  | cons x _ ih =>
    cases x with
    | none => exact ih
    | some c => rw [total_cons_some, total_cons_some, ih]
  | swap x y _ =>
    cases x <;> cases y <;> simp only [total_cons_some, total_cons_none]
    omega
  | trans _ _ ih1 ih2 => rw [ih1, ih2]

theorem num_perm {a b : List Candidate} (h : a.Perm b) : numCounts a = numCounts b := by
  induction h with
  | nil => rfl
  | cons x _ ih =>
    cases x with
    | none => exact ih
    | some c => rw [num_cons_some, num_cons_some, ih]
  | swap x y _ =>
    cases x <;> cases y <;> simp only [num_cons_some, num_cons_none]
    omega
  | trans _ _ ih1 ih2 => rw [ih1, ih2]

theorem collect_spec : ∀ (n : Nat) (ps : List Candidate), (collect n ps).1.flatten.sum + total (collect n ps).2 = total ps ∧
    (collect n ps).1.flatten.length + numCounts (collect n ps).2 = numCounts ps ∧ (collect n ps).2.length ≤ ps.length - n
  | 0, ps => by simp [collect]
  | _ + 1, [] => by simp [collect]
  | n + 1, none :: ps => by
    obtain ⟨h1, h2, h3⟩ := collect_spec (n + 1) ps
    rw [collect]
    refine ⟨h1, h2, ?_⟩
    simp only [List.length_cons]
    omega
  | n + 1, some c :: ps => by
    obtain ⟨h1, h2, h3⟩ := collect_spec n ps
    rw [collect, total_cons_some, num_cons_some]
    refine ⟨?_, ?_, ?_⟩
    · simp only [List.flatten_cons, List.sum_append]; omega
    · simp only [List.flatten_cons, List.length_append]; omega
    · simp only [List.length_cons]; omega

/-- The candidates of an entry. -/
def left (pending : Option (List Candidate)) : List Candidate := pending.getD []

theorem serves_spec {pending pending' : Option (List Candidate)} {n : Nat} {msgs : List Msg} (hn : n ≠ 0)
    (h : Serves pending n msgs pending') : ∃ order : List Nat, msgs = order.map .count ++ [.done] ∧
      order.sum + total (left pending') = total (left pending) ∧ order.length + numCounts (left pending') = numCounts (left pending) ∧
      (left pending').length ≤ (left pending).length - n := by
  cases h with
  | drop => exact absurd rfl hn
  | unknown => exact ⟨[], rfl, by simp, by simp, by simp [left]⟩
  | batch _ ps ps' order _ hp ho =>
    obtain ⟨h1, h2, h3⟩ := collect_spec n ps'
    have hl : left (if (collect n ps').2.isEmpty then none else some (collect n ps').2) = (collect n ps').2 := by
      split
      · rename_i he; simp only [List.isEmpty_iff] at he; simp [left, he]
      · rfl
    rw [hl]
    refine ⟨order, rfl, ?_, ?_, ?_⟩
    · rw [sum_perm ho, h1]; exact total_perm hp
    · rw [ho.length_eq, h2]; exact num_perm hp
    · show _ ≤ ps.length - n
      rw [← hp.length_eq]; exact h3

theorem serves_exists (pending : Option (List Candidate)) {n : Nat} (hn : n ≠ 0) : ∃ msgs pending', Serves pending n msgs pending' := by
  cases pending with
  | none => exact ⟨_, _, .unknown n hn⟩
  | some ps => exact ⟨_, _, .batch n ps ps _ hn (List.Perm.refl _) (List.Perm.refl _)⟩

/-- What holds in all reachable states; the number bounds the steps that are left. -/
inductive Inv (taste : Nat) (candidates : List Candidate) : System → Nat → Prop where
  | start : Inv taste candidates initial (3 + numCounts candidates + candidates.length)
  | asked (s : System) (order : List Nat) (hp : s.processor = { phase := .awaitId })
      (hm : s.mail = .reply candidates.length (min candidates.length taste) :: (order.map .count ++ [.done]))
      (hr : s.result = 0) (hf : s.finished = false) (hsum : order.sum + total (left s.pending) = total candidates)
      (hl : (left s.pending).length ≤ candidates.length - min candidates.length taste) :
      Inv taste candidates s (order.length + 2 + numCounts (left s.pending) + (candidates.length - min candidates.length taste))
  | working (s : System) (order : List Nat) (hq : s.processor.quit = false) (hp : s.processor.phase = .awaitDone)
      (ht : s.processor.total = candidates.length) (hs : s.processor.received + s.processor.scheduled ≤ candidates.length)
      (hpos : candidates.length ≠ 0 → s.processor.scheduled ≠ 0) (hm : s.mail = order.map .count ++ [.done])
      (hf : s.finished = false) (hsum : s.result + order.sum + total (left s.pending) = total candidates)
      (hl : (left s.pending).length ≤ candidates.length - (s.processor.received + s.processor.scheduled)) :
      Inv taste candidates s (order.length + 1 + numCounts (left s.pending) +
        (candidates.length - (s.processor.received + s.processor.scheduled)))
  | finished (s : System) (hm : s.mail = []) (hf : s.finished = true) (hr : s.result = total candidates) : Inv taste candidates s 0

theorem inv_step {taste : Nat} (ht : taste ≠ 0) {candidates : List Candidate} {s s' : System} {m : Nat} (h : Inv taste candidates s m)
    (hstep : Step taste candidates s s') : ∃ m', Inv taste candidates s' m' ∧ m' < m := by
  obtain ⟨msg, rest, p, outs, hmail, hc, hs⟩ := hstep
  cases h with
  | finished _ hm => rw [hm] at hmail; cases hmail
  | start =>
    simp only [initial, List.cons.injEq] at hmail
    obtain ⟨rfl, rfl⟩ := hmail
    simp only [counter, initial, Bool.false_eq_true, if_false, Option.some.injEq, Prod.mk.injEq] at hc
    obtain ⟨rfl, rfl⟩ := hc
    cases hs with
    | none h =>
      subst h
      refine ⟨_, .asked _ [] rfl rfl rfl rfl rfl (by simp [initial, left]), ?_⟩
      simp [initial, left, numCounts]
    | query msgs pending h hserve =>
      have hn : min candidates.length taste ≠ 0 := by
        have := List.length_pos_iff.2 h
        omega
      obtain ⟨order, h1, h2, h3, h4⟩ := serves_spec hn hserve
      subst h1
      refine ⟨_, .asked _ order rfl rfl rfl rfl h2 h4, ?_⟩
      have : numCounts (left (some candidates)) = numCounts candidates := rfl
      simp only
      omega
  | asked _ order hp hm hr hf hsum hl =>
    rw [hm, List.cons.injEq] at hmail
    obtain ⟨rfl, rfl⟩ := hmail
    rw [hp] at hc
    simp only [counter, Bool.false_eq_true, if_false, Nat.min_le_left, if_true, Option.some.injEq, Prod.mk.injEq] at hc
    obtain ⟨rfl, rfl⟩ := hc
    cases hs
    refine ⟨_, .working _ order rfl rfl rfl (by simp; omega) ?_ rfl hf ?_ ?_, ?_⟩
    · intro h; simp only; omega
    · simp only; omega
    · simp only; omega
    · simp only; omega
  | working _ order hq hp htot hsch hpos hm hf hsum hl =>
    cases order with
    | cons x order =>
      rw [hm, List.map_cons, List.cons_append, List.cons.injEq] at hmail
      obtain ⟨rfl, rfl⟩ := hmail
      simp only [counter, hq, hp, Bool.false_eq_true, if_false, Option.some.injEq, Prod.mk.injEq] at hc
      obtain ⟨rfl, rfl⟩ := hc
      cases hs
      refine ⟨_, .working _ order hq hp htot hsch hpos rfl hf ?_ hl, ?_⟩
      · simp only [List.sum_cons] at hsum ⊢; omega
      · simp only [List.length_cons]; omega
    | nil =>
      rw [hm, List.map_nil, List.nil_append, List.cons.injEq] at hmail
      obtain ⟨rfl, rfl⟩ := hmail
      simp only [counter, hq, hp, Bool.false_eq_true, if_false, Option.map_eq_some_iff] at hc
      obtain ⟨n, hn, hc⟩ := hc
      rw [nextBatch] at hn
      simp only [htot] at hn
      rw [if_neg (by omega), if_pos (by omega), Option.some.injEq] at hn
      by_cases h0 : n = 0
      · rw [if_pos h0, Prod.mk.injEq] at hc
        obtain ⟨rfl, rfl⟩ := hc
        cases hs
        refine ⟨0, .finished _ rfl rfl ?_, by omega⟩
        have hz : left s.pending = [] := by
          apply List.eq_nil_of_length_eq_zero
          by_cases hc0 : candidates.length = 0
          · omega
          · have := hpos hc0; omega
        rw [hz] at hsum
        simpa [total] using hsum
      · rw [if_neg h0, Prod.mk.injEq] at hc
        obtain ⟨rfl, rfl⟩ := hc
        cases hs with
        | more _ msgs pending hserve =>
          obtain ⟨order, h1, h2, h3, h4⟩ := serves_spec h0 hserve
          subst h1
          simp only at h2 h3 h4
          refine ⟨_, .working _ order rfl rfl htot ?_ (fun _ => h0) rfl hf ?_ ?_, ?_⟩
          · simp only; omega
          · simp only [List.sum_nil] at hsum ⊢; omega
          · simp only; omega
          · simp only [List.length_nil]; omega

theorem inv_progress {taste : Nat} (ht : taste ≠ 0) {candidates : List Candidate} {s : System} {m : Nat} (h : Inv taste candidates s m) :
    s.finished = true ∨ ∃ s', Step taste candidates s s' := by
  cases h with
  | finished _ hm hf hr => exact .inl hf
  | start =>
    right
    by_cases h : candidates = []
    · exact ⟨_, .handle _ _ _ _ _ _ rfl rfl (.none _ h)⟩
    · have hn : min candidates.length taste ≠ 0 := by
        have := List.length_pos_iff.2 h
        omega
      obtain ⟨msgs, pending, hserve⟩ := serves_exists (some candidates) hn
      exact ⟨_, .handle _ _ _ _ _ _ rfl rfl (.query _ _ _ h hserve)⟩
  | asked _ order hp hm hr hf hsum hl =>
    right
    refine ⟨_, .handle _ _ _ _
      { phase := .awaitDone, received := 0, scheduled := min candidates.length taste, total := candidates.length } _ hm ?_ (.nothing _)⟩
    · rw [hp]
      simp only [counter, Bool.false_eq_true, if_false, Nat.min_le_left, if_true]
  | working _ order hq hp htot hsch hpos hm hf hsum hl =>
    right
    cases order with
    | cons x order =>
      refine ⟨_, .handle _ _ _ _ s.processor _ hm ?_ (.client _ x)⟩
      simp only [counter, hq, hp, Bool.false_eq_true, if_false]
    | nil =>
      by_cases h0 : min (candidates.length - (s.processor.received + s.processor.scheduled)) s.processor.scheduled = 0
      · refine ⟨_, .handle _ _ _ _ { s.processor with received := s.processor.received + s.processor.scheduled, quit := true } _ hm ?_ (.done _)⟩
        simp only [counter, hq, hp, Bool.false_eq_true, if_false, nextBatch, htot]
        rw [if_neg (by omega), if_pos (by omega), Option.map_some, if_pos h0]
      · obtain ⟨msgs, pending, hserve⟩ := serves_exists s.pending h0
        refine ⟨_, .handle _ _ _ _ { s.processor with
          received := s.processor.received + s.processor.scheduled,
          scheduled := min (candidates.length - (s.processor.received + s.processor.scheduled)) s.processor.scheduled } _ hm ?_ (.more _ _ _ _ hserve)⟩
        simp only [counter, hq, hp, Bool.false_eq_true, if_false, nextBatch, htot]
        rw [if_neg (by omega), if_pos (by omega), Option.map_some, if_neg h0]

theorem inv_steps {taste : Nat} (ht : taste ≠ 0) {candidates : List Candidate} {k : Nat} {s₀ s : System} (h : Steps taste candidates k s₀ s)
    (h0 : s₀ = initial) : ∃ m, Inv taste candidates s m ∧ k + m ≤ 3 + numCounts candidates + candidates.length := by
  induction h with
  | refl => subst h0; exact ⟨_, .start, by omega⟩
  | step _ h' ih =>
    obtain ⟨m, hi, hk⟩ := ih h0
    obtain ⟨m', hi', hlt⟩ := inv_step ht hi h'
    exact ⟨m', hi', by omega⟩

end Verif.Processor
