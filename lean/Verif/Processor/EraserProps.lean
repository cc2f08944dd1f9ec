import Verif.Processor.Spec

/-! # C106: Aging runs again and again -/

namespace Verif.Processor
open Verif.Processor.Spec

namespace Spec

/-- An eraser that nobody triggers: the messages are its timer, when there is one, and any messages of the index. -/
inductive Untriggered : Eraser → Prop where
  | start : Untriggered (Eraser.start true)
  | step {e e' : Eraser} {m : EraserMsg} {outs : List EraserOut} (h : Untriggered e) (hm : m ≠ .trigger) (ht : m = .timer → e.timers ≠ 0)
      (he : e.handle m = some (e', outs)) : Untriggered e'

end Spec

/-- What holds of an eraser that nobody triggers. -/
structure Calm (e : Eraser) : Prop where
  valid : e.valid = true
  promise : e.promise = false
  timers : e.timers = if e.processor.phase = .idle then 1 else 0

theorem calm {e : Eraser} (h : Untriggered e) : Calm e := by
  induction h with
  | start => exact ⟨rfl, rfl, rfl⟩
  | @step e e' m outs _ hm ht he ih =>
    obtain ⟨h1, h2, h3⟩ := ih
    cases m with
    | trigger => exact absurd rfl hm
    | timer =>
      have ht := ht rfl
      simp only [Eraser.handle] at he
      by_cases hp : e.processor.phase = .idle
      · rw [if_pos hp] at h3
        rw [if_pos hp, Eraser.cycle] at he
        simp only [h1, if_true, Option.some.injEq, Prod.mk.injEq] at he
        obtain ⟨rfl, _⟩ := he
        exact ⟨rfl, h2, by simp [h3]⟩
      · rw [if_neg hp] at h3
        exact absurd h3 ht
    | reply total scheduled =>
      simp only [Eraser.handle] at he
      by_cases hp : e.processor.phase = .awaitId
      · rw [if_pos hp] at he
        rw [hp] at h3
        split at he
        · simp only [Option.some.injEq, Prod.mk.injEq] at he
          obtain ⟨rfl, _⟩ := he
          exact ⟨h1, h2, by simpa using h3⟩
        · cases he
      · rw [if_neg hp] at he
        cases he
        exact ⟨h1, h2, h3⟩
    | done =>
      simp only [Eraser.handle] at he
      by_cases hp : e.processor.phase = .awaitDone
      · rw [if_pos hp, Option.map_eq_some_iff] at he
        obtain ⟨n, _, he⟩ := he
        rw [hp] at h3
        simp only [reduceCtorEq, if_false] at h3
        split at he
        · simp only [Eraser.rest, h2, Bool.false_eq_true, if_false, Prod.mk.injEq] at he
          obtain ⟨rfl, _⟩ := he
          exact ⟨h1, rfl, by simp [h3]⟩
        · simp only [Prod.mk.injEq] at he
          obtain ⟨rfl, _⟩ := he
          exact ⟨h1, h2, by simp [hp, h3]⟩
      · rw [if_neg hp] at he
        cases he
        exact ⟨h1, h2, h3⟩

/-- C106: as long as nobody triggers the eraser, it either has a timer that will start the next cycle, one and no more, or it
    waits for the index; whatever messages come, in whichever order. Partial: the query has to be valid; a trigger can end
    aging for good, and so can an index that does not answer, see below. -/
theorem C106_timer_partial (e : Eraser) (h : Untriggered e) :
    (e.processor.phase = .idle ∧ e.timers = 1) ∨ (e.processor.phase ≠ .idle ∧ e.timers = 0) := by
  have hc := (calm h).timers
  by_cases hp : e.processor.phase = .idle
  · rw [if_pos hp] at hc; exact .inl ⟨hp, hc⟩
  · rw [if_neg hp] at hc; exact .inr ⟨hp, hc⟩

/-! ### Whole cycles -/

theorem run_append (e : Eraser) (xs ys : List EraserMsg) :
    e.run (xs ++ ys) = (e.run xs).bind fun r => (Eraser.run r.1 ys).map fun r' => (r'.1, r.2 ++ r'.2) := by
  induction xs generalizing e with
  | nil =>
    simp only [List.nil_append, Eraser.run, Option.bind_some]
    cases Eraser.run e ys <;> rfl
  | cons m xs ih =>
    simp only [List.cons_append, Eraser.run, ih]
    cases e.handle m with
    | none => rfl
    | some r =>
      simp only [Option.bind_some]
      cases Eraser.run r.1 xs with
      | none => rfl
      | some r' =>
        simp only [Option.bind_some, Option.map_some]
        cases Eraser.run r'.1 ys with
        | none => rfl
        | some r'' => simp [List.append_assoc]

theorem handle_done (e : Eraser) (n : Nat) (hph : e.processor.phase = .awaitDone)
    (hn : nextBatch { e.processor with received := e.processor.received + e.processor.scheduled } = some n) :
    e.handle .done = some (if n = 0 then { e with processor := { e.processor with
        received := e.processor.received + e.processor.scheduled } }.rest
      else ({ e with processor := { e.processor with received := e.processor.received + e.processor.scheduled, scheduled := n } }, [.more n])) := by
  simp only [Eraser.handle]
  rw [if_pos hph, hn]
  rfl

/-- The `done` messages of a query: from some point on, to the end. -/
theorem run_dones (taste : Nat) (ht : taste ≠ 0) : ∀ (b : Nat) (e : Eraser), e.promise = false → e.processor.phase = .awaitDone →
    e.processor.received < e.processor.total → e.processor.scheduled = min (e.processor.total - e.processor.received) taste →
    b = (e.processor.total - e.processor.received + taste - 1) / taste →
    ∃ p outs, e.run (List.replicate b .done) = some ({ e with processor := p, timers := e.timers + 1 }, outs) ∧ p.phase = .idle ∧
      cycles outs = 0 := by
  intro b
  induction b with
  | zero =>
    intro e _ _ hr _ hb
    exfalso
    have : 1 ≤ (e.processor.total - e.processor.received + taste - 1) / taste := by
      rw [Nat.le_div_iff_mul_le (by omega)]; omega
    omega
  | succ b ih =>
    intro e hpr hph hr hs hb
    have hnext : ∀ n, n = min (e.processor.total - (e.processor.received + e.processor.scheduled)) e.processor.scheduled →
        nextBatch { e.processor with received := e.processor.received + e.processor.scheduled } = some n := by
      intro n hn
      simp only [nextBatch]
      rw [if_neg (by omega), if_pos (by omega), hn]
    by_cases hlast : e.processor.total - e.processor.received ≤ taste
    · have hb0 : b = 0 := by
        have : (e.processor.total - e.processor.received + taste - 1) / taste < 2 := by
          rw [Nat.div_lt_iff_lt_mul (by omega)]; omega
        omega
      subst hb0
      refine ⟨{ e.processor with phase := .idle, received := e.processor.received + e.processor.scheduled }, [], ?_, rfl, rfl⟩
      simp only [List.replicate, Eraser.run, handle_done e 0 hph (hnext 0 (by omega)), if_true, Eraser.rest, hpr,
          Bool.false_eq_true, if_false, Option.bind_some, List.append_nil]
      rfl
    · have hn0 : min (e.processor.total - (e.processor.received + e.processor.scheduled)) e.processor.scheduled ≠ 0 := by omega
      have hb' : b = (e.processor.total - (e.processor.received + e.processor.scheduled) + taste - 1) / taste := by
        have h1 : e.processor.total - e.processor.received + taste - 1 =
            (e.processor.total - (e.processor.received + e.processor.scheduled) + taste - 1) + taste := by omega
        rw [h1, Nat.add_div_right _ (by omega)] at hb
        omega
      obtain ⟨p, outs, h1, h2, h3⟩ := ih { e with processor := { e.processor with
          received := e.processor.received + e.processor.scheduled,
          scheduled := min (e.processor.total - (e.processor.received + e.processor.scheduled)) e.processor.scheduled } } hpr hph
        (by simp only; omega) (by simp only; omega) hb'
      refine ⟨p, .more (min (e.processor.total - (e.processor.received + e.processor.scheduled)) e.processor.scheduled) :: outs, ?_, h2, ?_⟩
      · rw [List.replicate_succ, Eraser.run, handle_done e _ hph (hnext _ rfl), if_neg hn0, Option.bind_some]
        simp only
        rw [h1]
        rfl
      · simp only [cycles] at h3 ⊢
        rw [List.count_cons_of_ne (by rintro ⟨⟩), h3]

/-- One cycle. -/
theorem run_cycle (taste : Nat) (ht : taste ≠ 0) (total : Nat) (e : Eraser) (hv : e.valid = true) (hp : e.promise = false)
    (hph : e.processor.phase = .idle) (htm : e.timers = 1) :
    ∃ e' outs, e.run (cycleMessages total (min total taste) (batches total taste)) = some (e', outs) ∧ e'.valid = true ∧
      e'.promise = false ∧ e'.processor.phase = .idle ∧ e'.timers = 1 ∧ cycles outs = 1 := by
  have hle : min total taste ≤ total := Nat.min_le_left ..
  have hfirst : ∀ msgs, e.run (.timer :: .reply total (min total taste) :: msgs) =
      (Eraser.run { e with timers := 0, processor := { e.processor with
        phase := .awaitDone, received := 0, scheduled := min total taste, total := total } } msgs).map fun r => (r.1, .query :: r.2) := by
    intro msgs
    simp only [Eraser.run, Eraser.handle, hph, if_true, Eraser.cycle, hv, htm, Nat.sub_self, Option.bind_some, hle, List.nil_append,
      Option.map_map]
    rfl
  rw [cycleMessages, hfirst]
  by_cases h0 : total = 0
  · subst h0
    have hb : batches 0 taste = 1 := by
      rw [batches, Nat.zero_add, Nat.div_eq_of_lt (by omega)]; rfl
    have hn : nextBatch { e.processor with phase := .awaitDone, received := 0 + min 0 taste, scheduled := min 0 taste, total := 0 } =
        some 0 := by
      simp [nextBatch]
    rw [hb]
    refine ⟨{ e with timers := 1, processor := { e.processor with
      phase := .idle, received := 0 + min 0 taste, scheduled := min 0 taste, total := 0 } }, [.query], ?_, hv, hp, rfl, rfl, rfl⟩
    simp only [List.replicate, Eraser.run]
    rw [handle_done _ 0 rfl hn]
    simp only [if_true, Eraser.rest, hp, Bool.false_eq_true, if_false, Option.bind_some, List.append_nil, Option.map_some, Nat.zero_add]
  · have hb : batches total taste = (total + taste - 1) / taste := by
      have : 1 ≤ (total + taste - 1) / taste := by
        rw [Nat.le_div_iff_mul_le (by omega)]; omega
      rw [batches]; omega
    obtain ⟨p, outs, h1, h2, h3⟩ := run_dones taste ht (batches total taste) { e with timers := 0, processor := { e.processor with
        phase := .awaitDone, received := 0, scheduled := min total taste, total := total } } hp rfl (by simp only; omega) (by simp)
      (by rw [hb]; simp)
    rw [h1]
    refine ⟨_, _, rfl, hv, hp, h2, rfl, ?_⟩
    simp only [cycles] at h3 ⊢
    rw [List.count_cons_self, h3]

/-- C106: the index is asked to delete what is too old once for every timer, any number of times, whatever the numbers of
    candidate partitions, and afterwards there is a timer for the next time. Partial: the query has to be valid, the index
    hands out at least one partition at a time and answers every request, and nobody triggers the eraser. -/
theorem C106_cycles_partial (taste : Nat) (ht : taste ≠ 0) (totals : List Nat) :
    ∃ e outs, (Eraser.start true).run (totals.flatMap fun n => cycleMessages n (min n taste) (batches n taste)) = some (e, outs) ∧
      cycles outs = totals.length ∧ e.processor.phase = .idle ∧ e.timers = 1 := by
  have key : ∀ (totals : List Nat) (e : Eraser), e.valid = true → e.promise = false → e.processor.phase = .idle → e.timers = 1 →
      ∃ e' outs, e.run (totals.flatMap fun n => cycleMessages n (min n taste) (batches n taste)) = some (e', outs) ∧
        cycles outs = totals.length ∧ e'.processor.phase = .idle ∧ e'.timers = 1 := by
    intro totals
    induction totals with
    | nil => intro e _ _ h1 h2; exact ⟨e, [], rfl, rfl, h1, h2⟩
    | cons n totals ih =>
      intro e h1 h2 h3 h4
      obtain ⟨e', outs, g1, g2, g3, g4, g5, g6⟩ := run_cycle taste ht n e h1 h2 h3 h4
      obtain ⟨e'', outs', k1, k2, k3, k4⟩ := ih e' g2 g3 g4 g5
      refine ⟨e'', outs ++ outs', ?_, ?_, k3, k4⟩
      · rw [List.flatMap_cons, run_append, g1, Option.bind_some, k1]; rfl
      · simp only [cycles] at *
        rw [List.count_append, g6, k2, List.length_cons]; omega
  exact key totals _ rfl rfl rfl rfl

/-- Two cycles: five candidates, two at a time, and none. -/
example : (Eraser.start true).run [.timer, .reply 5 2, .done, .done, .done, .timer, .reply 0 0, .done] =
    some (⟨⟨.idle, 0, 0, 0, false⟩, true, false, 1⟩, [.query, .more 2, .more 1, .query]) := by decide

/-! ### Where it fails -/

theorem answers_step (e e' : Eraser) (m : EraserMsg) (outs : List EraserOut) (h : e.handle m = some (e', outs)) :
    outs.count .answer + (if e'.promise then 1 else 0) ≤ (if e.promise then 1 else 0) + if m = .trigger then 1 else 0 := by
  cases m with
  | timer =>
    simp only [Eraser.handle] at h
    split at h
    · rw [Eraser.cycle] at h
      split at h <;> cases h <;> simp
    · cases h; simp
  | trigger =>
    simp only [Eraser.handle] at h
    split at h
    · rw [Eraser.cycle] at h
      split at h <;> cases h <;> simp
    · cases h; simp
  | reply total scheduled =>
    simp only [Eraser.handle] at h
    split at h
    · split at h
      · cases h; simp
      · cases h
    · cases h; simp
  | done =>
    simp only [Eraser.handle] at h
    split at h
    · rw [Option.map_eq_some_iff] at h
      obtain ⟨n, _, h⟩ := h
      split at h
      · rw [Eraser.rest] at h
        simp only at h
        split at h
        · rename_i hp
          cases h; simp [hp]
        · rename_i hp
          cases h; simp
      · cases h; simp
    · cases h; simp

theorem answers_run : ∀ (ms : List EraserMsg) (e e' : Eraser) (outs : List EraserOut), e.run ms = some (e', outs) →
    outs.count .answer + (if e'.promise then 1 else 0) ≤ (if e.promise then 1 else 0) + ms.count .trigger
  | [], e, e', outs, h => by cases h; simp
  | m :: ms, e, e', outs, h => by
    rw [Eraser.run, Option.bind_eq_some_iff] at h
    obtain ⟨⟨e1, o1⟩, h1, h⟩ := h
    rw [Option.map_eq_some_iff] at h
    obtain ⟨⟨e2, o2⟩, h2, h⟩ := h
    cases h
    have a := answers_step e e1 m o1 h1
    have b := answers_run ms e1 e2 o2 h2
    rw [List.count_append, List.count_cons]
    simp only [beq_iff_eq]
    omega

/-- C106: a trigger is answered once at most, and nothing is answered that was not triggered. -/
theorem C106_answers (valid : Bool) (ms : List EraserMsg) (e : Eraser) (outs : List EraserOut)
    (h : (Eraser.start valid).run ms = some (e, outs)) : outs.count .answer ≤ ms.count .trigger := by
  have := answers_run ms _ e outs h
  have hp : (Eraser.start valid).promise = false := by cases valid <;> rfl
  rw [hp] at this
  simp only [Bool.false_eq_true, if_false] at this
  omega

example : ∃ e, (Eraser.start true).run [.trigger, .reply 1 1, .done, .timer, .reply 1 1, .done] = some (e, [.query, .answer, .query]) :=
  ⟨_, rfl⟩

/-- C106, refuted: someone triggers a cycle by hand, and the timer fires while it runs. The timer is lost, and when the
    eraser is done it answers instead of setting a new one. From then on nothing happens any more. -/
theorem C106_trigger_refuted : ∃ e, (Eraser.start true).run [.trigger, .timer, .reply 1 1, .done] = some (e, [.query, .answer]) ∧
    e.timers = 0 ∧ ∀ msgs : List EraserMsg, (∀ m ∈ msgs, m ≠ .timer ∧ m ≠ .trigger) → e.run msgs = some (e, []) := by
  refine ⟨_, rfl, rfl, ?_⟩
  intro msgs
  induction msgs with
  | nil => intro _; rfl
  | cons m msgs ih =>
    intro h
    have ih := ih fun m hm => h m (List.mem_cons_of_mem _ hm)
    have hm := h m List.mem_cons_self
    cases m with
    | timer => exact absurd rfl hm.1
    | trigger => exact absurd rfl hm.2
    | reply total scheduled =>
      show (Eraser.run _ msgs).map _ = _
      rw [ih]; rfl
    | done =>
      show (Eraser.run _ msgs).map _ = _
      rw [ih]; rfl

/-- C106, refuted: a query that can be parsed but not normalized is accepted at the start (spawn_eraser.cpp:40-51). Its first
    timer does nothing and no other timer follows; who triggers it gets no answer. -/
theorem C106_query_refuted (n : Nat) : ∃ e, (Eraser.start false).run (.timer :: List.replicate n .trigger) = some (e, []) ∧ e.timers = 0 := by
  have key : ∀ (n : Nat) (e : Eraser), e.valid = false → e.processor.phase = .idle → e.timers = 0 →
      ∃ e', e.run (List.replicate n .trigger) = some (e', []) ∧ e'.timers = 0 := by
    intro n
    induction n with
    | zero => intro e _ _ h; exact ⟨e, rfl, h⟩
    | succ n ih =>
      intro e h1 h2 h3
      obtain ⟨e', g1, g2⟩ := ih { e with promise := true } h1 h2 h3
      refine ⟨e', ?_, g2⟩
      rw [List.replicate_succ, Eraser.run]
      simp only [Eraser.handle, h2, if_true, Eraser.cycle, h1, Bool.false_eq_true, if_false, Option.bind_some]
      simp only [h1, h2, h3] at g1 ⊢
      rw [g1]; rfl
  obtain ⟨e', h1, h2⟩ := key n { valid := false } rfl rfl rfl
  refine ⟨e', ?_, h2⟩
  have : (Eraser.start false).run (.timer :: List.replicate n .trigger) =
      (Eraser.run { valid := false } (List.replicate n .trigger)).map fun r => (r.1, [] ++ r.2) := rfl
  rw [this, h1]; rfl

/-- C106, refuted: with `vast.max-taste-partitions` set to zero the index drops the query as soon as there is a candidate, and
    the eraser waits for it forever; triggers have no effect. -/
theorem C106_taste_refuted (total n : Nat) :
    ∃ e, (Eraser.start true).run (.timer :: .reply total 0 :: List.replicate n .trigger) = some (e, [.query]) ∧
    e.timers = 0 ∧ e.processor.phase = .awaitDone := by
  have key : ∀ (n : Nat) (e : Eraser), e.processor.phase = .awaitDone → e.run (List.replicate n .trigger) = some (e, []) := by
    intro n
    induction n with
    | zero => intro e _; rfl
    | succ n ih =>
      intro e h
      rw [List.replicate_succ, Eraser.run]
      simp only [Eraser.handle, h, reduceCtorEq, if_false, Option.bind_some, ih e h]
      rfl
  refine ⟨{ processor := { phase := .awaitDone, total := total } }, ?_, rfl, rfl⟩
  have h1 : (Eraser.start true).handle .timer = some ({ processor := { phase := .awaitId } }, [.query]) := rfl
  have h2 : ({ processor := { phase := .awaitId } } : Eraser).handle (.reply total 0) =
      some ({ processor := { phase := .awaitDone, total := total } }, []) := by
    simp [Eraser.handle]
  rw [Eraser.run, h1, Option.bind_some, Eraser.run, h2, Option.bind_some, key n _ rfl]
  rfl

end Verif.Processor
