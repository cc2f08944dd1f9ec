import Verif.Signals.Spec
/-!
# Signals reach the process (C163)
-/
namespace Verif.Signals
open Spec

/-! ## Lemmas -/

theorem run_append (s : State) (a b : List Step) : run s (a ++ b) = run (run s a) b := List.foldl_append

theorem set_same (f : Nat → Bool) (i : Nat) (b : Bool) : set f i b i = b := by simp [set]

theorem set_other (f : Nat → Bool) (i j : Nat) (b : Bool) (h : j ≠ i) : set f i b j = f j := by simp [set, h]

/-- What is on its way: in a handler, in a flag or with the monitor. -/
def owed (s : State) (sig : Nat) : Nat :=
  s.handlers.count sig + (if s.flag sig then 1 else 0) + (if s.pc = .sending sig then 1 else 0)

/-- The books are in order. -/
def Books (s : State) (sig : Nat) : Prop :=
  s.log.count (.sent sig) + owed s sig ≤ s.log.count (.raised sig) ∧ (s.pc = .caught sig → s.flag sig = true)

theorem count_step (s : State) (st : Step) (sig : Nat) (h : Books s sig) : Books (step s st) sig := by
  unfold Books owed at *
  obtain ⟨h, hc⟩ := h
  unfold step
  cases st with
  | raise k =>
    simp only []
    split
    · exact ⟨h, hc⟩
    · split
      · exact ⟨h, hc⟩
      · refine ⟨?_, hc⟩
        simp only [List.count_append, List.count_cons, List.count_nil, beq_iff_eq, Event.raised.injEq, reduceCtorEq, if_false]
        split <;> omega
  | finish k =>
    simp only []
    split
    · exact ⟨h, hc⟩
    · split
      · rename_i hk
        by_cases he : sig = k
        · subst he
          have hpos : 0 < s.handlers.count sig := List.count_pos_iff.2 hk
          refine ⟨?_, fun _ => set_same _ _ _⟩
          simp only [List.count_erase_self, set_same, if_true]
          split at h <;> omega
        · simp only [set_other _ _ _ _ he]
          rw [List.count_erase_of_ne he]
          exact ⟨h, hc⟩
      · exact ⟨h, hc⟩
  | monitor =>
    simp only []
    split
    · exact ⟨h, hc⟩
    · cases hp : s.pc with
      | asleep =>
        rw [hp] at h hc
        simp only [reduceCtorEq, if_false] at h
        simp only []
        split
        · simpa using h
        · simpa [hp] using h
      | noticed =>
        rw [hp] at h hc
        simpa using h
      | scan i =>
        rw [hp] at h hc
        simp only [reduceCtorEq, if_false] at h
        simp only []
        split
        · split
          · rename_i hf
            simp only [reduceCtorEq, if_false, Pc.caught.injEq]
            exact ⟨h, fun e => e ▸ hf⟩
          · simpa using h
        · simpa using h
      | caught i =>
        rw [hp] at h hc
        simp only [reduceCtorEq, if_false, Pc.caught.injEq] at h hc
        simp only [reduceCtorEq, false_implies, and_true, Pc.sending.injEq]
        by_cases he : sig = i
        · subst he
          simp only [hc rfl, if_true] at h
          simp only [set_same, Bool.false_eq_true, if_false, if_true]
          omega
        · have he' : ¬ i = sig := fun e => he e.symm
          simp only [set_other _ _ _ _ he, if_neg he']
          exact h
      | sending i =>
        rw [hp] at h hc
        simp only [Pc.sending.injEq] at h
        simp only [reduceCtorEq, if_false, false_implies, and_true, List.count_append, List.count_cons, List.count_nil, beq_iff_eq,
          Event.sent.injEq]
        omega

/-! ## C163 -/

/-- In every schedule, a signal is sent at most as often as it was raised. -/
theorem C163_genuine (steps : List Step) (sig : Nat) : (run {} steps).log.count (.sent sig) ≤ (run {} steps).log.count (.raised sig) := by
  have : ∀ (steps : List Step) (s : State), Books s sig → Books (run s steps) sig := by
    intro steps
    induction steps with
    | nil => intro s h; exact h
    | cons st steps ih => intro s h; exact ih _ (count_step s st sig h)
  have := (this steps {} (by simp [Books, owed])).1
  omega

/-- `SIGINT` and `SIGTERM` are handled at most once: the next one terminates the process. -/
theorem C163_once (steps : List Step) (sig : Nat) (ht : sig = 2 ∨ sig = 15) : (run {} steps).log.count (.sent sig) ≤ 1 := by
  have hterm : terminating sig = true := by rcases ht with rfl | rfl <;> rfl
  have hinv : ∀ (steps : List Step) (s : State), (s.log.count (.raised sig) ≤ 1 ∧ (sig ∉ s.default → s.log.count (.raised sig) = 0)) →
      (run s steps).log.count (.raised sig) ≤ 1 ∧ (sig ∉ (run s steps).default → (run s steps).log.count (.raised sig) = 0) := by
    intro steps
    induction steps with
    | nil => intro s h; exact h
    | cons st steps ih =>
      intro s h
      apply ih
      cases st with
      | raise k =>
        simp only [step]
        split
        · exact h
        · split
          · exact h
          · rename_i hd
            simp only [List.count_append, List.count_cons, List.count_nil, beq_iff_eq, Event.raised.injEq, Nat.zero_add]
            by_cases he : k = sig
            · subst he
              have := h.2 hd
              simp only [if_true, hterm, List.mem_cons, true_or, not_true, false_implies, and_true]
              omega
            · simp only [if_neg he, Nat.add_zero]
              refine ⟨h.1, fun hn => h.2 ?_⟩
              intro hm
              apply hn
              split
              · exact List.mem_cons_of_mem _ hm
              · exact hm
      | finish k =>
        simp only [step]
        split
        · exact h
        · split <;> exact h
      | monitor =>
        simp only [step]
        split
        · exact h
        · split
          · split <;> exact h
          · exact h
          · split
            · split <;> exact h
            · exact h
          · exact h
          · simpa [List.count_append, List.count_cons] using h
  have h1 := (hinv steps {} (by simp)).1
  have h2 := C163_genuine steps sig
  omega

/-- The monitor will look at flag `i`. -/
def Ahead (pc : Pc) (i : Nat) : Prop :=
  match pc with
  | .asleep => False
  | .noticed => True
  | .scan j => j ≤ i
  | .caught j => j ≤ i
  | .sending j => j < i

/-- What holds between handlers, if the monitor does not interfere with them: a flag that is set will be looked at, and a signal that
was raised has been sent since unless its flag is set or the monitor is about to send it. -/
def Inv (s : State) : Prop :=
  s.handlers = [] ∧
  (∀ i, s.flag i = true → s.any = true ∨ Ahead s.pc i) ∧
  (∀ a b sig, s.log = a ++ .raised sig :: b → s.flag sig = true ∨ s.pc = .sending sig ∨ .sent sig ∈ b) ∧
  (∀ i, s.flag i = true → 1 ≤ i ∧ i < 32)

theorem split_snoc {log a b : List Event} {e x : Event} (h : log ++ [e] = a ++ x :: b) : (b = [] ∧ x = e ∧ log = a) ∨ ∃ b', b = b' ++ [e] ∧ log = a ++ x :: b' := by
  rcases List.eq_nil_or_concat b with rfl | ⟨b', y, rfl⟩
  · have := List.append_inj' h rfl
    simp only [List.cons.injEq, and_true] at this
    exact .inl ⟨rfl, this.2.symm, this.1⟩
  · have h' : log ++ [e] = (a ++ x :: b') ++ [y] := by simpa using h
    have := List.append_inj' h' rfl
    simp only [List.cons.injEq, and_true] at this
    exact .inr ⟨b', by rw [this.2, List.concat_eq_append], this.1⟩

theorem inv_signal (s : State) (sig : Nat) (h : Inv s) (hv : 1 ≤ sig ∧ sig < 32) : Inv (step (step s (.raise sig)) (.finish sig)) := by
  obtain ⟨h1, h2, h3, h4⟩ := h
  by_cases hk : s.killed = true
  · have e : step s (.raise sig) = s := by simp [step, hk]
    have e' : step s (.finish sig) = s := by simp [step, hk]
    rw [e, e']
    exact ⟨h1, h2, h3, h4⟩
  · by_cases hd : sig ∈ s.default
    · have e : step s (.raise sig) = { s with killed := true } := by simp [step, hk, hd]
      have e' : step { s with killed := true } (.finish sig) = { s with killed := true } := by simp [step]
      rw [e, e']
      exact ⟨h1, h2, h3, h4⟩
    · have e : step (step s (.raise sig)) (.finish sig) = { s with
          default := if terminating sig then sig :: s.default else s.default
          any := true, handlers := [], flag := set s.flag sig true, log := s.log ++ [.raised sig] } := by
        simp [step, hk, hd, h1]
      rw [e]
      refine ⟨rfl, fun _ _ => .inl rfl, ?_, ?_⟩
      · intro a b k he
        by_cases hks : k = sig
        · subst hks; exact .inl (set_same _ _ _)
        · rcases split_snoc he with ⟨_, e, _⟩ | ⟨b', rfl, hl⟩
          · injection e with e; exact (hks e).elim
          · rcases h3 a b' k hl with hf | hs | hs
            · left; show set _ _ _ _ = _; rw [set_other _ _ _ _ hks]; exact hf
            · exact .inr (.inl hs)
            · exact .inr (.inr (List.mem_append_left _ hs))
      · intro i hi
        by_cases his : i = sig
        · rw [his]; exact hv
        · apply h4
          change set _ _ _ _ = _ at hi
          rw [set_other _ _ _ _ his] at hi
          exact hi

theorem inv_monitor (s : State) (h : Inv s) : Inv (step s .monitor) := by
  obtain ⟨h1, h2, h3, h4⟩ := h
  simp only [step]
  by_cases hk : s.killed = true
  · simp only [hk, if_true]; exact ⟨h1, h2, h3, h4⟩
  · rw [if_neg hk]
    cases hp : s.pc with
    | asleep =>
      rw [hp] at h2 h3
      simp only []
      by_cases ha : s.any = true
      · rw [if_pos ha]
        refine ⟨h1, fun i hi => .inl ha, fun a b sig e => ?_, h4⟩
        rcases h3 a b sig e with h | h | h
        · exact .inl h
        · cases h
        · exact .inr (.inr h)
      · rw [if_neg ha]
        refine ⟨h1, ?_, ?_, h4⟩ <;> rw [hp] <;> assumption
    | noticed =>
      rw [hp] at h2 h3
      refine ⟨h1, fun i hi => .inr (h4 i hi).1, fun a b sig e => ?_, h4⟩
      rcases h3 a b sig e with h | h | h
      · exact .inl h
      · cases h
      · exact .inr (.inr h)
    | scan j =>
      rw [hp] at h2 h3
      have h3' : ∀ a b sig, s.log = a ++ .raised sig :: b → ∀ pc : Pc, s.flag sig = true ∨ pc = .sending sig ∨ .sent sig ∈ b := by
        intro a b sig e pc
        rcases h3 a b sig e with h | h | h
        · exact .inl h
        · cases h
        · exact .inr (.inr h)
      simp only []
      by_cases hj : j < 32
      · rw [if_pos hj]
        by_cases hf : s.flag j = true
        · rw [if_pos hf]
          exact ⟨h1, h2, fun a b sig e => h3' a b sig e _, h4⟩
        · rw [if_neg hf]
          refine ⟨h1, fun i hi => ?_, fun a b sig e => h3' a b sig e _, h4⟩
          rcases h2 i hi with h | h
          · exact .inl h
          · have hij : i ≠ j := fun e => hf (e ▸ hi)
            have h : j ≤ i := h
            exact .inr (show j + 1 ≤ i by omega)
      · rw [if_neg hj]
        refine ⟨h1, fun i hi => ?_, fun a b sig e => h3' a b sig e _, h4⟩
        rcases h2 i hi with h | h
        · exact .inl h
        · have h : j ≤ i := h
          have := (h4 i hi).2
          omega
    | caught j =>
      rw [hp] at h2 h3
      refine ⟨h1, fun i hi => ?_, fun a b k e => ?_, fun i hi => ?_⟩
      · change set _ _ _ _ = _ at hi
        by_cases hij : i = j
        · rw [hij, set_same] at hi; cases hi
        · rw [set_other _ _ _ _ hij] at hi
          rcases h2 i hi with h | h
          · exact .inl h
          · have h : j ≤ i := h
            exact .inr (show j < i by omega)
      · by_cases hkj : k = j
        · exact .inr (.inl (by rw [hkj]))
        · rcases h3 a b k e with h | h | h
          · left; show set _ _ _ _ = _; rw [set_other _ _ _ _ hkj]; exact h
          · cases h
          · exact .inr (.inr h)
      · change set _ _ _ _ = _ at hi
        by_cases hij : i = j
        · rw [hij, set_same] at hi; cases hi
        · rw [set_other _ _ _ _ hij] at hi; exact h4 i hi
    | sending j =>
      rw [hp] at h2 h3
      refine ⟨h1, fun i hi => ?_, fun a b k e => ?_, h4⟩
      · rcases h2 i hi with h | h
        · exact .inl h
        · exact .inr h
      · rcases split_snoc e with ⟨_, e, _⟩ | ⟨b', rfl, hl⟩
        · cases e
        · rcases h3 a b' k hl with h | h | h
          · exact .inl h
          · injection h with h; subst h; right; right; simp
          · exact .inr (.inr (List.mem_append_left _ h))

theorem inv_run : ∀ (steps : List Step), Atomic steps → (∀ st ∈ steps, Valid st) → ∀ s, Inv s → Inv (run s steps) := by
  intro steps h
  induction h with
  | nil => intro _ s hs; exact hs
  | signal sig r _ ih =>
    intro hv s hs
    exact ih (fun st hst => hv st (by simp [hst])) _ (inv_signal s sig hs (hv (.raise sig) (by simp)))
  | monitor r _ ih => intro hv s hs; exact ih (fun st hst => hv st (by simp [hst])) _ (inv_monitor s hs)

theorem inv_alone : ∀ (n : Nat) (s : State), Inv s → Inv (run s (alone n))
  | 0, s, h => h
  | n + 1, s, h => inv_alone n _ (inv_monitor s h)

/-- How far the monitor is from sleep. -/
def dist : Pc → Nat
  | .asleep => 0
  | .noticed => 95
  | .scan j => 3 * (32 - j) + 1
  | .caught j => 3 * (32 - (j + 1)) + 3
  | .sending j => 3 * (32 - (j + 1)) + 2

theorem dist_step (s : State) (hk : s.killed = false) (hp : s.pc ≠ .asleep) :
    dist (step s .monitor).pc < dist s.pc ∧ (step s .monitor).killed = false ∧ ((step s .monitor).any = s.any ∨ (step s .monitor).any = false) := by
  simp only [step, hk, Bool.false_eq_true, if_false]
  cases hpc : s.pc with
  | asleep => exact (hp hpc).elim
  | noticed => simp [dist]
  | scan j =>
    simp only []
    split
    · split <;> simp [dist] <;> omega
    · simp [dist]
  | caught j => simp [dist]
  | sending j => simp [dist]

/-- The monitor on its own finishes its scan. -/
theorem scan_ends : ∀ (n : Nat) (s : State), s.killed = false → dist s.pc ≤ n → ∃ m, m ≤ n ∧ (run s (alone m)).pc = .asleep ∧
    ((run s (alone m)).any = s.any ∨ (run s (alone m)).any = false) ∧ (run s (alone m)).killed = false
  | n, s, hk, hd => by
    by_cases hp : s.pc = .asleep
    · exact ⟨0, by omega, hp, .inl rfl, hk⟩
    · obtain ⟨h1, h2, h3⟩ := dist_step s hk hp
      match n, hd with
      | 0, hd => omega
      | n + 1, hd =>
        obtain ⟨m, m1, m2, m3, m4⟩ := scan_ends n (step s .monitor) h2 (by omega)
        refine ⟨m + 1, by omega, m2, ?_, m4⟩
        rcases m3 with e | e
        · rcases h3 with e' | e'
          · exact .inl (e.trans e')
          · exact .inr (e.trans e')
        · exact .inr e

/-- If the monitor makes no step while a handler runs, then, left alone for long enough and unless the process is terminated by the
system, it has sent each signal that was raised. -/
theorem C163_delivered_partial (steps : List Step) (ha : Atomic steps) (hv : ∀ st ∈ steps, Valid st) (hk : (run {} steps).killed = false) :
    ∃ n, n ≤ 200 ∧ Delivered (run {} (steps ++ alone n)).log := by
  have h0 : Inv {} := ⟨rfl, by simp, by simp, by simp⟩
  have h := inv_run steps ha hv {} h0
  have happ : ∀ (s : State) (a b : Nat), run s (alone (a + b)) = run (run s (alone a)) (alone b) := by
    intro s a b
    rw [← run_append, alone, alone, alone, List.replicate_append_replicate]
  have hdone : ∀ s, Inv s → s.pc = .asleep → s.any = false → Delivered s.log := by
    intro s hs hp hn a b sig e
    rcases hs.2.2.1 a b sig e with hf | hf | hm
    · rcases hs.2.1 sig hf with h | h
      · rw [hn] at h; cases h
      · rw [hp] at h; exact h.elim
    · rw [hp] at hf; cases hf
    · exact hm
  -- from sleep, at most one round is needed
  have hround : ∀ s, Inv s → s.killed = false → s.pc = .asleep → ∃ n, n ≤ 100 ∧ Delivered (run s (alone n)).log := by
    intro s hs hk hp
    cases hany : s.any with
    | false => exact ⟨0, by omega, hdone s hs hp hany⟩
    | true =>
      obtain ⟨s', hs', k1, k2, k3⟩ : ∃ s', step (step s .monitor) .monitor = s' ∧ s'.killed = false ∧ s'.pc = .scan 1 ∧ s'.any = false := by
        refine ⟨_, rfl, ?_⟩
        simp [step, hk, hp, hany]
      obtain ⟨m, m1, m2, m3, _⟩ := scan_ends 94 s' k1 (by rw [k2]; simp [dist])
      refine ⟨m + 2, by omega, ?_⟩
      have e : run s (alone (m + 2)) = run s' (alone m) := by
        show run (step (step s .monitor) .monitor) (alone m) = _
        rw [hs']
      rw [e]
      refine hdone _ (inv_alone m s' (hs' ▸ inv_monitor _ (inv_monitor s hs))) m2 ?_
      rcases m3 with e | e
      · exact e.trans k3
      · exact e
  generalize hst : run {} steps = s at *
  have hdist : dist s.pc ≤ 100 := by
    cases s.pc <;> simp [dist] <;> omega
  obtain ⟨m, m1, m2, _, m4⟩ := scan_ends 100 s hk hdist
  obtain ⟨n, h1, h2⟩ := hround _ (inv_alone m s h) m4 m2
  exact ⟨m + n, by omega, by rw [run_append, hst, happ]; exact h2⟩

/-- The handler announces a signal before it sets its flag.  If the monitor looks in between, the signal stays unnoticed however long
the monitor runs: a request to terminate is lost, and the next one terminates the process at once. -/
theorem C163_lost_refuted : let s := run {} ([.raise 15] ++ alone 34 ++ [.finish 15])
    s.log = [.raised 15] ∧ s.flag 15 = true ∧ (∀ n, (run s (alone n)).log = [.raised 15]) ∧ (step s (.raise 15)).killed = true := by
  refine ⟨by decide, by decide, ?_, by decide⟩
  intro n
  have hfix : ∀ n s, s.pc = .asleep → s.any = false → run s (alone n) = s := by
    intro n
    induction n with
    | zero => intro s _ _; rfl
    | succ n ih =>
      intro s hp ha
      show run (step s .monitor) (alone n) = s
      have : step s .monitor = s := by simp [step, hp, ha]
      rw [this]
      exact ih s hp ha
  rw [hfix n _ (by decide) (by decide)]
  decide

example : (run {} ([.raise 1, .finish 1] ++ alone 5 ++ [.raise 1, .finish 1, .monitor, .raise 10, .finish 10] ++ alone 200)).log =
    [.raised 1, .sent 1, .raised 1, .raised 10, .sent 10, .sent 1] := by decide +kernel

example : Atomic [.raise 1, .finish 1, .monitor, .monitor, .raise 1, .finish 1, .monitor, .raise 10, .finish 10] :=
  .signal _ _ (.monitor _ (.monitor _ (.signal _ _ (.monitor _ (.signal _ _ .nil)))))

end Verif.Signals
