import Verif.Importer.Model
/-
C34: event IDs are never assigned twice, also across crashes.
-/
namespace Verif.Importer

theorem growStop_spec (target stop : Nat) : target < growStop target stop ∧ stop ≤ growStop target stop := by
  induction stop using growStop.induct target with
  | case1 stop h ih => rw [growStop, if_pos h]; simp only [blockSize] at *; omega
  | case2 stop h => rw [growStop, if_neg h]; omega

/-- All IDs handed out so far are below `hw`. -/
def Below (log : List (Nat × Nat)) (hw : Nat) : Prop := ∀ r ∈ log, r.1 + r.2 ≤ hw

/-- Lower bound of the IDs a restart from this file hands out. -/
def File.restart : Option File → Nat → Prop
  | none, hw => hw = 0
  | some .empty, _ => False
  | some (.stopOnly e), hw => hw ≤ e
  | some (.stopNext e n), hw => hw ≤ n ∧ n < e

/-- The invariant: the assigned ranges are ordered, and both the running process
and a restart continue above all of them. -/
structure Inv (s : State) : Prop where
  ordered : s.log.Pairwise (fun r t => r.1 + r.2 ≤ t.1)
  bound : ∃ hw, Below s.log hw ∧ File.restart s.disk hw ∧
    ∀ b, s.proc = some b → hw = b.next ∧ b.next < b.stop ∧ s.disk = some (.stopOnly b.stop)

theorem inv_init : Inv State.init :=
  ⟨by simp [State.init], 0, by simp [Below, State.init], rfl, by simp [State.init]⟩

theorem Below.mono {log hw hw'} (h : Below log hw) (h' : hw ≤ hw') : Below log hw' :=
  fun r hr => Nat.le_trans (h r hr) h'

theorem step_inv (s : State) (op : Op) (h : Inv s) (hw : op.writeOk) : Inv (step s op) := by
  obtain ⟨hord, hwm, hb, hr, hp⟩ := h
  cases op with
  | start g w =>
    simp only [Op.writeOk] at hw; subst hw
    simp only [step]
    cases hproc : s.proc with
    | some b => exact ⟨hord, hwm, hb, hr, hp⟩
    | none =>
      cases hd : s.disk with
      | none =>
        simp only [finishWrite]
        rw [hd] at hr
        have := growStop_spec (0 + 0) 0
        refine ⟨hord, 0, hr ▸ hb, ?_, ?_⟩
        · simp [File.restart]
        · intro b hb'
          simp only [Option.some.injEq] at hb'; subst hb'
          refine ⟨rfl, ?_, rfl⟩
          simp only [getNextBlock]; omega
      | some f =>
        rw [hd] at hr
        cases f with
        | empty => exact absurd hr (by simp [File.restart])
        | stopOnly e =>
          simp only [finishWrite]
          simp only [File.restart] at hr
          have := growStop_spec (e + 0) e
          refine ⟨hord, e, hb.mono hr, ?_, ?_⟩
          · simp only [File.restart, getNextBlock]; omega
          · intro b hb'
            simp only [Option.some.injEq] at hb'; subst hb'
            refine ⟨rfl, ?_, rfl⟩
            simp only [getNextBlock]; omega
        | stopNext e n =>
          simp only [finishWrite]
          simp only [File.restart] at hr
          have := growStop_spec (n + 0) e
          refine ⟨hord, n, hb.mono hr.1, ?_, ?_⟩
          · simp only [File.restart, getNextBlock]; omega
          · intro b hb'
            simp only [Option.some.injEq] at hb'; subst hb'
            refine ⟨rfl, ?_, rfl⟩
            simp only [getNextBlock]; omega
  | rows n w =>
    simp only [Op.writeOk] at hw; subst hw
    simp only [step]
    cases hproc : s.proc with
    | none => exact ⟨hord, hwm, hb, hr, hp⟩
    | some b =>
      obtain ⟨h1, h2, h3⟩ := hp b hproc
      subst h1
      have hord' : (s.log ++ [(b.next, n)]).Pairwise (fun r t => r.1 + r.2 ≤ t.1) := by
        rw [List.pairwise_append]
        refine ⟨hord, by simp, ?_⟩
        intro r hr' t ht
        simp only [List.mem_singleton] at ht; subst ht
        exact hb r hr'
      have hb' : Below (s.log ++ [(b.next, n)]) (b.next + n) := by
        intro r hr'
        rcases List.mem_append.1 hr' with h | h
        · have := hb r h; omega
        · simp only [List.mem_singleton] at h; subst h; simp
      by_cases hge : b.next + n ≥ b.stop
      · simp only [if_pos hge, finishWrite]
        rw [if_neg (by decide)]
        have := growStop_spec (b.next + n) b.stop
        refine ⟨hord', b.next + n, hb', ?_, ?_⟩
        · simp only [File.restart, getNextBlock]; omega
        · intro b' hb''
          simp only [Option.some.injEq] at hb''; subst hb''
          refine ⟨rfl, ?_, rfl⟩
          simp only [getNextBlock]; omega
      · simp only [if_neg hge]
        refine ⟨hord', b.next + n, hb', ?_, ?_⟩
        · show File.restart s.disk _
          rw [h3]; simp only [File.restart]; omega
        · intro b' hb''
          simp only [Option.some.injEq] at hb''; subst hb''
          exact ⟨rfl, by simp only; omega, h3⟩
  | shutdown w =>
    simp only [Op.writeOk] at hw; subst hw
    simp only [step]
    cases hproc : s.proc with
    | none => exact ⟨hord, hwm, hb, hr, hp⟩
    | some b =>
      obtain ⟨h1, h2, h3⟩ := hp b hproc
      subst h1
      refine ⟨hord, b.next, hb, ?_, ?_⟩
      · simp [finishWrite, File.restart, h2]
      · simp [finishWrite]
  | crash =>
    refine ⟨hord, hwm, hb, hr, ?_⟩
    simp [step]

theorem run_inv (ops : List Op) (h : ∀ op ∈ ops, op.writeOk) : Inv (run ops) := by
  have : ∀ (ops : List Op) (s : State), Inv s → (∀ op ∈ ops, op.writeOk) → Inv (ops.foldl step s) := by
    intro ops
    induction ops with
    | nil => intro s hs _; exact hs
    | cons op ops ih =>
      intro s hs hops
      exact ih _ (step_inv s op hs (hops op (by simp))) (fun o ho => hops o (by simp [ho]))
  exact this ops _ inv_init h

/-- C34 (partial). In every history of starts, imports, clean shutdowns and
crashes in which each write of the state file takes effect, no event ID is
assigned twice and later imports get larger IDs.
Missing for the full property: a state file write that is interrupted or fails;
see the two refutations below. -/
theorem C34_unique_ids_partial (ops : List Op) (h : ∀ op ∈ ops, op.writeOk) :
    UniqueIds (run ops).log := by
  refine (run_inv ops h).ordered.imp ?_
  intro r s hrs i j hi hj
  simp only [InRange] at *
  omega

/-- C34 (partial), progress: as long as writes take effect, every start of the
importer succeeds, and a running importer assigns a range of exactly the requested
size to each slice. -/
theorem C34_start_succeeds_partial (ops : List Op) (h : ∀ op ∈ ops, op.writeOk) (g : Block) :
    (step (run ops) (.start g .ok)).proc.isSome := by
  obtain ⟨-, hw, hb, hr, hp⟩ := run_inv ops h
  simp only [step]
  cases hproc : (run ops).proc with
  | some b => simp [hproc]
  | none =>
    cases hd : (run ops).disk with
    | none => simp [finishWrite]
    | some f =>
      rw [hd] at hr
      cases f with
      | empty => exact absurd hr (by simp [File.restart])
      | stopOnly e => simp [finishWrite]
      | stopNext e n => simp [finishWrite]

theorem C34_rows_assigned (s : State) (b : Block) (n : Nat) (h : s.proc = some b) :
    (step s (.rows n .ok)).log = s.log ++ [(b.next, n)] := by
  simp only [step, h, finishWrite]
  split <;> simp

/-- A history with a crash in the middle of a block that satisfies the hypotheses:
the restart skips to the end of the block. -/
example :
    let g : Block := ⟨77, 5⟩
    let ops : List Op := [.start g .ok, .rows 100 .ok, .rows 5 .ok, .crash, .start g .ok, .rows 7 .ok,
      .shutdown .ok, .start g .ok, .rows 1 .ok]
    (∀ op ∈ ops, op.writeOk) ∧ (run ops).log = [(0, 100), (100, 5), (8388608, 7), (8388615, 1)] := by
  refine ⟨by simp [Op.writeOk], ?_⟩
  simp [run, State.init, step, finishWrite, getNextBlock, growStop, blockSize]

/-- C34 is violated by a crash inside the non-atomic write of the state file:
the truncated file makes the next start fail, the failing importer's destructor
overwrites it with the uninitialised block, and the start after that reuses IDs. -/
theorem C34_torn_write_refuted :
    ∃ ops : List Op, (∀ op ∈ ops, op.writeOk ∨ op = .rows 8388608 .torn) ∧
      ¬ UniqueIds (run ops).log := by
  refine ⟨[.start ⟨0, 0⟩ .ok, .rows 100 .ok, .rows 8388608 .torn, .start ⟨0, 0⟩ .ok, .start ⟨0, 0⟩ .ok,
    .rows 1 .ok], by simp [Op.writeOk], ?_⟩
  have : (run [.start ⟨0, 0⟩ .ok, .rows 100 .ok, .rows 8388608 .torn, .start ⟨0, 0⟩ .ok,
      .start ⟨0, 0⟩ .ok, .rows 1 .ok]).log = [(0, 100), (0, 1)] := by
    simp [run, State.init, step, finishWrite, getNextBlock, growStop, blockSize]
  rw [this]
  intro h
  have := (List.pairwise_cons.1 h).1 (0, 1) (by simp) 0 0 (by simp [InRange]) (by simp [InRange])
  omega

/-- C34 is violated if a state file write fails: `write_state` reports no error,
imports continue, and after a crash the IDs are handed out again. -/
theorem C34_lost_write_refuted :
    ∃ ops : List Op, (∀ op ∈ ops, op.writeOk ∨ op = .rows 9000000 .lost) ∧
      ¬ UniqueIds (run ops).log := by
  refine ⟨[.start ⟨0, 0⟩ .ok, .rows 9000000 .lost, .crash, .start ⟨0, 0⟩ .ok, .rows 1 .ok],
    by simp [Op.writeOk], ?_⟩
  have : (run [.start ⟨0, 0⟩ .ok, .rows 9000000 .lost, .crash, .start ⟨0, 0⟩ .ok,
      .rows 1 .ok]).log = [(0, 9000000), (8388608, 1)] := by
    simp [run, State.init, step, finishWrite, getNextBlock, growStop, blockSize]
  rw [this]
  intro h
  have := (List.pairwise_cons.1 h).1 (8388608, 1) (by simp) 8388608 8388608 (by simp [InRange])
    (by simp [InRange])
  omega

end Verif.Importer
