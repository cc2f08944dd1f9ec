import Verif.Reader.SourceLemmas
import Verif.Reader.Props
/-!
# C73: an import forwards what it reads, up to the requested number of events

The source is asked for messages any number of times, with any amounts and clocks, and may be told to exit.
-/
namespace Verif.Reader

variable {L R : Type} [DecidableEq L]

/-- At any time, for every layout, the rows sent downstream are an initial part of the rows of the input that
the filter keeps, in order; the end-of-stream marker is sent once, as the last thing, when the source
terminates. -/
theorem C73_always_partial (cfg : Cfg L R) (hm : 0 < cfg.sliceSize) (a : List Arr) (h : CrOk a) (ms : List Msg) :
    let s := history cfg a ms
    (∀ k, rowsIn k (slicesOf s.sent) <+: (eventsIn cfg.classify k (linesOf (bytes a))).filter (cfg.keep k)) ∧
    (∃ fs, s.sent = fs ++ (if s.quit then [.eof] else []) ∧ eofs fs = 0) := by
  have hs := history_sinv cfg a h hm ms
  refine ⟨fun k => ?_, ⟨forwarded cfg (history cfg a ms).reader.out, hs.sent, eofs_forwarded _ _⟩⟩
  have e : slicesOf (history cfg a ms).sent = slicesOf (forwarded cfg (history cfg a ms).reader.out) := by
    rw [hs.sent, slicesOf_append]
    split <;> simp [slicesOf]
  rw [e, slicesOf_forwarded]
  apply List.IsPrefix.filter
  rw [← hs.account k, account, List.append_assoc]
  exact ⟨_, rfl⟩

/-- Invariants of a history without an exit message. -/
theorem history_ind (cfg : Cfg L R) (a : List Arr) (h : CrOk a) (hm : 0 < cfg.sliceSize) (P : Src L R → Prop)
    (h0 : P (.init a))
    (hs : ∀ s num clock, SInv cfg a s → P s → s.quit = false → s.abort = false → P (run cfg num clock s))
    (ms : List Msg) (hms : ∀ x ∈ ms, ∃ n c, x = .run n c) : P (history cfg a ms) := by
  have : ∀ (ms : List Msg) (s : Src L R), SInv cfg a s → P s → (∀ x ∈ ms, ∃ n c, x = .run n c) →
      P (ms.foldl (step cfg) s) := by
    intro ms
    induction ms with
    | nil => exact fun _ _ hp _ => hp
    | cons m ms ih =>
      intro s hi hp hms
      refine ih _ (step_sinv cfg a hm m s hi) ?_ fun x hx => hms x (by simp [hx])
      obtain ⟨n, c, rfl⟩ := hms m (by simp)
      simp only [step]
      by_cases hq : s.quit = true
      · simpa [hq] using hp
      · by_cases ha : s.abort = true
        · simpa [ha] using hp
        · simp only [hq, ha, Bool.false_or, Bool.false_eq_true, ↓reduceIte]
          exact hs s n c hi hp (by simpa using hq) (by simpa using ha)
  exact this ms _ (sinv_init cfg a h hm) h0 hms

/-- Without a limit: once the source has terminated by itself, everything in the input that the filter
keeps has been sent.  Hypotheses: no line makes the reader give up, and nobody told the source to exit. -/
theorem C73_complete_partial (cfg : Cfg L R) (hm : 0 < cfg.sliceSize) (hr : cfg.requested = none)
    (hf : ∀ x, cfg.classify x ≠ .fatal) (a : List Arr) (h : CrOk a) (ms : List Msg)
    (hms : ∀ x ∈ ms, ∃ n c, x = .run n c) (hq : (history cfg a ms).quit = true) (k : L) :
    rowsIn k (slicesOf (history cfg a ms).sent) = (eventsIn cfg.classify k (linesOf (bytes a))).filter (cfg.keep k) := by
  have key := history_ind cfg a h hm
    (fun s => s.quit = true → s.reader.lines.done = true ∧ ∀ k, rowsOf s.reader.builders k = [])
    (by simp [Src.init])
    (by
      intro s num clock hi _ hq' _ hquit
      obtain ⟨_, h2⟩ := run_spec cfg a hm num clock s hi hq'
      by_cases hb : budget cfg s num = 0
      · simp [run, hb, hq'] at hquit
      · obtain ⟨e1, _, e3⟩ := h2 hb
        obtain ⟨A, A'⟩ := readImpl_spec hm cfg.classify (json_takes hm) (budget cfg s num) clock s.reader hi.lines hi.binv
        rw [e1]
        rcases e3 hquit with ⟨q, c, _⟩ | c | c
        · rw [hr] at c; simp at c
        · exact ⟨A.ended c, (A.flushed (by rw [c]; simp) A').2⟩
        · exact absurd c (loop_error _ hf _ _ _ _ _ _))
    ms hms hq
  have hs := history_sinv cfg a h hm ms
  have e : slicesOf (history cfg a ms).sent = slicesOf (forwarded cfg (history cfg a ms).reader.out) := by
    rw [hs.sent, slicesOf_append]
    split <;> simp [slicesOf]
  rw [e, slicesOf_forwarded]
  congr 1
  rw [← hs.account k]
  simp [account, key.2 k, pending_done _ key.1, eventsIn]

theorem budget_le (cfg : Cfg L R) (s : Src L R) (num q : Nat) (hr : cfg.requested = some q) (hq : q < 2 ^ 64)
    (hc : s.count < q) : budget cfg s num ≤ q - s.count := by
  simp only [budget, hr]
  have : (q + 2 ^ 64 - s.count) % 2 ^ 64 = q - s.count := by omega
  omega

/-- With a limit, on an input that never stalls: never more than the requested number of events are read
or sent; and once the source has terminated by itself it has read exactly that many, or sent all there is. -/
theorem C73_limit_partial (cfg : Cfg L R) (hm : 0 < cfg.sliceSize) (q : Nat) (hr : cfg.requested = some q)
    (h0 : 0 < q) (h64 : q < 2 ^ 64) (a : List Arr) (h : NoStall a) (ms : List Msg)
    (hms : ∀ x ∈ ms, ∃ n c, x = .run n c) :
    let s := history cfg a ms
    total (slicesOf s.sent) ≤ q ∧ s.count ≤ q ∧
    ((∀ x, cfg.classify x ≠ .fatal) → s.quit = true → s.count = q ∨
      ∀ k, rowsIn k (slicesOf s.sent) = (eventsIn cfg.classify k (linesOf (bytes a))).filter (cfg.keep k)) := by
  have hcr := crOk_of_noStall h
  have key := history_ind cfg a hcr hm
    (fun s => s.count ≤ q ∧ Quiet s.reader.lines ∧ buffered s.reader = 0 ∧
      ((∀ x, cfg.classify x ≠ .fatal) → s.quit = true → s.count = q ∨
        (s.reader.lines.done = true ∧ ∀ k, rowsOf s.reader.builders k = [])))
    ⟨by simp [Src.init], ⟨h, rfl⟩, rfl, by simp [Src.init]⟩
    (by
      intro s num clock hi ⟨p1, p2, p3, p4⟩ hq' ha'
      obtain ⟨h1, h2⟩ := run_spec cfg a hm num clock s hi hq'
      by_cases hb : budget cfg s num = 0
      · simp only [run, hb, ↓reduceIte]
        exact ⟨p1, p2, p3, p4⟩
      · obtain ⟨e1, _, e3⟩ := h2 hb
        obtain ⟨A, A'⟩ := readImpl_spec hm cfg.classify (json_takes hm) (budget cfg s num) clock s.reader hi.lines hi.binv
        obtain ⟨q1, q2⟩ := loop_quiet cfg.classify (json_takes hm) (budget cfg s num) clock hm
          (s.reader.lines.input.arrivals.length + 4) 0 0 s.reader hi.binv p2
        have hlt : s.count < q := by
          rcases hi.below hq' ha' q hr with c | c
          · exact c
          · omega
        have hbud := budget_le cfg s num q hr h64 hlt
        have hle : (run cfg num clock s).count ≤ q := by
          rw [h1.count, e1]
          have := A.limit
          have := hi.count
          omega
        refine ⟨hle, by rw [e1]; exact q2, by rw [e1]; exact (A.flushed q1 A').1, fun hf hquit => ?_⟩
        rcases e3 hquit with ⟨q', c, hle'⟩ | c | c
        · rw [hr] at c
          cases c
          exact .inl (by omega)
        · exact .inr (by rw [e1]; exact ⟨A.ended c, (A.flushed (by rw [c]; simp) A').2⟩)
        · exact absurd c (loop_error _ hf _ _ _ _ _ _))
    ms hms
  have hs := history_sinv cfg a hcr hm ms
  have e : slicesOf (history cfg a ms).sent = slicesOf (forwarded cfg (history cfg a ms).reader.out) := by
    rw [hs.sent, slicesOf_append]
    split <;> simp [slicesOf]
  refine ⟨?_, key.1, fun hf hquit => ?_⟩
  · rw [e]
    have := total_forwarded cfg (history cfg a ms).reader.out
    have := hs.count
    have := key.1
    omega
  · rcases key.2.2.2 hf hquit with c | ⟨c1, c2⟩
    · exact .inl c
    · refine .inr fun k => ?_
      rw [e, slicesOf_forwarded]
      congr 1
      rw [← hs.account k]
      simp [account, c2 k, pending_done _ c1, eventsIn]

/-- With a limit, on any input: a run exceeds the requested number of events by at most those that earlier
runs had taken in without delivering them. -/
theorem C73_overshoot_partial (cfg : Cfg L R) (hm : 0 < cfg.sliceSize) (q : Nat) (hr : cfg.requested = some q)
    (h0 : 0 < q) (h64 : q < 2 ^ 64) (a : List Arr) (h : CrOk a) (ms : List Msg) (num : Nat) (clock : Nat → Bool)
    (hq : (history cfg a ms).quit = false) (ha : (history cfg a ms).abort = false) :
    (history cfg a (ms ++ [.run num clock])).count ≤ q + buffered (history cfg a ms).reader := by
  have hs := history_sinv cfg a h hm ms
  have hlt : (history cfg a ms).count < q := by
    rcases hs.below hq ha q hr with c | c
    · exact c
    · omega
  rw [history_append]
  simp only [step, hq, ha, Bool.false_or, Bool.false_eq_true, ↓reduceIte]
  obtain ⟨h1, h2⟩ := run_spec cfg a hm num clock _ hs hq
  by_cases hb : budget cfg (history cfg a ms) num = 0
  · simp only [run, hb, ↓reduceIte]; omega
  · obtain ⟨e1, _, _⟩ := h2 hb
    obtain ⟨A, _⟩ := readImpl_spec hm cfg.classify (json_takes hm) (budget cfg (history cfg a ms) num) clock _ hs.lines hs.binv
    have hbud := budget_le cfg _ num q hr h64 hlt
    rw [h1.count, e1]
    have := A.limit
    have := hs.count
    omega

/-- No assertion fails, provided the limit, if there is one, is neither zero nor beyond 64 bits, and the
stream asks for at least one message and not for so many that their events cannot be counted in 64 bits. -/
theorem C73_no_abort_partial (cfg : Cfg L R) (hm : 0 < cfg.sliceSize)
    (hr : ∀ q, cfg.requested = some q → 0 < q ∧ q < 2 ^ 64) (a : List Arr) (h : CrOk a) (ms : List Msg)
    (hms : ∀ x ∈ ms, ∃ n c, x = .run n c ∧ 0 < n ∧ n * cfg.sliceSize < 2 ^ 64) :
    (history cfg a ms).abort = false := by
  have : ∀ (ms : List Msg) (s : Src L R), SInv cfg a s → s.abort = false →
      (∀ x ∈ ms, ∃ n c, x = .run n c ∧ 0 < n ∧ n * cfg.sliceSize < 2 ^ 64) →
      (ms.foldl (step cfg) s).abort = false := by
    intro ms
    induction ms with
    | nil => exact fun _ _ hp _ => hp
    | cons m ms ih =>
      intro s hi hp hms
      refine ih _ (step_sinv cfg a hm m s hi) ?_ fun x hx => hms x (by simp [hx])
      obtain ⟨n, c, rfl, hn, hw⟩ := hms m (by simp)
      simp only [step]
      by_cases hq : s.quit = true
      · simpa [hq] using hp
      · have hq' : s.quit = false := by simpa using hq
        simp only [hq', hp, Bool.false_or, Bool.false_eq_true, ↓reduceIte]
        have hpos : 0 < n * cfg.sliceSize := Nat.mul_pos hn hm
        have hb : budget cfg s n ≠ 0 := by
          simp only [budget]
          cases hreq : cfg.requested with
          | none => simp only; omega
          | some q =>
            obtain ⟨hq0, hq1⟩ := hr q hreq
            rcases hi.below hq' hp q hreq with c | c
            · simp only; omega
            · omega
        rw [((run_spec cfg a hm n c s hi hq').2 hb).2.1]
        exact hp
  exact this ms _ (sinv_init cfg a h hm) rfl hms

/-! ## Concrete cases -/

/-- Slices of at most two events; no limit; rows starting with the byte `x` are filtered out. -/
def demoCfg (q : Option Nat) : Cfg UInt8 (List UInt8) :=
  ⟨demo, 2, q, fun _ r => r.head? ≠ some 120⟩

/-- The input of `Props.lean` is forwarded completely after three requests. -/
example : (history (demoCfg none) demoInput [.run 5 still, .run 5 still, .run 5 still]).quit = true ∧
    slicesOf (history (demoCfg none) demoInput [.run 5 still, .run 5 still, .run 5 still]).sent
      = [(97, [[49], [51]]), (98, [[50]])] := by decide

/-- `a1⏎ax⏎a3⏎a4⏎` with a limit of three: the source reads three events and sends the two the filter keeps. -/
example : NoStall (text [97, 49, 10, 97, 120, 10, 97, 51, 10, 97, 52, 10]) ∧
    (history (demoCfg (some 3)) (text [97, 49, 10, 97, 120, 10, 97, 51, 10, 97, 52, 10]) [.run 5 still]).count = 3 ∧
    slicesOf (history (demoCfg (some 3)) (text [97, 49, 10, 97, 120, 10, 97, 51, 10, 97, 52, 10]) [.run 5 still]).sent
      = [(97, [[49]]), (97, [[51]])] := by
  refine ⟨by simp [NoStall, text], by decide, by decide⟩

/-- An import limited to two events sends three, because the input stalled after the first. -/
theorem C73_limit_refuted : ∃ (a : List Arr) (ms : List Msg), CrOk a ∧
    total (slicesOf (history (demoCfg (some 2)) a ms).sent) = 3 :=
  ⟨text [97, 49, 10] ++ [.timeout] ++ text [97, 50, 10, 97, 51, 10, 97, 52, 10], [.run 5 still, .run 5 still],
    by simp [text, CrOk], by decide⟩

/-- An import that is told to exit drops the events it has read but not yet delivered: here the whole input
has been read, and nothing of it is sent. -/
theorem C73_exit_refuted : ∃ (a : List Arr) (ms : List Msg), CrOk a ∧
    (history (demoCfg none) a ms).quit = true ∧ (history (demoCfg none) a ms).reader.lines.input.arrivals = [] ∧
    eventsIn demo 97 (linesOf (bytes a)) = [[49]] ∧ slicesOf (history (demoCfg none) a ms).sent = [] :=
  ⟨text [97, 49, 10] ++ [.timeout], [.run 5 still, .exit], by simp [text, CrOk], by decide, by decide, by decide, by decide⟩

/-- An import limited to zero events fails an assertion. -/
theorem C73_zero_refuted : ∃ (a : List Arr) (ms : List Msg), (history (demoCfg (some 0)) a ms).abort = true :=
  ⟨text [97, 49, 10], [.run 5 still], by decide⟩

end Verif.Reader
