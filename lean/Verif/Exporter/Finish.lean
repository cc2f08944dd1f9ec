import Verif.Exporter.System

/-! # C39: A query finishes after all partitions have answered -/

namespace Verif.Exporter

/-- Nothing is under way: no request, batch or `done`. -/
def Quiet (s : System) : Prop := s.requests = [] ∧ s.index.running = [] ∧ s.dones = 0

instance (s : System) : Decidable (Quiet s) := inferInstanceAs (Decidable (_ ∧ _ ∧ _))

/-- The client asks for events only before the response or when nothing is under way. -/
def Calm (total taste : Nat) : System → List Move → Prop
  | _, [] => True
  | s, m :: ms =>
    (match m with
      | .extractAll => s.answered = false ∨ Quiet s
      | .extract _ => s.answered = false ∨ Quiet s
      | _ => True) ∧ Calm total taste (s.move total taste m) ms

/-- Where the one batch of partitions is that is under way. -/
inductive Flight (total received scheduled : Nat) (index : Index) (requests : List Nat) (dones : Nat) : Prop
  | request (h1 : requests = [scheduled]) (h2 : index.running = []) (h3 : dones = 0) (h4 : index.evaluated = received)
      (h5 : index.remaining + received = total) (h6 : scheduled ≤ index.remaining)
  | running (h1 : requests = []) (h2 : index.running = [scheduled]) (h3 : dones = 0) (h4 : index.evaluated = received)
      (h5 : index.remaining + received + scheduled = total)
  | done (h1 : requests = []) (h2 : index.running = []) (h3 : dones = 1) (h4 : index.evaluated = received + scheduled)
      (h5 : index.remaining + received + scheduled = total)
  | quiet (h1 : requests = []) (h2 : index.running = []) (h3 : dones = 0) (h4 : index.evaluated = received)
      (h5 : index.remaining + received = total)

theorem flight_index {total received scheduled : Nat} {x : Index} {requests : List Nat} {dones i n : Nat} (hs : scheduled > 0)
    (h : Flight total received scheduled x requests dones) (hn : requests[i]? = some n) :
    Flight total received scheduled (x.request n).1 (requests.eraseIdx i) (dones + if (x.request n).2 then 1 else 0) := by
  cases h with
  | request h1 h2 h3 h4 h5 h6 =>
    subst h1
    cases i with
    | succ i => cases hn
    | zero =>
      cases hn
      rw [Index.request, if_neg (by omega), if_neg (by omega)]
      have : min scheduled x.remaining = scheduled := by omega
      rw [this]
      exact .running rfl (by simp [h2]) (by simp [h3]) h4 (by simp only; omega)
  | running h1 => subst h1; cases hn
  | done h1 => subst h1; cases hn
  | quiet h1 => subst h1; cases hn

theorem flight_finish {total received scheduled : Nat} {x : Index} {requests : List Nat} {dones : Nat} (i : Nat)
    (h : Flight total received scheduled x requests dones) :
    Flight total received scheduled (x.finish i).1 requests (dones + if (x.finish i).2 then 1 else 0) := by
  have hnone : x.running = [] → Flight total received scheduled (x.finish i).1 requests (dones + if (x.finish i).2 then 1 else 0) := by
    intro h2
    rw [Index.finish, h2]
    exact h
  cases h with
  | request h1 h2 => exact hnone h2
  | done h1 h2 => exact hnone h2
  | quiet h1 h2 => exact hnone h2
  | running h1 h2 h3 h4 h5 =>
    cases i with
    | succ i =>
      rw [Index.finish, h2]
      exact .running h1 h2 h3 h4 h5
    | zero =>
      rw [Index.finish, h2]
      refine .done h1 rfl (by simp [h3]) ?_ ?_
      · show x.evaluated + scheduled = received + scheduled; omega
      · show x.remaining + received + scheduled = total; exact h5

/-! ### The exporter -/

theorem ship_same (s : State) : (shipResults s).1.expected = s.expected ∧ (shipResults s).1.received = s.received ∧
    (shipResults s).1.scheduled = s.scheduled ∧ (shipResults s).1.stopping = s.stopping ∧
    (shipResults s).1.historical = s.historical ∧ requestsOf (shipResults s).2 = [] := by
  rw [shipResults]
  obtain ⟨a, b, c, d, e⟩ := shipLoop s.results s.requested s.cached
  refine ⟨rfl, rfl, rfl, rfl, rfl, ?_⟩
  simp only
  induction d with
  | nil => rfl
  | cons x d ih => simpa [requestsOf] using ih

theorem requestsOf_append (a b : List Out) : requestsOf (a ++ b) = requestsOf a ++ requestsOf b := by
  induction a with
  | nil => rfl
  | cons o os ih => cases o <;> simp [requestsOf, ih]

/-- `request_more_hits` does nothing, or schedules at most the remaining partitions. -/
theorem requestMore_cases (s : State) (h : s.received ≤ s.expected) :
    requestMore s = (s, []) ∨ ∃ n, 0 < n ∧ s.received + n ≤ s.expected ∧ requestMore s = ({ s with scheduled := n }, [.request n]) := by
  rw [requestMore]
  by_cases h1 : s.historical = false
  · rw [if_pos h1]; exact .inl rfl
  · rw [if_neg h1]
    by_cases h2 : s.requested = 0
    · rw [if_pos h2]; exact .inl rfl
    · rw [if_neg h2]
      by_cases h3 : s.received = s.expected
      · rw [if_pos h3]; exact .inl rfl
      · rw [if_neg h3, if_pos (by omega)]
        exact .inr ⟨_, by omega, by omega, rfl⟩

/-- The invariant. -/
structure Safe (total taste : Nat) (s : System) : Prop where
  before : s.answered = false → s.exporter.received = 0 ∧ s.exporter.expected = 0 ∧ s.exporter.stopping = false ∧
    Flight total 0 (min total taste) s.index s.requests s.dones
  after : s.answered = true → s.exporter.expected = total ∧ s.exporter.received ≤ total ∧ s.exporter.scheduled > 0 ∧
    Flight total s.exporter.received s.exporter.scheduled s.index s.requests s.dones
  stopped : s.exporter.stopping = true → s.answered = true ∧ s.exporter.received = total

theorem safe_extract {total taste : Nat} {s : System} (h : Safe total taste s) (hq : s.answered = false ∨ Quiet s) (t : State)
    (ht : t.expected = s.exporter.expected ∧ t.received = s.exporter.received ∧ t.scheduled = s.exporter.scheduled ∧
      t.stopping = s.exporter.stopping) :
    Safe total taste { s with exporter := (andThen (shipResults t) requestMore).1, requests := s.requests ++ requestsOf (andThen (shipResults t) requestMore).2 } := by
  obtain ⟨a1, a2, a3, a4, _, a6⟩ := ship_same t
  obtain ⟨t1, t2, t3, t4⟩ := ht
  simp only [andThen, requestsOf_append, a6, List.nil_append]
  cases ha : s.answered with
  | false =>
    obtain ⟨b1, b2, b3, b4⟩ := h.before ha
    have hno : requestMore (shipResults t).1 = ((shipResults t).1, []) := by
      rcases requestMore_cases (shipResults t).1 (by rw [a1, a2, t1, t2, b1, b2]; exact Nat.le_refl _) with hr | ⟨n, hn, hle, _⟩
      · exact hr
      · rw [a1, a2, t1, t2, b1, b2] at hle; omega
    rw [hno]
    refine ⟨fun _ => ⟨by rw [a2, t2, b1], by rw [a1, t1, b2], by rw [a4, t4, b3], by simpa [requestsOf] using b4⟩, ?_, ?_⟩
    · intro hc; simp only at hc; cases hc
    · intro hc; simp only at hc; rw [a4, t4, b3] at hc; cases hc
  | true =>
    obtain ⟨b1, b2, b3, b4⟩ := h.after ha
    rcases requestMore_cases (shipResults t).1 (by rw [a1, a2, t1, t2, b1]; exact b2) with hr | ⟨n, hn, hle, hr⟩
    · rw [hr]
      refine ⟨?_, fun _ => ⟨by rw [a1, t1, b1], by rw [a2, t2]; exact b2, by rw [a3, t3]; exact b3, ?_⟩, ?_⟩
      · intro hc; simp only at hc; cases hc
      · simp only [a2, a3, t2, t3, requestsOf, List.append_nil]; exact b4
      · intro hc; simp only at hc ⊢; rw [a4, t4] at hc; exact ⟨trivial, by rw [a2, t2]; exact (h.stopped hc).2⟩
    · rw [a1, a2, t1, t2, b1] at hle
      have hq' : Quiet s := by
        rcases hq with hq | hq
        · rw [ha] at hq; cases hq
        · exact hq
      obtain ⟨q1, q2, q3⟩ := hq'
      rw [hr]
      refine ⟨?_, fun _ => ⟨by simp only; rw [a1, t1, b1], by simp only; rw [a2, t2]; exact b2, hn, ?_⟩, ?_⟩
      · intro hc; simp only at hc; cases hc
      · simp only [requestsOf, a2, t2, q1, List.nil_append]
        cases b4 with
        | request h1 => rw [q1] at h1; cases h1
        | running h1 h2 => rw [q2] at h2; cases h2
        | done h1 h2 h3 => omega
        | quiet h1 h2 h3 h4 h5 => exact .request rfl h2 h3 h4 h5 (by omega)
      · intro hc; simp only at hc ⊢; rw [a4, t4] at hc; exact ⟨trivial, by rw [a2, t2]; exact (h.stopped hc).2⟩

theorem safe_same {total taste : Nat} {s t : System} (h : Safe total taste s) (h1 : t.answered = s.answered) (h2 : t.index = s.index)
    (h3 : t.requests = s.requests) (h4 : t.dones = s.dones) (h5 : t.exporter.expected = s.exporter.expected)
    (h6 : t.exporter.received = s.exporter.received) (h7 : t.exporter.scheduled = s.exporter.scheduled)
    (h8 : t.exporter.stopping = s.exporter.stopping) : Safe total taste t := by
  refine ⟨?_, ?_, ?_⟩ <;> simp only [h1, h2, h3, h4, h5, h6, h7, h8]
  · exact h.before
  · exact h.after
  · exact h.stopped

theorem safe_move {total taste : Nat} (htotal : total > 0) (htaste : taste > 0) {s : System} (h : Safe total taste s) (m : Move)
    (hm : match m with
      | .extractAll => s.answered = false ∨ Quiet s
      | .extract _ => s.answered = false ∨ Quiet s
      | _ => True) : Safe total taste (s.move total taste m) := by
  cases m with
  | response =>
    simp only [System.move]
    cases ha : s.answered with
    | true => simpa using h
    | false =>
      obtain ⟨b1, b2, b3, b4⟩ := h.before ha
      simp only [System.handle, step, onResponse, if_pos htotal, Bool.false_eq_true, if_false, requestsOf, List.append_nil]
      refine ⟨fun hc => (by cases hc), fun _ => ⟨rfl, by simp only; omega, by simp only; omega, ?_⟩, ?_⟩
      · simp only [b1]; exact b4
      · intro hc; simp only [b3] at hc; cases hc
  | extractAll =>
    simp only [System.move, System.handle, step, onExtractAll]
    by_cases hx : s.exporter.requested = maxEvents
    · rw [if_pos hx]; exact safe_same h rfl rfl (by simp [requestsOf]) rfl rfl rfl rfl rfl
    · rw [if_neg hx]; exact safe_extract h hm _ ⟨rfl, rfl, rfl, rfl⟩
  | extract n =>
    simp only [System.move, System.handle, step, onExtract]
    by_cases h0 : n = 0
    · rw [if_pos h0]; exact safe_same h rfl rfl (by simp [requestsOf]) rfl rfl rfl rfl rfl
    · rw [if_neg h0]
      by_cases hx : s.exporter.requested = maxEvents
      · rw [if_pos hx]; exact safe_same h rfl rfl (by simp [requestsOf]) rfl rfl rfl rfl rfl
      · rw [if_neg hx]; exact safe_extract h hm _ ⟨rfl, rfl, rfl, rfl⟩
  | slice x =>
    simp only [System.move, System.handle, step, onSlice]
    obtain ⟨a1, a2, a3, a4, _, a6⟩ := ship_same { s.exporter with cached := s.exporter.cached + x.length, results := s.exporter.results ++ [x] }
    exact safe_same h rfl rfl (by simp only [a6, List.append_nil]) rfl a1 a2 a3 a4
  | done =>
    simp only [System.move]
    by_cases hc : s.answered = true ∧ s.dones > 0
    · rw [if_pos hc]
      obtain ⟨b1, b2, b3, b4⟩ := h.after hc.1
      cases b4 with
      | request _ _ h3 => omega
      | running _ _ h3 => omega
      | quiet _ _ h3 => omega
      | done h1 h2 h3 h4 h5 =>
        simp only [System.handle, step, onDone]
        by_cases hlt : s.exporter.received + s.exporter.scheduled < s.exporter.expected
        · rw [if_pos hlt]
          have hns : s.exporter.stopping = false := by
            cases hs : s.exporter.stopping with
            | false => rfl
            | true => have := (h.stopped hs).2; omega
          rcases requestMore_cases { s.exporter with received := s.exporter.received + s.exporter.scheduled } (Nat.le_of_lt hlt) with hr | ⟨n, hn, hle, hr⟩
          · rw [hr]
            refine ⟨fun hf => (by simp only [hc.1] at hf; cases hf), fun _ => ⟨b1, by simp only; omega, b3, ?_⟩, fun hf => (by simp only [hns] at hf; cases hf)⟩
            exact .quiet (by simp [h1, requestsOf]) h2 (by simp only; omega) h4 (by simp only; omega)
          · rw [hr]
            simp only at hle
            refine ⟨fun hf => (by simp only [hc.1] at hf; cases hf), fun _ => ⟨b1, by simp only; omega, hn, ?_⟩, fun hf => (by simp only [hns] at hf; cases hf)⟩
            exact .request (by simp [h1, requestsOf]) h2 (by simp only; omega) h4 (by simp only; omega) (by simp only; omega)
        · rw [if_neg hlt]
          have hsame : ∀ t : State, (shutdown t).expected = t.expected ∧ (shutdown t).received = t.received ∧ (shutdown t).scheduled = t.scheduled := by
            intro t; rw [shutdown]; split <;> simp
          obtain ⟨q1, q2, q3⟩ := hsame { s.exporter with received := s.exporter.received + s.exporter.scheduled }
          refine ⟨fun hf => (by simp only [hc.1] at hf; cases hf), fun _ => ⟨by simp only [q1]; exact b1, by simp only [q2]; omega, by simp only [q3]; exact b3, ?_⟩, fun _ => ⟨hc.1, by simp only [q2]; omega⟩⟩
          simp only [q2, q3]
          exact .quiet (by simp [h1, requestsOf]) h2 (by omega) h4 (by omega)
    · rw [if_neg hc]; exact h
  | index i =>
    simp only [System.move]
    cases hn : s.requests[i]? with
    | none => exact h
    | some n =>
      refine ⟨fun ha => ?_, fun ha => ?_, h.stopped⟩
      · obtain ⟨b1, b2, b3, b4⟩ := h.before ha
        exact ⟨b1, b2, b3, flight_index (by omega) b4 hn⟩
      · obtain ⟨b1, b2, b3, b4⟩ := h.after ha
        exact ⟨b1, b2, b3, flight_index b3 b4 hn⟩
  | finish i =>
    simp only [System.move]
    refine ⟨fun ha => ?_, fun ha => ?_, h.stopped⟩
    · obtain ⟨b1, b2, b3, b4⟩ := h.before ha
      exact ⟨b1, b2, b3, flight_finish i b4⟩
    · obtain ⟨b1, b2, b3, b4⟩ := h.after ha
      exact ⟨b1, b2, b3, flight_finish i b4⟩

theorem safe_begin (continuous : Bool) (total taste : Nat) : Safe total taste (begin continuous total taste) :=
  ⟨fun _ => ⟨rfl, rfl, rfl, .request rfl rfl rfl rfl rfl (Nat.min_le_left _ _)⟩, fun h => (by cases h), fun h => (by cases h)⟩

theorem safe_moves {total taste : Nat} (htotal : total > 0) (htaste : taste > 0) (ms : List Move) (s : System) (h : Safe total taste s)
    (hc : Calm total taste s ms) : Safe total taste (s.moves total taste ms) := by
  induction ms generalizing s with
  | nil => exact h
  | cons m ms ih => exact ih _ (safe_move htotal htaste h m hc.1) hc.2

/-- C39, exporter: it stops only after every candidate partition has been evaluated, in every order of messages, provided that
    the client asks for events only before the response of the index (as `vast export` does) or while nothing is under way.
    Missing for the full statement: requests of the client meanwhile, for which it is false (`C39_overlap_refuted`). -/
theorem C39_exporter_partial (continuous : Bool) (total taste : Nat) (htotal : total > 0) (htaste : taste > 0) (ms : List Move)
    (hc : Calm total taste (begin continuous total taste) ms)
    (hs : ((begin continuous total taste).moves total taste ms).exporter.stopping = true) :
    ((begin continuous total taste).moves total taste ms).index.evaluated = total := by
  have h := safe_moves htotal htaste ms _ (safe_begin continuous total taste) hc
  obtain ⟨ha, hr⟩ := h.stopped hs
  obtain ⟨b1, b2, b3, b4⟩ := h.after ha
  cases b4 with
  | request h1 h2 h3 h4 h5 => omega
  | running h1 h2 h3 h4 h5 => omega
  | done h1 h2 h3 h4 h5 => omega
  | quiet h1 h2 h3 h4 h5 => omega

def calmMoves : List Move := [.extractAll, .response, .index 0, .finish 0, .done, .index 0, .slice [1, 2], .finish 0, .done, .index 0, .finish 0, .done]

example : Calm 4 1 (begin false 4 1) calmMoves ∧ ((begin false 4 1).moves 4 1 calmMoves).exporter.stopping = true := by
  refine ⟨?_, by decide⟩
  simp only [calmMoves, Calm]
  decide

/-- With a taste of one partition out of four, a request of the client while the first batch is under way makes the exporter
    stop although a partition is still being evaluated. -/
theorem C39_overlap_refuted : ∃ ms : List Move, ms = [.response, .extractAll, .index 0, .finish 0, .done, .index 0, .index 0, .finish 0, .done] ∧
    ((begin false 4 1).moves 4 1 ms).exporter.stopping = true ∧ ((begin false 4 1).moves 4 1 ms).index.running = [1] ∧
    ((begin false 4 1).moves 4 1 ms).index.evaluated = 3 := ⟨_, rfl, by decide, by decide, by decide⟩

/-- With the default taste of five partitions, out of six, the exporter can stop while all five are still being evaluated. -/
theorem C39_overlap_default_refuted : ∃ ms : List Move,
    ms = [.response, .extractAll, .index 0, .index 0, .finish 1, .done, .index 0, .done, .index 0, .done] ∧
    ((begin false 6 5).moves 6 5 ms).exporter.stopping = true ∧ ((begin false 6 5).moves 6 5 ms).index.running = [5] ∧
    ((begin false 6 5).moves 6 5 ms).index.evaluated = 1 := ⟨_, rfl, by decide, by decide, by decide⟩

/-! ### The query processor -/

structure PSafe (total taste : Nat) (s : PSystem) : Prop where
  before : s.processor = none → Flight total 0 (min total taste) s.index s.requests s.dones ∧ (s.requests ≠ [] ∨ s.index.running ≠ [] ∨ s.dones ≠ 0)
  after : ∀ p, s.processor = some p → p.total = total ∧ p.scheduled > 0 ∧ Flight total p.received p.scheduled s.index s.requests s.dones ∧
    (p.finished = true → p.received = total) ∧
    (p.finished = false → s.requests ≠ [] ∨ s.index.running ≠ [] ∨ s.dones ≠ 0)

theorem active_index {total received scheduled : Nat} {x : Index} {requests : List Nat} {dones i n : Nat} (hs : scheduled > 0)
    (h : Flight total received scheduled x requests dones) (hn : requests[i]? = some n) :
    (requests.eraseIdx i ≠ [] ∨ (x.request n).1.running ≠ [] ∨ dones + (if (x.request n).2 then 1 else 0) ≠ 0) := by
  cases h with
  | request h1 h2 h3 h4 h5 h6 =>
    subst h1
    cases i with
    | succ i => cases hn
    | zero =>
      cases hn
      rw [Index.request, if_neg (by omega), if_neg (by omega)]
      exact .inr (.inl (by simp))
  | running h1 => subst h1; cases hn
  | done h1 => subst h1; cases hn
  | quiet h1 => subst h1; cases hn

theorem active_finish (x : Index) (requests : List Nat) (dones i : Nat) (h : requests ≠ [] ∨ x.running ≠ [] ∨ dones ≠ 0) :
    requests ≠ [] ∨ (x.finish i).1.running ≠ [] ∨ dones + (if (x.finish i).2 then 1 else 0) ≠ 0 := by
  rw [Index.finish]
  cases hi : x.running[i]? with
  | none => simpa using h
  | some n => exact .inr (.inr (by simp))

theorem psafe_move {total taste : Nat} (htotal : total > 0) (htaste : taste > 0) {s : PSystem} (h : PSafe total taste s) (m : PMove) :
    PSafe total taste (s.move total taste m) := by
  cases m with
  | response =>
    simp only [PSystem.move]
    cases hp : s.processor with
    | some p => exact h
    | none =>
      obtain ⟨b1, b2⟩ := h.before hp
      refine ⟨fun hc => (by cases hc), fun p hc => ?_⟩
      cases hc
      exact ⟨rfl, by simp only; omega, b1, fun hf => (by cases hf), fun _ => b2⟩
  | done =>
    simp only [PSystem.move]
    cases hp : s.processor with
    | none => exact h
    | some p =>
      simp only
      by_cases hc : s.dones > 0 ∧ p.finished = false
      · rw [if_pos hc]
        obtain ⟨a1, a2, a3, a4, a5⟩ := h.after p hp
        cases a3 with
        | request _ _ h3 => omega
        | running _ _ h3 => omega
        | quiet _ _ h3 => omega
        | done h1 h2 h3 h4 h5 =>
          refine ⟨fun hf => (by cases hf), fun p' hp' => ?_⟩
          cases hp'
          rw [Processor.onDone]
          by_cases h0 : min (p.total - (p.received + p.scheduled)) p.scheduled = 0
          · rw [if_pos h0]
            refine ⟨a1, a2, .quiet (by simp [h1]) h2 (by simp only; omega) h4 (by simp only; omega), fun _ => by simp only; omega, fun hf => (by cases hf)⟩
          · rw [if_neg h0]
            refine ⟨a1, by simp only; omega, .request (by simp [h1]) h2 (by simp only; omega) h4 (by simp only; omega) (by simp only; omega),
              fun hf => (by simp only [hc.2] at hf; cases hf), fun _ => .inl (by simp)⟩
      · rw [if_neg hc]; exact h
  | index i =>
    simp only [PSystem.move]
    cases hn : s.requests[i]? with
    | none => exact h
    | some n =>
      refine ⟨fun hp => ?_, fun p hp => ?_⟩
      · obtain ⟨b1, b2⟩ := h.before hp
        exact ⟨flight_index (by omega) b1 hn, active_index (by omega) b1 hn⟩
      · obtain ⟨a1, a2, a3, a4, a5⟩ := h.after p hp
        exact ⟨a1, a2, flight_index a2 a3 hn, a4, fun _ => active_index a2 a3 hn⟩
  | finish i =>
    simp only [PSystem.move]
    refine ⟨fun hp => ?_, fun p hp => ?_⟩
    · obtain ⟨b1, b2⟩ := h.before hp
      exact ⟨flight_finish i b1, active_finish _ _ _ i b2⟩
    · obtain ⟨a1, a2, a3, a4, a5⟩ := h.after p hp
      exact ⟨a1, a2, flight_finish i a3, a4, fun hf => active_finish _ _ _ i (a5 hf)⟩

theorem psafe_moves {total taste : Nat} (htotal : total > 0) (htaste : taste > 0) (ms : List PMove) :
    PSafe total taste ((pbegin total taste).moves total taste ms) := by
  have : ∀ (ms : List PMove) (s : PSystem), PSafe total taste s → PSafe total taste (s.moves total taste ms) := by
    intro ms
    induction ms with
    | nil => intro s h; exact h
    | cons m ms ih => intro s h; exact ih _ (psafe_move htotal htaste h m)
  apply this
  rw [pbegin, if_neg (by omega)]
  exact ⟨fun _ => ⟨.request rfl rfl rfl rfl rfl (Nat.min_le_left _ _), .inl (by simp)⟩, fun p hp => (by cases hp)⟩

/-- C39, query processor: in every order of messages, it finishes only after every candidate partition has been evaluated. -/
theorem C39_processor (total taste : Nat) (htotal : total > 0) (htaste : taste > 0) (ms : List PMove) (p : Processor)
    (hp : ((pbegin total taste).moves total taste ms).processor = some p) (hf : p.finished = true) :
    ((pbegin total taste).moves total taste ms).index.evaluated = total := by
  obtain ⟨a1, a2, a3, a4, a5⟩ := (psafe_moves htotal htaste ms).after p hp
  have hr := a4 hf
  cases a3 with
  | request h1 h2 h3 h4 h5 => omega
  | running h1 h2 h3 h4 h5 => omega
  | done h1 h2 h3 h4 h5 => omega
  | quiet h1 h2 h3 h4 h5 => omega

/-- C39, query processor: it does finish: as long as it has not, a message or a batch is under way. -/
theorem C39_processor_progress (total taste : Nat) (htotal : total > 0) (htaste : taste > 0) (ms : List PMove) (p : Processor)
    (hp : ((pbegin total taste).moves total taste ms).processor = some p)
    (hq : ((pbegin total taste).moves total taste ms).requests = [] ∧ ((pbegin total taste).moves total taste ms).index.running = [] ∧
      ((pbegin total taste).moves total taste ms).dones = 0) : p.finished = true := by
  obtain ⟨a1, a2, a3, a4, a5⟩ := (psafe_moves htotal htaste ms).after p hp
  cases hf : p.finished with
  | true => rfl
  | false =>
    rcases a5 hf with h | h | h
    · exact absurd hq.1 h
    · exact absurd hq.2.1 h
    · exact absurd hq.2.2 h

def processorMoves : List PMove := [.response, .index 0, .finish 0, .done, .index 0, .finish 0, .done]

example : ((pbegin 7 5).moves 7 5 processorMoves).processor = some ⟨7, 2, 7, true⟩ := by decide

/-- Without candidates the query processor finishes as well. -/
example : ((pbegin 0 5).moves 0 5 [.response, .done]).processor = some ⟨0, 0, 0, true⟩ := by decide

/-- With a taste of zero partitions the index drops the query: nothing is under way, and the processor never finishes. -/
theorem C39_taste_zero_refuted : (pbegin 3 0).moves 3 0 [.response, .index 0] = ⟨some ⟨0, 0, 3, false⟩, ⟨0, [], 0⟩, [], 0⟩ := by decide

end Verif.Exporter
