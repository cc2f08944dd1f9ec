import Verif.Exporter.Model

/-! # C38: The exporter ships no more events than requested and none twice -/

namespace Verif.Exporter

namespace Spec

/-- The events that arrive with a message. -/
def arriving : Ev → List Nat
  | .slice x => x
  | .batch (some xs) => xs.flatten
  | _ => []

/-- All events that arrive, in order. -/
def arrived (es : List Ev) : List Nat := es.flatMap arriving

/-- The events that are sent to the sink, in order. -/
def shippedEvents : List Out → List Nat
  | [] => []
  | .ship x :: os => x ++ shippedEvents os
  | .request _ :: os => shippedEvents os

/-- The events that a client asks for with `extract n`. -/
def asked : List Ev → Nat
  | [] => 0
  | .extract n :: es => n + asked es
  | _ :: es => asked es

end Spec

open Spec

def total (xs : List (List Nat)) : Nat := (xs.map List.length).sum

theorem total_flatten (xs : List (List Nat)) : total xs = xs.flatten.length := by
  rw [total, List.length_flatten]

theorem shipped_append (a b : List Out) : shippedEvents (a ++ b) = shippedEvents a ++ shippedEvents b := by
  induction a with
  | nil => rfl
  | cons o os ih => cases o <;> simp [shippedEvents, ih]

theorem shipped_map (xs : List (List Nat)) : shippedEvents (xs.map Out.ship) = xs.flatten := by
  induction xs with
  | nil => rfl
  | cons x xs ih => simp [shippedEvents, ih]

/-- What the loop does: it ships as many events as are requested and available. -/
theorem shipLoop_spec (xs : List (List Nat)) (r : Nat) :
    (shipLoop xs r (total xs)).2.2.2.1.flatten = xs.flatten.take r ∧
    (shipLoop xs r (total xs)).1.flatten = xs.flatten.drop r ∧
    (shipLoop xs r (total xs)).2.1 = r - total xs ∧
    (shipLoop xs r (total xs)).2.2.1 = total (shipLoop xs r (total xs)).1 ∧
    (shipLoop xs r (total xs)).2.2.2.2 = false := by
  induction xs generalizing r with
  | nil => simp [shipLoop, total]
  | cons x xs ih =>
    have ht : total (x :: xs) = x.length + total xs := by simp [total]
    rw [shipLoop]
    by_cases hc : r > 0 ∧ total (x :: xs) > 0
    · rw [if_pos hc]
      by_cases hx : x.length ≤ r
      · rw [if_pos hx]
        have hsub : total (x :: xs) - x.length = total xs := by omega
        obtain ⟨h1, h2, h3, h4, h5⟩ := ih (r - x.length)
        rw [hsub]
        generalize shipLoop xs (r - x.length) (total xs) = res at h1 h2 h3 h4 h5
        obtain ⟨a, b, c, d, e⟩ := res
        simp only at h1 h2 h3 h4 h5
        refine ⟨?_, ?_, ?_, h4, h5⟩
        · simp only [List.flatten_cons, h1, List.take_append, List.take_of_length_le hx]
        · simp only [List.flatten_cons, h2, List.drop_append, List.drop_of_length_le hx, List.nil_append]
        · simp only [h3]; omega
      · rw [if_neg hx]
        have hlt : r ≤ x.length := by omega
        refine ⟨?_, ?_, ?_, ?_, rfl⟩
        · simp [List.take_append, Nat.sub_eq_zero_of_le hlt]
        · simp [List.drop_append, Nat.sub_eq_zero_of_le hlt]
        · simp only; omega
        · simp only [total, List.map_cons, List.sum_cons, List.length_drop]; omega
    · rw [if_neg hc]
      have hcase : r = 0 ∨ total (x :: xs) = 0 := by omega
      rcases hcase with rfl | h0
      · exact ⟨by simp, by simp, by simp, rfl, rfl⟩
      · have : (x :: xs).flatten = [] := List.eq_nil_of_length_eq_zero (by rw [← total_flatten]; exact h0)
        refine ⟨?_, ?_, ?_, rfl, rfl⟩
        · simp only [this, List.take_nil, List.flatten_nil]
        · simp only [this, List.drop_nil]
        · simp only; omega

/-- The effect of `ship_results` in a state with a correct number of cached events. -/
theorem shipResults_spec (s : State) (hc : s.cached = total s.results) :
    shippedEvents (shipResults s).2 = s.results.flatten.take s.requested ∧
    (shipResults s).1.results.flatten = s.results.flatten.drop s.requested ∧
    (shipResults s).1.requested = s.requested - total s.results ∧
    (shipResults s).1.cached = total (shipResults s).1.results ∧
    (shipResults s).1.bad = s.bad ∧
    (shipResults s).1.shipped = s.shipped + (s.results.flatten.take s.requested).length := by
  have h := shipLoop_spec s.results s.requested
  rw [shipResults, hc]
  generalize shipLoop s.results s.requested (total s.results) = res at h
  obtain ⟨a, b, c, d, e⟩ := res
  obtain ⟨h1, h2, h3, h4, h5⟩ := h
  simp only at h1 h2 h3 h4 h5
  refine ⟨?_, h2, h3, h4, ?_, ?_⟩
  · simp only [shipped_map, h1]
  · simp [h5]
  · simp only [← h1, List.length_flatten]

theorem requestMore_same (s : State) : (requestMore s).1.results = s.results ∧ (requestMore s).1.requested = s.requested ∧
    (requestMore s).1.cached = s.cached ∧ (requestMore s).1.shipped = s.shipped ∧ shippedEvents (requestMore s).2 = [] := by
  rw [requestMore]
  by_cases h1 : s.historical = false
  · rw [if_pos h1]; simp [shippedEvents]
  · rw [if_neg h1]
    by_cases h2 : s.requested = 0
    · rw [if_pos h2]; simp [shippedEvents]
    · rw [if_neg h2]
      by_cases h3 : s.received = s.expected
      · rw [if_pos h3]; simp [shippedEvents]
      · rw [if_neg h3]
        by_cases h4 : s.received < s.expected
        · rw [if_pos h4]; simp [shippedEvents]
        · rw [if_neg h4]; simp [shippedEvents]

theorem shutdown_same (s : State) : (shutdown s).results = s.results ∧ (shutdown s).requested = s.requested ∧
    (shutdown s).cached = s.cached ∧ (shutdown s).shipped = s.shipped := by
  rw [shutdown]; split <;> simp

/-- One handler: the number of requested events it works with, given by the message alone. -/
def newRequested (s : State) : Ev → Nat
  | .extractAll => maxEvents
  | .extract n => if n = 0 ∨ s.requested = maxEvents then s.requested else (s.requested + min (maxEvents - n) n) % 2 ^ 64
  | _ => s.requested

/-- Nothing is withheld: no event is cached while events are requested. -/
structure Good (s : State) : Prop where
  cached : s.cached = total s.results
  eager : s.requested = 0 ∨ s.results.flatten = []

theorem step_spec {s : State} (h : Good s) (e : Ev) :
    shippedEvents (step s e).2 = (s.results.flatten ++ arriving e).take (newRequested s e) ∧
    (step s e).1.results.flatten = (s.results.flatten ++ arriving e).drop (newRequested s e) ∧
    (step s e).1.requested = newRequested s e - (s.results.flatten ++ arriving e).length ∧
    Good (step s e).1 ∧
    (step s e).1.shipped = s.shipped + (shippedEvents (step s e).2).length := by
  -- a handler that ships after having set up `t`
  have ship : ∀ t : State, t.cached = total t.results →
      shippedEvents (shipResults t).2 = t.results.flatten.take t.requested ∧
      (shipResults t).1.results.flatten = t.results.flatten.drop t.requested ∧
      (shipResults t).1.requested = t.requested - t.results.flatten.length ∧
      Good (shipResults t).1 ∧ (shipResults t).1.shipped = t.shipped + (shippedEvents (shipResults t).2).length := by
    intro t ht
    obtain ⟨h1, h2, h3, h4, _, h6⟩ := shipResults_spec t ht
    rw [total_flatten] at h3
    refine ⟨h1, h2, h3, ⟨h4, ?_⟩, by rw [h6, h1]⟩
    rw [h3, h2, List.drop_eq_nil_iff]; omega
  -- a handler that does not change anything of interest
  have same : ∀ (t : State) (o : List Out), t.results = s.results → t.requested = s.requested → t.cached = s.cached → t.shipped = s.shipped →
      shippedEvents o = [] →
      shippedEvents o = (s.results.flatten ++ []).take s.requested ∧ t.results.flatten = (s.results.flatten ++ []).drop s.requested ∧
      t.requested = s.requested - (s.results.flatten ++ []).length ∧ Good t ∧ t.shipped = s.shipped + (shippedEvents o).length := by
    intro t o h1 h2 h3 h4 h5
    have hg : Good t := ⟨by rw [h3, h1, h.cached], by rw [h2, h1]; exact h.eager⟩
    rw [h5, h4, h1, h2, List.append_nil]
    rcases h.eager with h0 | h0
    · rw [h0]; exact ⟨by simp, by simp, by simp, hg, by simp⟩
    · rw [h0]; exact ⟨by simp, by simp, by simp, hg, by simp⟩
  -- shipping followed by a request
  have extract : ∀ r : Nat, 
      let a := andThen (shipResults { s with requested := r }) requestMore
      shippedEvents a.2 = (s.results.flatten ++ []).take r ∧ a.1.results.flatten = (s.results.flatten ++ []).drop r ∧
      a.1.requested = r - (s.results.flatten ++ []).length ∧ Good a.1 ∧ a.1.shipped = s.shipped + (shippedEvents a.2).length := by
    intro r a
    obtain ⟨h1, h2, h3, h4, h5⟩ := ship { s with requested := r } h.cached
    obtain ⟨r1, r2, r3, r4, r5⟩ := requestMore_same (shipResults { s with requested := r }).1
    have ha : shippedEvents a.2 = shippedEvents (shipResults { s with requested := r }).2 := by
      show shippedEvents (_ ++ _) = _
      rw [shipped_append, r5, List.append_nil]
    rw [ha, List.append_nil]
    refine ⟨h1, ?_, ?_, ⟨?_, ?_⟩, ?_⟩
    · exact (congrArg List.flatten r1).trans h2
    · exact r2.trans h3
    · exact r3.trans (h4.cached.trans (congrArg total r1.symm))
    · rcases h4.eager with h0 | h0
      · exact .inl (r2.trans h0)
      · exact .inr ((congrArg List.flatten r1).trans h0)
    · exact r4.trans h5
  cases e with
  | extractAll =>
    simp only [step, onExtractAll, newRequested, arriving]
    by_cases hm : s.requested = maxEvents
    · rw [if_pos hm, ← hm]; exact same s [] rfl rfl rfl rfl rfl
    · rw [if_neg hm]; exact extract maxEvents
  | extract n =>
    simp only [step, onExtract, newRequested, arriving]
    by_cases h0 : n = 0
    · rw [if_pos h0, if_pos (.inl h0)]; exact same s [] rfl rfl rfl rfl rfl
    · rw [if_neg h0]
      by_cases hm : s.requested = maxEvents
      · rw [if_pos hm, if_pos (.inr hm)]; exact same s [] rfl rfl rfl rfl rfl
      · rw [if_neg hm, if_neg (by rintro (h | h) <;> contradiction)]; exact extract _
  | slice x =>
    simp only [step, onSlice, newRequested, arriving]
    have := ship { s with cached := s.cached + x.length, results := s.results ++ [x] } (by simp [total, h.cached])
    simpa using this
  | batch xs =>
    cases xs with
    | none =>
      simp only [step, onBatch, newRequested, arriving]
      obtain ⟨h1, h2, h3, h4, h5⟩ := ship s h.cached
      obtain ⟨q1, q2, q3, q4⟩ := shutdown_same (shipResults s).1
      rw [List.append_nil, q1, q2, q4]
      exact ⟨h1, h2, h3, ⟨by rw [q3, q1]; exact h4.cached, by rw [q2, q1]; exact h4.eager⟩, h5⟩
    | some xs =>
      simp only [step, onBatch, newRequested, arriving]
      by_cases h0 : (xs.map List.length).sum = 0
      · have hnil : xs.flatten = [] := List.eq_nil_of_length_eq_zero (by rw [List.length_flatten]; exact h0)
        rw [if_pos h0, hnil]; exact same s [] rfl rfl rfl rfl rfl
      · rw [if_neg h0]
        have := ship { s with cached := s.cached + (xs.map List.length).sum, results := s.results ++ xs } (by simp [total, h.cached])
        simpa using this
  | response p n =>
    simp only [step, onResponse, newRequested, arriving]
    by_cases hp : p > 0
    · rw [if_pos hp]; exact same _ [] rfl rfl rfl rfl rfl
    · rw [if_neg hp]
      obtain ⟨q1, q2, q3, q4⟩ := shutdown_same s
      exact same _ [] q1 q2 q3 q4 rfl
  | done =>
    simp only [step, onDone, newRequested, arriving]
    by_cases hp : s.received + s.scheduled < s.expected
    · rw [if_pos hp]
      obtain ⟨q1, q2, q3, q4, q5⟩ := requestMore_same { s with received := s.received + s.scheduled }
      exact same _ _ q1 q2 q3 q4 q5
    · rw [if_neg hp]
      obtain ⟨q1, q2, q3, q4⟩ := shutdown_same { s with received := s.received + s.scheduled }
      exact same _ [] q1 q2 q3 q4 rfl

theorem good_start (h c : Bool) : Good (start h c) := ⟨rfl, .inl rfl⟩

theorem run_good {s : State} (h : Good s) (es : List Ev) : Good (run s es).1 := by
  induction es generalizing s with
  | nil => exact h
  | cons e es ih => exact ih (step_spec h e).2.2.2.1

theorem run_order {s : State} (h : Good s) (es : List Ev) :
    shippedEvents (run s es).2 ++ (run s es).1.results.flatten = s.results.flatten ++ arrived es := by
  induction es generalizing s with
  | nil => simp [run, shippedEvents, arrived]
  | cons e es ih =>
    obtain ⟨h1, h2, _, h4, _⟩ := step_spec h e
    have := ih h4
    rw [run, andThen]
    simp only
    rw [shipped_append, List.append_assoc, this, h1, h2, ← List.append_assoc, List.take_append_drop, List.append_assoc]
    rfl

/-- C38: under every schedule, what was shipped followed by what is held back is what arrived: events are shipped in the order
    of arrival, none twice, and none disappears while the exporter runs. -/
theorem C38_order (historical continuous : Bool) (es : List Ev) :
    shippedEvents (run (start historical continuous) es).2 ++ (run (start historical continuous) es).1.results.flatten = arrived es := by
  simpa [start] using run_order (good_start historical continuous) es

/-- C38: events are held back only if the client has nothing left to receive. -/
theorem C38_eager (historical continuous : Bool) (es : List Ev) :
    (run (start historical continuous) es).1.requested = 0 ∨ shippedEvents (run (start historical continuous) es).2 = arrived es := by
  rcases (run_good (good_start historical continuous) es).eager with h | h
  · exact .inl h
  · right
    have := C38_order historical continuous es
    rwa [h, List.append_nil] at this

theorem min_le_asked (n : Nat) : min (maxEvents - n) n ≤ n := Nat.min_le_right _ _

theorem run_bound {s : State} (h : Good s) (es : List Ev) (hall : Ev.extractAll ∉ es) :
    (shippedEvents (run s es).2).length + (run s es).1.requested ≤ s.requested + asked es := by
  induction es generalizing s with
  | nil => simp [run, shippedEvents, asked]
  | cons e es ih =>
    obtain ⟨h1, _, h3, h4, _⟩ := step_spec h e
    have := ih h4 fun hm => hall (List.mem_cons_of_mem _ hm)
    rw [run, andThen]
    simp only
    rw [shipped_append, List.length_append]
    have hb : (shippedEvents (step s e).2).length + (step s e).1.requested ≤ newRequested s e := by
      rw [h1, h3, List.length_take]; omega
    have hn : newRequested s e + asked es ≤ s.requested + asked (e :: es) := by
      cases e with
      | extractAll => exact absurd (List.mem_cons_self ..) hall
      | extract n =>
        simp only [newRequested, asked]
        split
        · omega
        · have := Nat.mod_le (s.requested + min (maxEvents - n) n) (2 ^ 64)
          have := min_le_asked n
          omega
      | slice x => simp [newRequested, asked]
      | batch xs => simp [newRequested, asked]
      | response p k => simp [newRequested, asked]
      | done => simp [newRequested, asked]
    omega

/-- C38: under every schedule, a client never gets more events than it has asked for. -/
theorem C38_at_most_requested (historical continuous : Bool) (es : List Ev) (hall : Ev.extractAll ∉ es) :
    (shippedEvents (run (start historical continuous) es).2).length ≤ asked es := by
  have := run_bound (good_start historical continuous) es hall
  simp only [start] at this ⊢
  omega

theorem run_exact {s : State} (h : Good s) (es : List Ev) (hall : Ev.extractAll ∉ es) (hlt : s.requested + asked es < 2 ^ 63) :
    (shippedEvents (run s es).2).length + (run s es).1.requested = s.requested + asked es := by
  induction es generalizing s with
  | nil => simp [run, shippedEvents, asked]
  | cons e es ih =>
    obtain ⟨h1, _, h3, h4, _⟩ := step_spec h e
    have hb : (shippedEvents (step s e).2).length + (step s e).1.requested = newRequested s e := by
      rw [h1, h3, List.length_take]; omega
    have hn : newRequested s e + asked es = s.requested + asked (e :: es) := by
      cases e with
      | extractAll => exact absurd (List.mem_cons_self ..) hall
      | extract n =>
        simp only [asked] at hlt
        simp only [newRequested, asked]
        unfold maxEvents
        split
        · rename_i hc; rcases hc with hc | hc <;> omega
        · have : min (2 ^ 64 - 1 - n) n = n := by omega
          rw [this, Nat.mod_eq_of_lt (by omega)]; omega
      | slice x => simp [newRequested, asked]
      | batch xs => simp [newRequested, asked]
      | response p k => simp [newRequested, asked]
      | done => simp [newRequested, asked]
    have := ih h4 (fun hm => hall (List.mem_cons_of_mem _ hm)) (by omega)
    rw [run, andThen]
    simp only
    rw [shipped_append, List.length_append]
    omega

/-- C38: as long as the exporter runs, it has shipped exactly the first events that arrived, as many as the client has asked
    for, provided that the client asks for fewer than 2^63 events altogether. Missing for the full statement: larger numbers
    (`C38_large_extract_refuted`), and asking for a number of events after asking for all (`C38_wraps_refuted`). -/
theorem C38_exact_partial (historical continuous : Bool) (es : List Ev) (hall : Ev.extractAll ∉ es) (hlt : asked es < 2 ^ 63) :
    shippedEvents (run (start historical continuous) es).2 = (arrived es).take (asked es) := by
  have hord := C38_order historical continuous es
  have hex := run_exact (good_start historical continuous) es hall (by simpa [start] using hlt)
  have hz : (start historical continuous).requested = 0 := rfl
  rw [hz, Nat.zero_add] at hex
  rcases (run_good (good_start historical continuous) es).eager with h | h
  · rw [← hord, ← hex, h, Nat.add_zero, List.take_left]
  · rw [h, List.append_nil] at hord
    rw [← hord, List.take_of_length_le (by omega)]

def schedule : List Ev := [.response 3 1, .extract 2, .slice [1, 2, 3], .extract 2, .slice [4, 5], .slice [], .extract 9]

example : Ev.extractAll ∉ schedule ∧ asked schedule < 2 ^ 63 ∧
    shippedEvents (run (start true false) schedule).2 = [1, 2, 3, 4, 5] ∧
    shippedEvents (run (start true false) (schedule.take 5)).2 = [1, 2, 3, 4] := by decide

/-- A request for the greatest number of events is a request for none. -/
theorem C38_large_extract_refuted :
    shippedEvents (run (start true false) [.extract maxEvents, .slice [1, 2, 3]]).2 = [] := by decide

/-- After a request for all events, a request for ten more makes the number wrap: of six further events, four are shipped. -/
theorem C38_wraps_refuted :
    shippedEvents (run (start true false) [.extractAll, .slice [1, 2, 3, 4, 5], .extract 10, .slice [6, 7, 8, 9, 10, 11]]).2 =
      [1, 2, 3, 4, 5, 6, 7, 8, 9] := by decide

/-- The exporter stops when all partitions have answered, although it holds back events that the client has not asked for yet;
    the client cannot get them any more. -/
theorem C38_shutdown_loses_refuted : ∃ es : List Ev, es = [.response 1 1, .extract 1, .slice [1, 2, 3], .done] ∧
    (run (start true false) es).1.stopping = true ∧ (run (start true false) es).1.results = [[2, 3]] := ⟨_, rfl, by decide, by decide⟩

end Verif.Exporter
