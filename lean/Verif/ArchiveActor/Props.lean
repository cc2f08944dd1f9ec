import Verif.ArchiveActor.Model

/-! # C41: Archive query requests are answered in order and each exactly once -/

namespace Verif.ArchiveActor

namespace Spec

/-- The promises of all requests, in order. -/
def filed : List Ev → List Nat
  | [] => []
  | .request _ p :: es => p :: filed es
  | .erase p :: es => p :: filed es
  | _ :: es => filed es

/-- The promises of the requests of a query, in order. -/
def filedOf (q : Nat) : List Ev → List Nat
  | [] => []
  | .request q' p :: es => if q' = q then p :: filedOf q es else filedOf q es
  | _ :: es => filedOf q es

/-- How often a promise was answered. -/
def answered (p : Nat) (s : State) : Nat := (s.answers.map (·.1)).count p

end Spec

open Spec

def queued (rs : List Request) : List Nat := rs.flatMap (·.queue)

theorem filed_append (a b : List Ev) : filed (a ++ b) = filed a ++ filed b := by
  induction a with
  | nil => rfl
  | cons e es ih => cases e <;> simp [filed, ih]

theorem filedOf_append (q : Nat) (a b : List Ev) : filedOf q (a ++ b) = filedOf q a ++ filedOf q b := by
  induction a with
  | nil => rfl
  | cons e es ih =>
    cases e with
    | request q' p => simp only [List.cons_append, filedOf, ih]; split <;> simp
    | erase p => simpa [filedOf] using ih
    | down k => simpa [filedOf] using ih
    | resume => simpa [filedOf] using ih

theorem nextLoop_count (rs : List Request) (a : Nat) :
    (nextLoop rs).2.2.count a + (nextLoop rs).2.1.toList.count a + (queued (nextLoop rs).1).count a = (queued rs).count a := by
  induction rs with
  | nil => simp [nextLoop, queued]
  | cons r rs ih =>
    have hq : queued (r :: rs) = r.queue ++ queued rs := rfl
    rw [nextLoop, hq, List.count_append]
    by_cases hc : r.cancelled = true
    · rw [if_pos hc]; simp only [List.count_append]; omega
    · rw [if_neg hc]
      cases hr : r.queue with
      | nil => simpa using ih
      | cons p ps =>
        have : queued ({ r with queue := ps } :: rs) = ps ++ queued rs := rfl
        simp only [this, List.count_append, List.count_nil, Option.toList_some, List.count_cons]
        omega

theorem nextLoop_none (rs : List Request) : ((nextLoop rs).2.1 = none → (nextLoop rs).1 = []) ∧ ((nextLoop rs).2.1 ≠ none → (nextLoop rs).1 ≠ []) := by
  induction rs with
  | nil => simp [nextLoop]
  | cons r rs ih =>
    rw [nextLoop]
    by_cases hc : r.cancelled = true
    · rw [if_pos hc]; exact ih
    · rw [if_neg hc]
      cases hr : r.queue with
      | nil => exact ih
      | cons p ps => simp

/-- How often a promise is somewhere. -/
def held (a : Nat) (s : State) : Nat := answered a s + s.active.toList.count a + (queued s.requests).count a

/-- The state fits its session: without a session nothing is left to do, with a session exactly one `resume` is under way. -/
structure Fits (s : State) (resumes : Nat) : Prop where
  idle : s.session = none → s.requests = [] ∧ s.active = none ∧ s.resumes = 0
  busy : s.session ≠ none → s.requests ≠ [] ∧ s.resumes = resumes
  good : s.bad = false

theorem held_deliver (a : Nat) (s : State) (x : Answer) : held a (deliver s x) = held a s := by
  rw [deliver]
  cases h : s.active with
  | none => simp
  | some p => simp [held, answered, h]

theorem deliver_active (s : State) (x : Answer) : (deliver s x).active = none := by
  rw [deliver]
  cases h : s.active with
  | none => simpa using h
  | some p => rfl

theorem deliver_same (s : State) (x : Answer) : (deliver s x).requests = s.requests ∧ (deliver s x).session = s.session ∧
    (deliver s x).resumes = s.resumes ∧ (deliver s x).bad = s.bad := by
  rw [deliver]
  cases h : s.active <;> simp

theorem held_next (plan : Nat → List Item) (a : Nat) (s : State) (h : s.active = none) : held a (nextSession plan s) = held a s := by
  have := nextLoop_count s.requests a
  simp only [held, answered, nextSession, h, List.map_append, List.count_append, List.map_map]
  have hm : List.map ((fun x : Nat × Answer => x.1) ∘ fun p => (p, Answer.done)) (nextLoop s.requests).2.2 = (nextLoop s.requests).2.2 := by
    simp [Function.comp_def]
  rw [hm]
  cases hp : (nextLoop s.requests).2.1 with
  | none => simp only [hp] at this; simp; simp at this; omega
  | some p => simp only [hp] at this; simp only [Option.isSome_some, if_true, Option.toList_none, List.count_nil]; omega

theorem next_session (plan : Nat → List Item) (s : State) (h : s.active = none) :
    ((nextSession plan s).session = none → (nextSession plan s).requests = [] ∧ (nextSession plan s).active = none) ∧
    ((nextSession plan s).session ≠ none → (nextSession plan s).requests ≠ []) ∧
    (nextSession plan s).resumes = s.resumes ∧ (nextSession plan s).bad = s.bad := by
  obtain ⟨h1, h2⟩ := nextLoop_none s.requests
  simp only [nextSession, h]
  cases hp : (nextLoop s.requests).2.1 with
  | none => simp [h1 hp]
  | some p => simp [h2 (by rw [hp]; simp)]

theorem fits_next (plan : Nat → List Item) (s : State) (h : s.active = none) (hr : s.resumes = 0) (hb : s.bad = false) : Fits (nextSession plan s) 0 := by
  obtain ⟨h1, h2, h3, h4⟩ := next_session plan s h
  exact ⟨fun hn => ⟨(h1 hn).1, (h1 hn).2, by rw [h3, hr]⟩, fun hn => ⟨h2 hn, by rw [h3, hr]⟩, by rw [h4, hb]⟩

/-- A next session, with a `resume` if there is one. -/
theorem after_next (plan : Nat → List Item) (s : State) (h : s.active = none) (hr : s.resumes = 0) (hb : s.bad = false) (a : Nat) :
    Fits (if (nextSession plan s).session.isSome then { nextSession plan s with resumes := (nextSession plan s).resumes + 1 } else nextSession plan s) 1 ∧
    held a (if (nextSession plan s).session.isSome then { nextSession plan s with resumes := (nextSession plan s).resumes + 1 } else nextSession plan s) = held a s := by
  have hf := fits_next plan s h hr hb
  have hh := held_next plan a s h
  cases hs : (nextSession plan s).session with
  | none =>
    simp only [Option.isSome_none, Bool.false_eq_true, if_false]
    exact ⟨⟨hf.idle, fun hn => absurd hs hn, hf.good⟩, hh⟩
  | some items =>
    simp only [Option.isSome_some, if_true]
    obtain ⟨b1, b2⟩ := hf.busy (by rw [hs]; simp)
    refine ⟨⟨fun hn => ?_, fun _ => ⟨b1, by simp only [b2]⟩, hf.good⟩, hh⟩
    simp only [hs] at hn; cases hn

theorem queued_cancelFront (rs : List Request) : queued (cancelFront rs) = queued rs := by
  cases rs <;> rfl

theorem cancelFront_ne (rs : List Request) (h : rs ≠ []) : cancelFront rs ≠ [] := by
  cases rs with
  | nil => exact h
  | cons r rs => simp [cancelFront]

theorem work_fits (plan : Nat → List Item) (s : State) (items : List Item) (hs : s.session = some items) (hf : Fits s 0) (a : Nat) :
    Fits (work plan s items) 1 ∧ held a (work plan s items) = held a s := by
  obtain ⟨b1, b2⟩ := hf.busy (by rw [hs]; simp)
  have final : ∀ x : Answer, Fits (if (nextSession plan (deliver s x)).session.isSome then
        { nextSession plan (deliver s x) with resumes := (nextSession plan (deliver s x)).resumes + 1 } else nextSession plan (deliver s x)) 1 ∧
      held a (if (nextSession plan (deliver s x)).session.isSome then
        { nextSession plan (deliver s x) with resumes := (nextSession plan (deliver s x)).resumes + 1 } else nextSession plan (deliver s x)) = held a s := by
    intro x
    obtain ⟨_, _, d3, d4⟩ := deliver_same s x
    have := after_next plan (deliver s x) (deliver_active s x) (by rw [d3, b2]) (by rw [d4, hf.good]) a
    rw [held_deliver] at this
    exact this
  cases items with
  | nil => exact final .done
  | cons i rest =>
    cases i with
    | slice =>
      refine ⟨⟨fun hn => (by cases hn), fun _ => ⟨b1, by simp [work, b2]⟩, hf.good⟩, rfl⟩
    | error => exact final .error
    | untailored =>
      simp only [work]
      obtain ⟨d1, d2, _, d4⟩ := deliver_same { s with requests := cancelFront s.requests, session := some rest } .error
      refine ⟨⟨fun hn => ?_, fun _ => ⟨?_, by simp [b2]⟩, ?_⟩, ?_⟩
      · simp only [d2] at hn; cases hn
      · simp only [d1]; exact cancelFront_ne _ b1
      · simp only [d4]; exact hf.good
      · have h1 : ∀ (t : State) (n : Nat), held a { t with resumes := n } = held a t := fun _ _ => rfl
        rw [h1, held_deliver]
        simp only [held, answered, queued_cancelFront]

theorem resume_fits (plan : Nat → List Item) (s : State) (hs : s.session ≠ none) (hf : Fits s 0) (a : Nat) :
    Fits (resume plan s) 1 ∧ held a (resume plan s) = held a s := by
  obtain ⟨b1, b2⟩ := hf.busy hs
  rw [resume]
  cases hi : s.session with
  | none => exact absurd hi hs
  | some items =>
    cases hr : s.requests with
    | nil => exact absurd hr b1
    | cons r rs =>
      simp only
      by_cases hc : r.cancelled = true
      · rw [if_pos hc]
        obtain ⟨_, _, d3, d4⟩ := deliver_same s .done
        have hn := fits_next plan (deliver s .done) (deliver_active s .done) (by rw [d3, b2]) (by rw [d4, hf.good])
        have hh := held_next plan a (deliver s .done) (deliver_active s .done)
        rw [held_deliver] at hh
        cases hx : (nextSession plan (deliver s .done)).session with
        | none =>
          simp only
          exact ⟨⟨hn.idle, fun h => absurd hx h, hn.good⟩, hh⟩
        | some items' =>
          simp only
          have := work_fits plan _ items' hx hn a
          rw [hh] at this
          exact this
      · rw [if_neg hc]; exact work_fits plan s items hi hf a

theorem enqueue_count (q p : Nat) (rs : List Request) (a : Nat) :
    match enqueue q p rs with
    | none => True
    | some (rs', true) => (queued rs').count a = (queued rs).count a + [p].count a ∧ rs' ≠ []
    | some (_, false) => True := by
  induction rs with
  | nil => simp [enqueue]
  | cons r rs ih =>
    rw [enqueue]
    by_cases hq : r.query = q
    · rw [if_pos hq]
      by_cases hc : r.cancelled = true
      · rw [if_pos hc]; trivial
      · rw [if_neg hc]
        refine ⟨?_, by simp⟩
        simp only [queued, List.flatMap_cons, List.count_append]; omega
    · rw [if_neg hq]
      cases he : enqueue q p rs with
      | none => simp
      | some x =>
        obtain ⟨rs', b⟩ := x
        rw [he] at ih
        cases b with
        | false => simp
        | true =>
          simp only [Option.map_some]
          simp only at ih
          refine ⟨?_, by simp⟩
          simp only [queued, List.flatMap_cons, List.count_append] at ih ⊢; omega

theorem wake_fits (plan : Nat → List Item) (s : State) (hb : s.bad = false) (hne : s.requests ≠ [])
    (hbusy : s.session ≠ none → s.resumes = 1) (hidle : s.session = none → s.active = none ∧ s.resumes = 0 ∧ (nextLoop s.requests).2.1 ≠ none) (a : Nat) :
    Fits (wake plan s) 1 ∧ held a (wake plan s) = held a s := by
  rw [wake]
  cases hs : s.session with
  | some items => exact ⟨⟨fun h => (by rw [hs] at h; cases h), fun h => ⟨hne, hbusy h⟩, hb⟩, rfl⟩
  | none =>
    obtain ⟨h1, h2, h3⟩ := hidle hs
    have hf := fits_next plan s h1 h2 hb
    have hh := held_next plan a s h1
    simp only
    cases hx : (nextSession plan s).session with
    | none =>
      exfalso
      simp only [nextSession, Option.map_eq_none_iff] at hx
      exact h3 hx
    | some items =>
      simp only
      obtain ⟨b1, b2⟩ := hf.busy (by rw [hx]; simp)
      exact ⟨⟨fun h => (by simp only [hx] at h; cases h), fun _ => ⟨b1, by simp only [b2]⟩, hf.good⟩, hh⟩

theorem file_fits (plan : Nat → List Item) (s : State) (hf : Fits s 1) (q p a : Nat) :
    Fits (fileRequest plan s q p) 1 ∧ held a (fileRequest plan s q p) = held a s + [p].count a := by
  have he := enqueue_count q p s.requests a
  rw [fileRequest]
  cases hx : enqueue q p s.requests with
  | none =>
    simp only
    have := wake_fits plan { s with requests := s.requests ++ [⟨q, [p], false⟩] } hf.good (by simp) (fun h => (hf.busy h).2)
      (fun h => ⟨(hf.idle h).2.1, (hf.idle h).2.2, by simp [(hf.idle h).1, nextLoop]⟩) a
    refine ⟨this.1, this.2.trans ?_⟩
    simp only [held, answered, queued, List.flatMap_append, List.flatMap_cons, List.flatMap_nil, List.append_nil, List.count_append]
    omega
  | some x =>
    obtain ⟨rs, b⟩ := x
    rw [hx] at he
    cases b with
    | false =>
      simp only
      refine ⟨⟨hf.idle, hf.busy, hf.good⟩, ?_⟩
      simp only [held, answered, List.map_append, List.count_append, List.map_cons, List.map_nil]
      omega
    | true =>
      simp only at he ⊢
      have hnn : s.session ≠ none := by
        intro h
        rw [(hf.idle h).1] at hx
        cases hx
      have := wake_fits plan { s with requests := rs } hf.good he.2 (fun h => (hf.busy h).2) (fun h => absurd h hnn) a
      refine ⟨this.1, this.2.trans ?_⟩
      simp only [held, answered, he.1]
      omega

theorem cancel_same (sinkOf : Nat → Nat) (k : Nat) (rs : List Request) : queued (cancel sinkOf k rs) = queued rs ∧ (rs ≠ [] ↔ cancel sinkOf k rs ≠ []) := by
  induction rs with
  | nil => simp [cancel]
  | cons r rs ih =>
    rw [cancel]
    by_cases h : sinkOf r.query = k
    · rw [if_pos h]; exact ⟨rfl, by simp⟩
    · rw [if_neg h]
      refine ⟨?_, by simp⟩
      have : ∀ l : List Request, queued (r :: l) = r.queue ++ queued l := fun _ => rfl
      rw [this, this, ih.1]

theorem step_fits (plan : Nat → List Item) (sinkOf : Nat → Nat) (s : State) (hf : Fits s 1) (e : Ev) (a : Nat) :
    Fits (step plan sinkOf s e) 1 ∧ held a (step plan sinkOf s e) = held a s + (filed [e]).count a := by
  cases e with
  | request q p => exact file_fits plan s hf q p a
  | erase p =>
    refine ⟨⟨hf.idle, hf.busy, hf.good⟩, ?_⟩
    simp only [step, held, answered, filed, List.map_append, List.count_append, List.map_cons, List.map_nil]
    omega
  | down k =>
    obtain ⟨h1, h2⟩ := cancel_same sinkOf k s.requests
    refine ⟨⟨fun h => ?_, fun h => ⟨h2.1 (hf.busy h).1, (hf.busy h).2⟩, hf.good⟩, ?_⟩
    · obtain ⟨i1, i2, i3⟩ := hf.idle h
      exact ⟨by simp [step, i1, cancel], i2, i3⟩
    · simp [step, held, answered, h1, filed]
  | resume =>
    simp only [step, filed, List.count_nil, Nat.add_zero]
    by_cases h0 : s.resumes = 0
    · rw [if_pos h0]; exact ⟨hf, rfl⟩
    · rw [if_neg h0]
      have hs : s.session ≠ none := fun h => h0 (hf.idle h).2.2
      obtain ⟨b1, b2⟩ := hf.busy hs
      exact resume_fits plan { s with resumes := s.resumes - 1 } hs ⟨fun h => absurd h hs, fun _ => ⟨b1, by simp [b2]⟩, hf.good⟩ a

theorem fits_start : Fits start 1 := ⟨fun _ => ⟨rfl, rfl, rfl⟩, fun h => absurd rfl h, rfl⟩

theorem run_fits (plan : Nat → List Item) (sinkOf : Nat → Nat) (es : List Ev) (a : Nat) :
    Fits (run plan sinkOf start es) 1 ∧ held a (run plan sinkOf start es) = (filed es).count a := by
  have : ∀ (es : List Ev) (s : State), Fits s 1 → Fits (run plan sinkOf s es) 1 ∧ held a (run plan sinkOf s es) = held a s + (filed es).count a := by
    intro es
    induction es with
    | nil => intro s h; exact ⟨h, by simp [run, filed]⟩
    | cons e es ih =>
      intro s h
      obtain ⟨h1, h2⟩ := step_fits plan sinkOf s h e a
      obtain ⟨h3, h4⟩ := ih _ h1
      refine ⟨h3, ?_⟩
      have h4' : held a (run plan sinkOf s (e :: es)) = held a (step plan sinkOf s e) + (filed es).count a := h4
      have happ : filed (e :: es) = filed [e] ++ filed es := filed_append [e] es
      rw [h4', h2, happ, List.count_append]; omega
  have h := this es start fits_start
  have h0 : held a start = 0 := by simp [held, answered, start, queued]
  rw [h0, Nat.zero_add] at h
  exact h

/-- C41: under every interleaving, a request is answered at most once, and nothing is answered that was not requested. -/
theorem C41_at_most_once (plan : Nat → List Item) (sinkOf : Nat → Nat) (es : List Ev) (p : Nat) :
    answered p (run plan sinkOf start es) ≤ (filed es).count p := by
  have := (run_fits plan sinkOf es p).2
  simp only [held] at this
  omega

/-- C41: under every interleaving, the assertions of the archive hold. -/
theorem C41_assertions (plan : Nat → List Item) (sinkOf : Nat → Nat) (es : List Ev) : (run plan sinkOf start es).bad = false :=
  (run_fits plan sinkOf es 0).1.good

/-- C41: when no `resume` is under way, every request is answered exactly once. -/
theorem C41_all_answered (plan : Nat → List Item) (sinkOf : Nat → Nat) (es : List Ev) (h : (run plan sinkOf start es).resumes = 0) (p : Nat) :
    answered p (run plan sinkOf start es) = (filed es).count p := by
  obtain ⟨hf, hh⟩ := run_fits plan sinkOf es p
  cases hs : (run plan sinkOf start es).session with
  | none =>
    obtain ⟨i1, i2, _⟩ := hf.idle hs
    simp only [held, i1, i2, queued] at hh
    simpa using hh
  | some items =>
    have := (hf.busy (by rw [hs]; simp)).2
    omega

/-! ### Progress -/

def cost (plan : Nat → List Item) (ps : List Nat) : Nat := (ps.map fun p => (plan p).length + 1).sum

/-- The number of `resume` messages that are needed at most. -/
def left (plan : Nat → List Item) (s : State) : Nat :=
  (match s.session with | none => 0 | some items => items.length + 1) + cost plan (queued s.requests)

theorem cost_append (plan : Nat → List Item) (a b : List Nat) : cost plan (a ++ b) = cost plan a + cost plan b := by simp [cost]

theorem nextLoop_cost (plan : Nat → List Item) (rs : List Request) :
    (match (nextLoop rs).2.1 with | none => 0 | some p => (plan p).length + 1) + cost plan (queued (nextLoop rs).1) ≤ cost plan (queued rs) := by
  induction rs with
  | nil => simp [nextLoop, queued, cost]
  | cons r rs ih =>
    have hq : queued (r :: rs) = r.queue ++ queued rs := rfl
    rw [nextLoop, hq, cost_append]
    by_cases hc : r.cancelled = true
    · rw [if_pos hc]; simp only; omega
    · rw [if_neg hc]
      cases hr : r.queue with
      | nil => simp only; omega
      | cons p ps =>
        have : queued ({ r with queue := ps } :: rs) = ps ++ queued rs := rfl
        simp only [this, cost_append]
        simp only [cost, List.map_cons, List.sum_cons]; omega

theorem left_next (plan : Nat → List Item) (s : State) : left plan (nextSession plan s) ≤ cost plan (queued s.requests) := by
  have := nextLoop_cost plan s.requests
  simp only [left, nextSession]
  cases hp : (nextLoop s.requests).2.1 with
  | none => simp only [hp] at this; simpa using this
  | some p => simp only [hp] at this; simpa using this

theorem left_work (plan : Nat → List Item) (s : State) (items : List Item) (hs : s.session = some items) : left plan (work plan s items) < left plan s := by
  have hl : left plan s = items.length + 1 + cost plan (queued s.requests) := by simp [left, hs]
  have final : ∀ x : Answer, left plan (if (nextSession plan (deliver s x)).session.isSome then
        { nextSession plan (deliver s x) with resumes := (nextSession plan (deliver s x)).resumes + 1 } else nextSession plan (deliver s x)) ≤
      cost plan (queued s.requests) := by
    intro x
    have := left_next plan (deliver s x)
    rw [(deliver_same s x).1] at this
    split
    · exact this
    · exact this
  cases items with
  | nil => exact Nat.lt_of_le_of_lt (final .done) (by omega)
  | cons i rest =>
    simp only [List.length_cons] at hl
    cases i with
    | slice => rw [hl]; simp only [work, left]; omega
    | error => exact Nat.lt_of_le_of_lt (final .error) (by omega)
    | untailored =>
      rw [hl]
      simp only [work]
      obtain ⟨d1, d2, _, _⟩ := deliver_same { s with requests := cancelFront s.requests, session := some rest } .error
      simp only [left, d1, d2, queued_cancelFront]; omega

theorem left_resume (plan : Nat → List Item) (s : State) (hs : s.session ≠ none) (hr : s.requests ≠ []) : left plan (resume plan s) < left plan s := by
  rw [resume]
  cases hi : s.session with
  | none => exact absurd hi hs
  | some items =>
    cases hq : s.requests with
    | nil => exact absurd hq hr
    | cons r rs =>
      simp only
      by_cases hc : r.cancelled = true
      · rw [if_pos hc]
        have h1 := left_next plan (deliver s .done)
        rw [(deliver_same s .done).1] at h1
        have h2 : left plan s = items.length + 1 + cost plan (queued s.requests) := by simp [left, hi]
        cases hx : (nextSession plan (deliver s .done)).session with
        | none => simp only; omega
        | some items' =>
          simp only
          have := left_work plan _ items' hx
          omega
      · rw [if_neg hc]; exact left_work plan s items hi

/-- C41: after finitely many `resume` messages, whatever came before, no more are under way, and every request is answered
    exactly once. -/
theorem C41_terminates (plan : Nat → List Item) (sinkOf : Nat → Nat) (es : List Ev) : ∃ n, ∀ p,
    (run plan sinkOf start (es ++ List.replicate n .resume)).resumes = 0 ∧
    answered p (run plan sinkOf start (es ++ List.replicate n .resume)) = (filed es).count p := by
  have key : ∀ (k : Nat) (es : List Ev), left plan (run plan sinkOf start es) ≤ k →
      ∃ n, (run plan sinkOf start (es ++ List.replicate n .resume)).resumes = 0 := by
    intro k
    induction k with
    | zero =>
      intro es hk
      refine ⟨0, ?_⟩
      have hf := (run_fits plan sinkOf es 0).1
      simp only [List.replicate_zero, List.append_nil]
      cases hs : (run plan sinkOf start es).session with
      | none => exact (hf.idle hs).2.2
      | some items => simp only [left, hs] at hk; omega
    | succ k ih =>
      intro es hk
      have hf := (run_fits plan sinkOf es 0).1
      cases hs : (run plan sinkOf start es).session with
      | none => exact ⟨0, by simpa using (hf.idle hs).2.2⟩
      | some items =>
        have hne : (run plan sinkOf start es).session ≠ none := by rw [hs]; simp
        obtain ⟨b1, b2⟩ := hf.busy hne
        have hrun : run plan sinkOf start (es ++ [.resume]) = resume plan { run plan sinkOf start es with resumes := 0 } := by
          rw [run, List.foldl_append]
          show step plan sinkOf (run plan sinkOf start es) .resume = _
          rw [step, if_neg (by omega), b2]
        have hl := left_resume plan { run plan sinkOf start es with resumes := 0 } hne b1
        have hsame : left plan { run plan sinkOf start es with resumes := 0 } = left plan (run plan sinkOf start es) := rfl
        obtain ⟨n, hn⟩ := ih (es ++ [.resume]) (by rw [hrun]; omega)
        refine ⟨n + 1, ?_⟩
        rw [List.append_assoc] at hn
        exact hn
  obtain ⟨n, hn⟩ := key _ es (Nat.le_refl _)
  refine ⟨n, fun p => ⟨hn, ?_⟩⟩
  rw [C41_all_answered plan sinkOf _ hn p, filed_append, List.count_append]
  have : ∀ n, filed (List.replicate n Ev.resume) = [] := by
    intro n
    induction n with
    | zero => rfl
    | succ n ih => simpa [List.replicate_succ, filed] using ih
  rw [this]; simp

/-! ### Order -/

/-- The promises of a query among some promises. -/
def ofQuery (owner : Nat → Nat) (q : Nat) (ps : List Nat) : List Nat := ps.filter (owner · == q)

theorem ofQuery_append (owner : Nat → Nat) (q : Nat) (a b : List Nat) : ofQuery owner q (a ++ b) = ofQuery owner q a ++ ofQuery owner q b := by
  simp [ofQuery]

theorem ofQuery_eq_nil {owner : Nat → Nat} {q : Nat} {ps : List Nat} (h : ∀ p ∈ ps, owner p ≠ q) : ofQuery owner q ps = [] := by
  rw [ofQuery, List.filter_eq_nil_iff]
  intro p hp
  simpa using h p hp

/-- The requests are well-formed, and those of query `q` are not cancelled. -/
structure Owned (owner : Nat → Nat) (q : Nat) (rs : List Request) : Prop where
  owned : ∀ r ∈ rs, ∀ p ∈ r.queue, owner p = r.query
  nodup : (rs.map (·.query)).Nodup
  live : ∀ r ∈ rs, r.query = q → r.cancelled = false

theorem owned_tail {owner : Nat → Nat} {q : Nat} {r : Request} {rs : List Request} (h : Owned owner q (r :: rs)) : Owned owner q rs :=
  ⟨fun x hx => h.owned x (List.mem_cons_of_mem _ hx), (List.nodup_cons.1 h.nodup).2, fun x hx => h.live x (List.mem_cons_of_mem _ hx)⟩

theorem nextLoop_order {owner : Nat → Nat} {q : Nat} {rs : List Request} (h : Owned owner q rs) :
    ofQuery owner q (nextLoop rs).2.2 = [] ∧
    ofQuery owner q ((nextLoop rs).2.1.toList ++ queued (nextLoop rs).1) = ofQuery owner q (queued rs) ∧
    Owned owner q (nextLoop rs).1 ∧
    (∀ p, (nextLoop rs).2.1 = some p → ∃ r rest, (nextLoop rs).1 = r :: rest ∧ owner p = r.query) := by
  induction rs with
  | nil => exact ⟨rfl, rfl, h, fun p hp => (by cases hp)⟩
  | cons r rs ih =>
    obtain ⟨i1, i2, i3, i4⟩ := ih (owned_tail h)
    have hq : queued (r :: rs) = r.queue ++ queued rs := rfl
    rw [nextLoop]
    by_cases hc : r.cancelled = true
    · rw [if_pos hc]
      have hr : ofQuery owner q r.queue = [] := by
        apply ofQuery_eq_nil
        intro p hp heq
        have hrq : r.query = q := by rw [← h.owned r (List.mem_cons_self ..) p hp, heq]
        have := h.live r (List.mem_cons_self ..) hrq
        rw [hc] at this; cases this
      refine ⟨by rw [ofQuery_append, hr, i1]; rfl, ?_, i3, i4⟩
      simp only
      rw [hq, ofQuery_append owner q r.queue, hr, List.nil_append, i2]
    · rw [if_neg hc]
      cases hr : r.queue with
      | nil => rw [hq, hr, List.nil_append]; exact ⟨i1, i2, i3, i4⟩
      | cons p ps =>
        refine ⟨rfl, ?_, ⟨?_, h.nodup, ?_⟩, ?_⟩
        · rw [hq, hr]; rfl
        · intro x hx y hy
          rcases List.mem_cons.1 hx with rfl | hx
          · exact h.owned r (List.mem_cons_self ..) y (by rw [hr]; exact List.mem_cons_of_mem _ hy)
          · exact h.owned x (List.mem_cons_of_mem _ hx) y hy
        · intro x hx hxq
          rcases List.mem_cons.1 hx with rfl | hx
          · exact h.live r (List.mem_cons_self ..) hxq
          · exact h.live x (List.mem_cons_of_mem _ hx) hxq
        · intro y hy
          cases hy
          exact ⟨_, _, rfl, h.owned r (List.mem_cons_self ..) p (by rw [hr]; exact List.mem_cons_self ..)⟩

/-- Everything of query `q`, in the order in which it is or will be answered. -/
def line (owner : Nat → Nat) (q : Nat) (s : State) : List Nat :=
  ofQuery owner q (s.answers.map (·.1) ++ s.active.toList ++ queued s.requests)

/-- The session belongs to the front request; if that is one of `q`, its expression can be tailored. -/
structure Lined (owner : Nat → Nat) (q : Nat) (s : State) : Prop where
  owned : Owned owner q s.requests
  front : ∀ items r rest, s.session = some items → s.requests = r :: rest → r.query = q → Item.untailored ∉ items

theorem line_deliver (owner : Nat → Nat) (q : Nat) (s : State) (x : Answer) : line owner q (deliver s x) = line owner q s := by
  rw [deliver]
  cases h : s.active with
  | none => rfl
  | some p => simp [line, h]

theorem lined_deliver {owner : Nat → Nat} {q : Nat} {s : State} (h : Lined owner q s) (x : Answer) : Lined owner q (deliver s x) := by
  obtain ⟨d1, d2, _, _⟩ := deliver_same s x
  exact ⟨by rw [d1]; exact h.owned, by rw [d1, d2]; exact h.front⟩

theorem line_next {plan : Nat → List Item} {owner : Nat → Nat} {q : Nat} (hplan : ∀ p, owner p = q → Item.untailored ∉ plan p) {s : State}
    (h : Owned owner q s.requests) (ha : s.active = none) :
    line owner q (nextSession plan s) = line owner q s ∧ Lined owner q (nextSession plan s) := by
  obtain ⟨h1, h2, h3, h4⟩ := nextLoop_order h
  refine ⟨?_, h3, ?_⟩
  · have hm : List.map ((fun x : Nat × Answer => x.1) ∘ fun p => (p, Answer.done)) (nextLoop s.requests).2.2 = (nextLoop s.requests).2.2 := by
      simp [Function.comp_def]
    have hact : (nextSession plan s).active = (nextLoop s.requests).2.1 := by
      simp only [nextSession, ha]
      cases (nextLoop s.requests).2.1 <;> rfl
    rw [line, hact, line, ha]
    simp only [nextSession, List.map_append, List.map_map, hm, ofQuery_append, h1, List.append_nil, Option.toList_none]
    rw [List.append_assoc, ← ofQuery_append, h2]
    try simp [ofQuery]
  · intro items r rest hs hr hrq
    simp only [nextSession, Option.map_eq_some_iff] at hs
    obtain ⟨p, hp, rfl⟩ := hs
    obtain ⟨r', rest', hr', ho⟩ := h4 p hp
    have : (nextSession plan s).requests = r' :: rest' := hr'
    rw [this] at hr
    cases hr
    exact hplan p (ho.trans hrq)

theorem lined_resumes {owner : Nat → Nat} {q : Nat} {s : State} (h : Lined owner q s) (n : Nat) : Lined owner q { s with resumes := n } :=
  ⟨h.owned, h.front⟩

theorem line_work {plan : Nat → List Item} {owner : Nat → Nat} {q : Nat} (hplan : ∀ p, owner p = q → Item.untailored ∉ plan p) {s : State}
    {items : List Item} (h : Lined owner q s) (hs : s.session = some items) :
    line owner q (work plan s items) = line owner q s ∧ Lined owner q (work plan s items) := by
  have final : ∀ x : Answer,
      line owner q (if (nextSession plan (deliver s x)).session.isSome then
        { nextSession plan (deliver s x) with resumes := (nextSession plan (deliver s x)).resumes + 1 } else nextSession plan (deliver s x)) = line owner q s ∧
      Lined owner q (if (nextSession plan (deliver s x)).session.isSome then
        { nextSession plan (deliver s x) with resumes := (nextSession plan (deliver s x)).resumes + 1 } else nextSession plan (deliver s x)) := by
    intro x
    obtain ⟨l1, l2⟩ := line_next hplan (lined_deliver h x).owned (deliver_active s x)
    rw [line_deliver] at l1
    split
    · exact ⟨l1, lined_resumes l2 _⟩
    · exact ⟨l1, l2⟩
  cases items with
  | nil => exact final .done
  | cons i rest =>
    cases i with
    | slice =>
      refine ⟨rfl, h.owned, ?_⟩
      intro items r rs hi hr hrq hm
      cases hi
      exact h.front _ r rs hs hr hrq (List.mem_cons_of_mem _ hm)
    | error => exact final .error
    | untailored =>
      simp only [work]
      have hl : Lined owner q { s with requests := cancelFront s.requests, session := some rest } := by
        cases hr : s.requests with
        | nil =>
          refine ⟨?_, ?_⟩
          · simp only [cancelFront]; rw [← hr]; exact h.owned
          · intro items r rs _ hr'; simp only [cancelFront] at hr'; cases hr'
        | cons r rs =>
          have hne : r.query ≠ q := fun hq => h.front _ r rs hs hr hq (List.mem_cons_self ..)
          have ho := h.owned
          rw [hr] at ho
          refine ⟨⟨?_, ho.nodup, ?_⟩, ?_⟩
          · intro x hx y hy
            rcases List.mem_cons.1 hx with rfl | hx
            · exact ho.owned r (List.mem_cons_self ..) y hy
            · exact ho.owned x (List.mem_cons_of_mem _ hx) y hy
          · intro x hx hxq
            rcases List.mem_cons.1 hx with rfl | hx
            · exact absurd hxq hne
            · exact ho.live x (List.mem_cons_of_mem _ hx) hxq
          · intro items r' rs' _ hr' hrq
            simp only [cancelFront] at hr'
            cases hr'
            exact absurd hrq hne
      have hd := lined_deliver hl .error
      refine ⟨?_, lined_resumes hd _⟩
      have h1 : ∀ (t : State) (n : Nat), line owner q { t with resumes := n } = line owner q t := fun _ _ => rfl
      rw [h1, line_deliver]
      simp only [line, queued_cancelFront]

theorem line_resume {plan : Nat → List Item} {owner : Nat → Nat} {q : Nat} (hplan : ∀ p, owner p = q → Item.untailored ∉ plan p) {s : State}
    (h : Lined owner q s) : line owner q (resume plan s) = line owner q s ∧ Lined owner q (resume plan s) := by
  rw [resume]
  cases hi : s.session with
  | none => exact ⟨by simp [line], h.owned, fun _ _ _ hs => (by cases hs)⟩
  | some items =>
    cases hr : s.requests with
    | nil =>
      refine ⟨by simp [line, hr], ?_, fun _ _ _ _ hr' => (by cases hr')⟩
      have := h.owned
      rwa [hr] at this
    | cons r rs =>
      simp only
      by_cases hc : r.cancelled = true
      · rw [if_pos hc]
        obtain ⟨l1, l2⟩ := line_next hplan (lined_deliver h .done).owned (deliver_active s .done)
        rw [line_deliver] at l1
        cases hx : (nextSession plan (deliver s .done)).session with
        | none => exact ⟨l1, l2⟩
        | some items' =>
          simp only
          obtain ⟨w1, w2⟩ := line_work hplan l2 hx
          exact ⟨w1.trans l1, w2⟩
      · rw [if_neg hc]; exact line_work hplan h hi

theorem enqueue_queries (q p : Nat) (rs : List Request) :
    (enqueue q p rs = none → q ∉ rs.map (·.query)) ∧
    (∀ rs' b, enqueue q p rs = some (rs', b) → rs'.map (·.query) = rs.map (·.query)) := by
  induction rs with
  | nil => simp [enqueue]
  | cons r rs ih =>
    rw [enqueue]
    by_cases hq : r.query = q
    · rw [if_pos hq]
      by_cases hc : r.cancelled = true
      · rw [if_pos hc]; simp only [Option.some.injEq, Prod.mk.injEq]
        exact ⟨fun h => (by cases h), fun rs' b h => by rw [← h.1]⟩
      · rw [if_neg hc]; simp only [Option.some.injEq, Prod.mk.injEq]
        exact ⟨fun h => (by cases h), fun rs' b h => by rw [← h.1]; rfl⟩
    · rw [if_neg hq]
      refine ⟨fun h => ?_, fun rs' b h => ?_⟩
      · have := ih.1 (by simpa using h)
        simp only [List.map_cons, List.mem_cons, not_or]
        exact ⟨Ne.symm hq, this⟩
      · cases he : enqueue q p rs with
        | none => rw [he] at h; cases h
        | some x =>
          obtain ⟨a, c⟩ := x
          rw [he] at h
          simp only [Option.map_some, Option.some.injEq, Prod.mk.injEq] at h
          rw [← h.1, List.map_cons, List.map_cons, ih.2 a c he]

/-- Filing a request of a query: it is the last one of its query, and other queries are not concerned. -/
theorem enqueue_order {owner : Nat → Nat} {q q' p : Nat} {rs rs' : List Request} {b : Bool} (h : Owned owner q rs) (hp : owner p = q')
    (he : enqueue q' p rs = some (rs', b)) :
    (b = true → ofQuery owner q (queued rs') = ofQuery owner q (queued rs) ++ ofQuery owner q [p] ∧ Owned owner q rs') ∧ (b = false → q' ≠ q) := by
  induction rs generalizing rs' with
  | nil => cases he
  | cons r rs ih =>
    rw [enqueue] at he
    by_cases hq : r.query = q'
    · rw [if_pos hq] at he
      by_cases hc : r.cancelled = true
      · rw [if_pos hc] at he
        cases he
        refine ⟨fun h => (by cases h), fun _ heq => ?_⟩
        have := h.live r (List.mem_cons_self ..) (hq.trans heq)
        rw [hc] at this; cases this
      · rw [if_neg hc] at he
        cases he
        refine ⟨fun _ => ⟨?_, ?_, h.nodup, ?_⟩, fun h => (by cases h)⟩
        · have hqq : ∀ l : List Nat, queued ({ r with queue := l } :: rs) = l ++ queued rs := fun _ => rfl
          have hq0 : queued (r :: rs) = r.queue ++ queued rs := rfl
          rw [hqq, hq0]
          simp only [ofQuery_append]
          by_cases hpq : q' = q
          · have hnil : ofQuery owner q (queued rs) = [] := by
              apply ofQuery_eq_nil
              intro y hy hyq
              obtain ⟨x, hx, hyx⟩ := List.mem_flatMap.1 hy
              have hxq := h.owned x (List.mem_cons_of_mem _ hx) y hyx
              have hnd := (List.nodup_cons.1 h.nodup).1
              apply hnd
              show r.query ∈ _
              rw [hq, hpq, ← hyq, hxq]
              exact List.mem_map_of_mem hx
            rw [hnil, List.append_nil, List.append_nil]
          · have : ofQuery owner q [p] = [] := by
              apply ofQuery_eq_nil
              intro y hy
              rw [List.mem_singleton] at hy
              rw [hy, hp]; exact hpq
            rw [this, List.append_nil, List.append_nil]
        · intro x hx y hy
          rcases List.mem_cons.1 hx with rfl | hx
          · rcases List.mem_append.1 hy with hy | hy
            · exact h.owned r (List.mem_cons_self ..) y hy
            · rw [List.mem_singleton] at hy; rw [hy, hp]; exact hq.symm
          · exact h.owned x (List.mem_cons_of_mem _ hx) y hy
        · intro x hx hxq
          rcases List.mem_cons.1 hx with rfl | hx
          · exact h.live r (List.mem_cons_self ..) hxq
          · exact h.live x (List.mem_cons_of_mem _ hx) hxq
    · rw [if_neg hq] at he
      cases hx : enqueue q' p rs with
      | none => rw [hx] at he; cases he
      | some x =>
        obtain ⟨a, c⟩ := x
        rw [hx] at he
        simp only [Option.map_some, Option.some.injEq, Prod.mk.injEq] at he
        obtain ⟨rfl, rfl⟩ := he
        obtain ⟨i1, i2⟩ := ih (owned_tail h) hx
        refine ⟨fun hc => ?_, i2⟩
        obtain ⟨o1, o2⟩ := i1 hc
        have hqq : ∀ l : List Request, queued (r :: l) = r.queue ++ queued l := fun _ => rfl
        refine ⟨by rw [hqq, hqq, ofQuery_append, ofQuery_append, o1, List.append_assoc], ?_, ?_, ?_⟩
        · intro y hy z hz
          rcases List.mem_cons.1 hy with rfl | hy
          · exact h.owned y (List.mem_cons_self ..) z hz
          · exact o2.owned y hy z hz
        · rw [List.map_cons, (enqueue_queries q' p rs).2 a c hx]
          exact h.nodup
        · intro y hy hyq
          rcases List.mem_cons.1 hy with rfl | hy
          · exact h.live y (List.mem_cons_self ..) hyq
          · exact o2.live y hy hyq

theorem enqueue_front (q p : Nat) (rs rs' : List Request) (b : Bool) (h : enqueue q p rs = some (rs', b)) (r' : Request) (rest' : List Request)
    (hr : rs' = r' :: rest') : ∃ r rest, rs = r :: rest ∧ r.query = r'.query := by
  have := (enqueue_queries q p rs).2 rs' b h
  rw [hr] at this
  cases rs with
  | nil => cases this
  | cons r rest =>
    simp only [List.map_cons, List.cons.injEq] at this
    exact ⟨r, rest, rfl, this.1.symm⟩

theorem line_wake {plan : Nat → List Item} {owner : Nat → Nat} {q : Nat} (hplan : ∀ p, owner p = q → Item.untailored ∉ plan p) {s : State}
    (h : Lined owner q s) (ha : s.session = none → s.active = none) : line owner q (wake plan s) = line owner q s ∧ Lined owner q (wake plan s) := by
  rw [wake]
  cases hs : s.session with
  | some items => exact ⟨rfl, h⟩
  | none =>
    obtain ⟨l1, l2⟩ := line_next hplan h.owned (ha hs)
    simp only
    cases hx : (nextSession plan s).session with
    | none => exact ⟨l1, l2.owned, fun _ _ _ hs => (by cases hs)⟩
    | some items => exact ⟨l1, l2.owned, fun a b c ha => l2.front a b c (hx.trans ha)⟩

/-- The client of query `q` does not go down, and its requests are numbered apart from all others. -/
def Undisturbed (owner sinkOf : Nat → Nat) (q : Nat) : Ev → Prop
  | .request q' p => owner p = q'
  | .erase p => owner p ≠ q
  | .down k => sinkOf q ≠ k
  | .resume => True

theorem cancel_owned {owner sinkOf : Nat → Nat} {q k : Nat} {rs : List Request} (hk : sinkOf q ≠ k) (h : Owned owner q rs) :
    Owned owner q (cancel sinkOf k rs) ∧ (cancel sinkOf k rs).map (·.query) = rs.map (·.query) := by
  induction rs with
  | nil => exact ⟨h, rfl⟩
  | cons r rs ih =>
    obtain ⟨i1, i2⟩ := ih (owned_tail h)
    rw [cancel]
    by_cases hr : sinkOf r.query = k
    · rw [if_pos hr]
      refine ⟨⟨?_, h.nodup, ?_⟩, rfl⟩
      · intro x hx y hy
        rcases List.mem_cons.1 hx with rfl | hx
        · exact h.owned r (List.mem_cons_self ..) y hy
        · exact h.owned x (List.mem_cons_of_mem _ hx) y hy
      · intro x hx hxq
        rcases List.mem_cons.1 hx with rfl | hx
        · exact absurd (by rw [← hr]; exact congrArg sinkOf hxq.symm) hk
        · exact h.live x (List.mem_cons_of_mem _ hx) hxq
    · rw [if_neg hr]
      refine ⟨⟨?_, ?_, ?_⟩, by rw [List.map_cons, i2, List.map_cons]⟩
      · intro x hx y hy
        rcases List.mem_cons.1 hx with rfl | hx
        · exact h.owned x (List.mem_cons_self ..) y hy
        · exact i1.owned x hx y hy
      · rw [List.map_cons, i2]; exact h.nodup
      · intro x hx hxq
        rcases List.mem_cons.1 hx with rfl | hx
        · exact h.live x (List.mem_cons_self ..) hxq
        · exact i1.live x hx hxq

theorem step_line {plan : Nat → List Item} {owner sinkOf : Nat → Nat} {q : Nat} (hplan : ∀ p, owner p = q → Item.untailored ∉ plan p) {s : State}
    (hf : Fits s 1) (h : Lined owner q s) (e : Ev) (he : Undisturbed owner sinkOf q e) :
    line owner q (step plan sinkOf s e) = line owner q s ++ filedOf q [e] ∧ Lined owner q (step plan sinkOf s e) := by
  cases e with
  | request q' p =>
    have hp : owner p = q' := he
    have hfiled : filedOf q [.request q' p] = ofQuery owner q [p] := by
      simp only [filedOf, ofQuery, List.filter_cons, List.filter_nil, hp, beq_iff_eq]
    rw [hfiled]
    simp only [step, fileRequest]
    cases hx : enqueue q' p s.requests with
    | none =>
      simp only
      have hn := (enqueue_queries q' p s.requests).1 hx
      have hl : Lined owner q { s with requests := s.requests ++ [⟨q', [p], false⟩] } := by
        refine ⟨⟨?_, ?_, ?_⟩, ?_⟩
        · intro x hx y hy
          rcases List.mem_append.1 hx with hx | hx
          · exact h.owned.owned x hx y hy
          · rw [List.mem_singleton] at hx; subst hx
            rw [List.mem_singleton] at hy; rw [hy]; exact hp
        · rw [List.map_append, List.nodup_append]
          refine ⟨h.owned.nodup, by simp, ?_⟩
          intro a ha b hb
          simp only [List.map_cons, List.map_nil, List.mem_singleton] at hb
          rintro rfl
          rw [hb] at ha
          exact hn ha
        · intro x hx hxq
          rcases List.mem_append.1 hx with hx | hx
          · exact h.owned.live x hx hxq
          · rw [List.mem_singleton] at hx; subst hx; rfl
        · intro items r rest hs hr hrq
          have hs' : s.session = some items := hs
          cases hq : s.requests with
          | nil => exact absurd hq (hf.busy (by rw [hs']; simp)).1
          | cons r0 rest0 =>
            simp only [hq, List.cons_append, List.cons.injEq] at hr
            rw [← hr.1] at hrq
            exact h.front items r0 rest0 hs' hq hrq
      obtain ⟨l1, l2⟩ := line_wake hplan hl fun hs => (hf.idle hs).2.1
      refine ⟨l1.trans ?_, l2⟩
      simp only [line, queued, List.flatMap_append, List.flatMap_cons, List.flatMap_nil, List.append_nil, ofQuery_append, List.append_assoc]
    | some x =>
      obtain ⟨rs, b⟩ := x
      obtain ⟨o1, o2⟩ := enqueue_order h.owned hp hx
      cases b with
      | false =>
        simp only
        have hnil : ofQuery owner q [p] = [] := by
          apply ofQuery_eq_nil
          intro y hy
          rw [List.mem_singleton] at hy
          rw [hy, hp]; exact o2 rfl
        refine ⟨?_, h.owned, h.front⟩
        simp only [line, List.map_append, List.map_cons, List.map_nil, ofQuery_append, hnil, List.append_nil]
      | true =>
        simp only
        obtain ⟨p1, p2⟩ := o1 rfl
        have hl : Lined owner q { s with requests := rs } := by
          refine ⟨p2, ?_⟩
          intro items r rest hs hr hrq
          obtain ⟨r0, rest0, h0, h1⟩ := enqueue_front q' p s.requests rs true hx r rest hr
          exact h.front items r0 rest0 hs h0 (h1.trans hrq)
        obtain ⟨l1, l2⟩ := line_wake hplan hl fun hs => (hf.idle hs).2.1
        refine ⟨l1.trans ?_, l2⟩
        simp only [line, ofQuery_append, p1, List.append_assoc]
  | erase p =>
    have hnil : ofQuery owner q [p] = [] := by
      apply ofQuery_eq_nil
      intro y hy
      rw [List.mem_singleton] at hy
      rw [hy]; exact he
    refine ⟨?_, h.owned, h.front⟩
    simp only [step, line, filedOf, List.map_append, List.map_cons, List.map_nil, ofQuery_append, hnil, List.append_nil]
  | down k =>
    obtain ⟨c1, c2⟩ := cancel_owned he h.owned
    refine ⟨?_, c1, ?_⟩
    · simp only [step, line, (cancel_same sinkOf k s.requests).1, filedOf, List.append_nil]
    · intro items r rest hs hr hrq
      simp only [step] at hr hs
      rw [hr] at c2
      cases hq : s.requests with
      | nil => rw [hq] at c2; cases c2
      | cons r0 rest0 =>
        rw [hq] at c2
        simp only [List.map_cons, List.cons.injEq] at c2
        exact h.front items r0 rest0 hs hq (c2.1.symm.trans hrq)
  | resume =>
    simp only [step, filedOf, List.append_nil]
    by_cases h0 : s.resumes = 0
    · rw [if_pos h0]; exact ⟨rfl, h⟩
    · rw [if_neg h0]; exact line_resume hplan (lined_resumes h _)

/-- C41, order: the requests of a query are answered in the order in which they were made, under every interleaving with
    requests of other queries, their failures, and erasures. Missing for the full statement: the order between queries
    (`C41_order_refuted`), and queries whose client goes down or whose expression cannot be tailored
    (`C41_cancelled_order_refuted`). -/
theorem C41_order_partial (plan : Nat → List Item) (sinkOf owner : Nat → Nat) (q : Nat) (es : List Ev)
    (hplan : ∀ p, owner p = q → Item.untailored ∉ plan p) (he : ∀ e ∈ es, Undisturbed owner sinkOf q e) :
    ((run plan sinkOf start es).answers.map (·.1)).filter (owner · == q) <+: filedOf q es := by
  have : ∀ (es : List Ev) (s : State), Fits s 1 → Lined owner q s → (∀ e ∈ es, Undisturbed owner sinkOf q e) →
      line owner q (run plan sinkOf s es) = line owner q s ++ filedOf q es := by
    intro es
    induction es with
    | nil => intro s _ _ _; simp [run, filedOf]
    | cons e es ih =>
      intro s hf hl he
      obtain ⟨l1, l2⟩ := step_line hplan hf hl e (he e (List.mem_cons_self ..))
      have := ih _ (step_fits plan sinkOf s hf e 0).1 l2 fun x hx => he x (List.mem_cons_of_mem _ hx)
      have happ : filedOf q (e :: es) = filedOf q [e] ++ filedOf q es := filedOf_append q [e] es
      rw [happ, ← List.append_assoc, ← l1]
      exact this
  have h := this es start fits_start ⟨⟨fun r hr => (by cases hr), List.nodup_nil, fun r hr => (by cases hr)⟩, fun _ _ _ hs => (by cases hs)⟩ he
  have h0 : line owner q start = [] := rfl
  rw [h0, List.nil_append] at h
  rw [← h]
  simp only [line, List.append_assoc, ofQuery_append]
  exact List.prefix_append _ _

/-- Promises 1 and 3 belong to query 10, promise 2 to query 20. -/
def sampleOwner (p : Nat) : Nat := if p = 2 then 20 else 10

def sample : List Ev := [.request 10 1, .request 20 2, .request 10 3, .resume, .resume, .down 20, .resume, .resume, .resume, .resume]

def samplePlan (p : Nat) : List Item := if p = 2 then [.untailored] else [.slice]

example : (∀ e ∈ sample, Undisturbed sampleOwner id 10 e) ∧ (∀ p, sampleOwner p = 10 → Item.untailored ∉ samplePlan p) ∧
    filedOf 10 sample = [1, 3] ∧ (run samplePlan id start sample).resumes = 0 ∧
    (run samplePlan id start sample).answers = [(1, .done), (3, .done), (2, .done)] := by
  refine ⟨?_, ?_, by decide, by decide, by decide⟩
  · intro e he
    simp only [sample, List.mem_cons, List.not_mem_nil, or_false] at he
    rcases he with rfl | rfl | rfl | rfl | rfl | rfl | rfl | rfl | rfl | rfl <;> simp [Undisturbed, sampleOwner]
  · intro p hp
    simp only [sampleOwner] at hp
    split at hp
    · omega
    · rename_i h; simp [samplePlan, h]

/-- Requests of different queries are not answered in the order in which they were made: the third one precedes the second. -/
theorem C41_order_refuted : (run (fun _ => []) id start [.request 10 1, .request 20 2, .request 10 3, .resume, .resume, .resume]).answers =
    [(1, .done), (3, .done), (2, .done)] := by decide

/-- After the client has gone down, a further request of its query is answered before the earlier ones. -/
theorem C41_cancelled_order_refuted : (run (fun _ => []) id start [.request 10 1, .request 10 2, .down 10, .request 10 3, .resume]).answers =
    [(3, .done), (1, .done), (2, .done)] := by decide

/-- After an expression could not be tailored for one request, the further ones of the query are answered with `done`, as if
    they had no results. -/
theorem C41_untailored_done_refuted : (run (fun p => if p = 1 then [.untailored] else [.slice]) id start
    [.request 10 1, .request 10 2, .resume, .resume]).answers = [(1, .error), (2, .done)] := by decide

end Verif.ArchiveActor
