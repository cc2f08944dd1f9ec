import Verif.Commands.Spec
namespace Verif.Commands
open Spec

/-! ## Nothing goes on -/

theorem Spec.Settled.mono {l l' : List Event} {w : Who} (h : Settled l w) (s : ∀ e ∈ l, e ∈ l') : Settled l' w := by
  rcases h with h | ⟨r, h⟩ | ⟨h, r, h'⟩
  · exact .inl (s _ h)
  · exact .inr (.inl ⟨r, s _ h⟩)
  · exact .inr (.inr ⟨h, r, s _ h'⟩)

/-- A run that has returned has left nothing. -/
def Good (r : Run) : Prop := ∀ e, r.outcome = .returned e → Tidy r.log

theorem good_nil (o : Outcome) : Good ⟨[], o⟩ := fun _ _ w h => by cases h

theorem good_step {env : Env} {s : Step} {r : Run} (h : Good r) : Good (step env s r) := by
  unfold step; split
  · exact good_nil _
  · exact h

theorem outcome_after (es : List Event) (r : Run) : (after es r).outcome = r.outcome := rfl

theorem outcome_leaving (es : List Event) (r : Run) : (leaving es r).outcome = r.outcome := by
  unfold leaving; split <;> simp_all

theorem log_leaving {es : List Event} {r : Run} {e : Option Err} (h : r.outcome = .returned e) :
    (leaving es r).log = r.log ++ es := by
  unfold leaving; rw [h]

theorem sub_leaving (es : List Event) (r : Run) : ∀ x ∈ r.log, x ∈ (leaving es r).log := by
  intro x hx
  unfold leaving; split
  · exact List.mem_append_left _ hx
  · exact hx

theorem good_guarded {w : Who} {r : Run} (h : Good r) : Good (after [.start w] (leaving [.exit w] r)) := by
  intro e he v hv
  rw [outcome_after, outcome_leaving] at he
  have hl := log_leaving (es := [.exit w]) he
  simp only [after, hl] at hv ⊢
  simp only [List.mem_append, List.mem_singleton, reduceCtorEq, or_false, Event.start.injEq] at hv
  rcases hv with rfl | hv
  · exact .inl (by simp)
  · exact (h e he v hv).mono fun x hx => by simp [hx]

theorem good_unless {w : Who} {r : Run} (h : Good r) : Good (guardedUnlessDown w r) := by
  unfold guardedUnlessDown
  split
  · rename_i hd
    intro e he v hv
    simp only [after, List.mem_append, List.mem_singleton, Event.start.injEq] at hv ⊢
    rcases hv with rfl | hv
    · obtain ⟨x, hx, hm⟩ := List.any_eq_true.mp hd
      split at hm
      · rename_i u q
        rw [beq_iff_eq] at hm
        subst hm
        exact .inr (.inl ⟨q, by simp [hx]⟩)
      · cases hm
    · exact (h e he v hv).mono fun x hx => by simp [hx]
  · exact good_guarded h

theorem good_node {env : Env} {r : Run} (h : Good r) : Good (withNode env r) := by
  unfold withNode
  refine good_step ?_
  split
  · exact good_guarded h
  · exact h

theorem waitLoop_start (w : Who) : ∀ ms, .start w ∉ (waitLoop ms).log
  | [] => by simp [waitLoop]
  | .down v r :: ms => by cases v <;> simp [waitLoop]
  | .signal b :: ms => by cases b <;> simp [waitLoop, after, waitLoop_start w ms]
  | .timeout :: ms => by simpa [waitLoop] using waitLoop_start w ms
  | .report :: ms => by simpa [waitLoop] using waitLoop_start w ms
  | .flush :: ms => by simpa [waitLoop] using waitLoop_start w ms

theorem good_waitLoop (ms : List Msg) : Good (waitLoop ms) :=
  fun _ _ w h => absurd h (waitLoop_start w ms)

theorem exportLoop_start (w : Who) : ∀ ms b e, .start w ∉ (exportLoop b e ms).log
  | [], _, _ => by simp [exportLoop]
  | .down v r :: ms, b, e => by cases v <;> simp [exportLoop, after, exportLoop_start w ms]
  | .signal c :: ms, b, e => by cases c <;> simp [exportLoop, after, exportLoop_start w ms]
  | .timeout :: ms, b, e => by simp [exportLoop, after, exportLoop_start w ms]
  | .report :: ms, b, e => by cases b <;> simp [exportLoop, after, exportLoop_start w ms]
  | .flush :: ms, b, e => by simpa [exportLoop] using exportLoop_start w ms b e

/-- Once the loop of `export` waits for the final report, both actors are settled; `pre` is what was before. -/
theorem exportLoop_settled : ∀ ms (b : Bool) (e : Option Err) (pre : List Event) (x : Option Err),
    (b = true → Settled pre .exporter ∧ Settled pre .sink) →
    (exportLoop b e ms).outcome = .returned x →
    Settled (pre ++ (exportLoop b e ms).log) .exporter ∧ Settled (pre ++ (exportLoop b e ms).log) .sink
  | [], _, _, _, _, _, h => by simp [exportLoop] at h
  | .down v r :: ms, b, e, pre, x, hp, h => by
      cases v with
      | sink =>
        have := exportLoop_settled ms true (otherReason e r) (pre ++ [.got (.down .sink r), .exit .exporter]) x
          (fun _ => ⟨.inl (by simp), .inr (.inl ⟨r, by simp⟩)⟩) (by simpa [exportLoop, after] using h)
        simpa [exportLoop, after] using this
      | exporter => exact ⟨.inr (.inl ⟨r, by simp [exportLoop]⟩), .inl (by simp [exportLoop])⟩
      | node => exact ⟨.inr (.inr ⟨.inl rfl, r, by simp [exportLoop]⟩), .inl (by simp [exportLoop])⟩
      | worker => simp [exportLoop] at h
      | source => simp [exportLoop] at h
      | importer => simp [exportLoop] at h
  | .signal c :: ms, b, e, pre, x, hp, h => by
      have := exportLoop_settled ms b e
        (pre ++ (.got (.signal c) :: if c then [.exit .exporter, .exit .sink] else [])) x
        (fun hb => ⟨(hp hb).1.mono fun y hy => by simp [hy], (hp hb).2.mono fun y hy => by simp [hy]⟩)
        (by simpa [exportLoop, after] using h)
      simpa [exportLoop, after] using this
  | .timeout :: ms, b, e, pre, x, hp, h => by
      have := exportLoop_settled ms true (some .timeout)
        (pre ++ [.got .timeout, .exit .exporter, .exit .sink]) x
        (fun _ => ⟨.inl (by simp), .inl (by simp)⟩) (by simpa [exportLoop, after] using h)
      simpa [exportLoop, after] using this
  | .report :: ms, b, e, pre, x, hp, h => by
      cases b with
      | true =>
        exact ⟨(hp rfl).1.mono fun y hy => by simp [hy], (hp rfl).2.mono fun y hy => by simp [hy]⟩
      | false =>
        have := exportLoop_settled ms false e (pre ++ [.got .report]) x (by simp)
          (by simpa [exportLoop, after] using h)
        simpa [exportLoop, after] using this
  | .flush :: ms, b, e, pre, x, hp, h => by
      simpa [exportLoop] using exportLoop_settled ms b e pre x hp (by simpa [exportLoop] using h)

theorem importLoop_start (w : Who) (b : Bool) : ∀ ms, .start w ∉ (importLoop b ms).log
  | [] => by simp [importLoop]
  | .down v r :: ms => by cases v <;> cases b <;> simp [importLoop, after, importLoop_start w]
  | .signal c :: ms => by cases c <;> simp [importLoop, after, importLoop_start w b ms]
  | .timeout :: ms => by simpa [importLoop] using importLoop_start w b ms
  | .report :: ms => by simpa [importLoop] using importLoop_start w b ms
  | .flush :: ms => by simp [importLoop]

/-- `gone`: the source is down already. -/
theorem importLoop_settled (b : Bool) : ∀ ms (pre : List Event) (pm : List Msg) (x : Option Err),
    ((∃ r, .down .source r ∈ pm) → SeenDown pre .source) →
    (∀ xs ys, ms = xs ++ .flush :: ys → ∃ r, .down .source r ∈ pm ++ xs) →
    (importLoop b ms).outcome = .returned x →
    Settled (pre ++ (importLoop b ms).log) .source
  | [], _, _, _, _, _, h => by simp [importLoop] at h
  | .down v r :: ms, pre, pm, x, hp, hf, h => by
      cases v with
      | importer => exact .inl (by simp [importLoop])
      | source =>
        cases b with
        | false => exact .inr (.inl ⟨r, by simp [importLoop]⟩)
        | true =>
          have := importLoop_settled true ms (pre ++ [.got (.down .source r)]) (pm ++ [.down .source r]) x
            (fun _ => ⟨r, by simp⟩)
            (fun xs ys hx => by
              obtain ⟨q, hq⟩ := hf (.down .source r :: xs) ys (by simp [hx])
              exact ⟨q, by simpa using hq⟩)
            (by simpa [importLoop, after] using h)
          simpa [importLoop, after] using this
      | exporter => simp [importLoop] at h
      | node => simp [importLoop] at h
      | worker => simp [importLoop] at h
      | sink => simp [importLoop] at h
  | .signal c :: ms, pre, pm, x, hp, hf, h => by
      have := importLoop_settled b ms (pre ++ (.got (.signal c) :: if c then [.exit .source] else []))
        (pm ++ [.signal c]) x
        (fun ⟨r, hr⟩ => by
          obtain ⟨q, hq⟩ := hp ⟨r, by simpa using hr⟩
          exact ⟨q, by simp [hq]⟩)
        (fun xs ys hx => by
          obtain ⟨q, hq⟩ := hf (.signal c :: xs) ys (by simp [hx])
          exact ⟨q, by simpa using hq⟩)
        (by simpa [importLoop, after] using h)
      simpa [importLoop, after] using this
  | .timeout :: ms, pre, pm, x, hp, hf, h => by
      have := importLoop_settled b ms pre (pm ++ [.timeout]) x
        (fun ⟨r, hr⟩ => hp ⟨r, by simpa using hr⟩)
        (fun xs ys hx => by
          obtain ⟨q, hq⟩ := hf (.timeout :: xs) ys (by simp [hx])
          exact ⟨q, by simpa using hq⟩)
        (by simpa [importLoop] using h)
      simpa [importLoop] using this
  | .report :: ms, pre, pm, x, hp, hf, h => by
      have := importLoop_settled b ms pre (pm ++ [.report]) x
        (fun ⟨r, hr⟩ => hp ⟨r, by simpa using hr⟩)
        (fun xs ys hx => by
          obtain ⟨q, hq⟩ := hf (.report :: xs) ys (by simp [hx])
          exact ⟨q, by simpa using hq⟩)
        (by simpa [importLoop] using h)
      simpa [importLoop] using this
  | .flush :: ms, pre, pm, x, hp, hf, h => by
      obtain ⟨r, hr⟩ := hp (by simpa using hf [] ms rfl)
      exact .inr (.inl ⟨r, by simp [hr]⟩)

/-! ## What is returned -/

/-- A run without an error has no failed step among `ss`, and the messages it took are fine. -/
def Clean (env : Env) (ss : List Step) (fine : Msg → Prop) (r : Run) : Prop :=
  r.outcome = .returned none → (∀ s ∈ ss, env.fails s = false) ∧ ∀ m, .got m ∈ r.log → fine m

/-- An error has a cause. -/
def Caused (env : Env) (r : Run) : Prop := ∀ e, r.outcome = .returned (some e) → Cause env r.log e

theorem Spec.Cause.mono {env : Env} {l l' : List Event} {e : Err} (h : Cause env l e) (s : ∀ x ∈ l, x ∈ l') :
    Cause env l' e := by
  cases e with
  | step t => exact h
  | reason r => obtain ⟨h1, w, h2⟩ := h; exact ⟨h1, w, s _ h2⟩
  | timeout => exact s _ h
  | remoteNodeDown => obtain ⟨r, h⟩ := h; exact ⟨r, s _ h⟩

theorem clean_step {env : Env} {s : Step} {ss : List Step} {fine : Msg → Prop} {r : Run}
    (h : Clean env ss fine r) : Clean env (s :: ss) fine (step env s r) := by
  unfold step; split
  · intro h; cases h
  · rename_i hs
    intro ho
    obtain ⟨h1, h2⟩ := h ho
    refine ⟨?_, h2⟩
    intro t ht
    rcases List.mem_cons.mp ht with rfl | ht
    · simpa using hs
    · exact h1 t ht

theorem clean_start {env : Env} {ss : List Step} {fine : Msg → Prop} {r : Run} {w : Who}
    (h : Clean env ss fine r) : Clean env ss fine (after [.start w] r) := by
  intro ho
  obtain ⟨h1, h2⟩ := h ho
  exact ⟨h1, fun m hm => h2 m (by simpa [after] using hm)⟩

theorem clean_leaving {env : Env} {ss : List Step} {fine : Msg → Prop} {r : Run} {w : Who}
    (h : Clean env ss fine r) : Clean env ss fine (leaving [.exit w] r) := by
  intro ho
  rw [outcome_leaving] at ho
  obtain ⟨h1, h2⟩ := h ho
  exact ⟨h1, fun m hm => h2 m (by simpa [log_leaving ho] using hm)⟩

theorem clean_unless {env : Env} {ss : List Step} {fine : Msg → Prop} {r : Run} {w : Who}
    (h : Clean env ss fine r) : Clean env ss fine (guardedUnlessDown w r) := by
  unfold guardedUnlessDown
  split
  · exact clean_start h
  · exact clean_start (clean_leaving h)

theorem clean_node {env : Env} {ss : List Step} {fine : Msg → Prop} {r : Run}
    (h : Clean env ss fine r) : Clean env (.node :: ss) fine (withNode env r) := by
  unfold withNode
  refine clean_step ?_
  split
  · exact clean_start (clean_leaving h)
  · exact h

theorem clean_sinkGuard {env : Env} {ss : List Step} {fine : Msg → Prop} {r : Run}
    (h : Clean env ss fine r) : Clean env ss fine (sinkGuard r) := by
  unfold sinkGuard
  split
  · rename_i e; intro ho; rw [e] at ho; cases ho
  · exact h

theorem caused_step {env : Env} {s : Step} {r : Run} (h : Caused env r) : Caused env (step env s r) := by
  unfold step; split
  · rename_i hs
    intro e he
    cases he
    exact hs
  · exact h

theorem caused_after {env : Env} {es : List Event} {r : Run} (h : Caused env r) : Caused env (after es r) :=
  fun e he => (h e he).mono fun x hx => by simp [after, hx]

theorem caused_leaving {env : Env} {es : List Event} {r : Run} (h : Caused env r) : Caused env (leaving es r) :=
  fun e he => (h e (by rwa [outcome_leaving] at he)).mono (sub_leaving es r)

theorem caused_unless {env : Env} {w : Who} {r : Run} (h : Caused env r) :
    Caused env (guardedUnlessDown w r) := by
  unfold guardedUnlessDown
  split
  · exact caused_after h
  · exact caused_after (caused_leaving h)

theorem caused_node {env : Env} {r : Run} (h : Caused env r) : Caused env (withNode env r) := by
  unfold withNode
  refine caused_step ?_
  split
  · exact caused_after (caused_leaving h)
  · exact h

theorem caused_sinkGuard {env : Env} {r : Run} (h : Caused env r) : Caused env (sinkGuard r) := by
  unfold sinkGuard
  split
  · exact fun e he => (h e he).mono fun x hx => by simp [hx]
  · exact h

theorem waitLoop_clean (env : Env) : ∀ ms,
    Clean env [] (fun m => ∀ w r, m = .down w r → r = .normal) (waitLoop ms)
  | [] => by intro h; cases h
  | .down v r :: ms => by
      intro h
      refine ⟨by simp, ?_⟩
      cases v <;> cases r <;> simp [waitLoop, anyReason] at h ⊢
  | .signal b :: ms => by
      intro h
      refine ⟨by simp, ?_⟩
      cases b with
      | true => simp [waitLoop]
      | false =>
        intro m hm
        simp only [waitLoop, after, Bool.false_eq_true, if_false, List.mem_append, List.mem_singleton,
          Event.got.injEq] at hm
        rcases hm with rfl | hm
        · intro w r e; cases e
        · exact (waitLoop_clean env ms (by simpa [waitLoop, after] using h)).2 m hm
  | .timeout :: ms => by simpa [waitLoop] using waitLoop_clean env ms
  | .report :: ms => by simpa [waitLoop] using waitLoop_clean env ms
  | .flush :: ms => by simpa [waitLoop] using waitLoop_clean env ms

theorem waitLoop_caused (env : Env) : ∀ ms, Caused env (waitLoop ms)
  | [] => by intro e h; cases h
  | .down v r :: ms => by
      intro e h
      cases v <;> cases r <;> simp [waitLoop, anyReason] at h <;> subst h <;>
        exact ⟨by simp, _, by simp [waitLoop]; rfl⟩
  | .signal b :: ms => by
      cases b with
      | true => intro e h; simp [waitLoop] at h
      | false => simpa [waitLoop] using caused_after (waitLoop_caused env ms)
  | .timeout :: ms => by simpa [waitLoop] using waitLoop_caused env ms
  | .report :: ms => by simpa [waitLoop] using waitLoop_caused env ms
  | .flush :: ms => by simpa [waitLoop] using waitLoop_caused env ms

/-- Messages that do not make an export fail. -/
def exportFine (m : Msg) : Prop := m ≠ .timeout ∧ ∀ w r, m = .down w r → r = .normal ∨ r = .userShutdown

/-- An error stays. -/
theorem exportLoop_error : ∀ ms b e, (exportLoop b (some e) ms).outcome ≠ .returned none
  | [], _, _ => by simp [exportLoop]
  | .down v r :: ms, b, e => by
      cases v <;> cases r <;> simp [exportLoop, after, otherReason, exportLoop_error ms]
  | .signal c :: ms, b, e => by simp [exportLoop, after, exportLoop_error ms]
  | .timeout :: ms, b, e => by simp [exportLoop, after, exportLoop_error ms]
  | .report :: ms, b, e => by cases b <;> simp [exportLoop, after, exportLoop_error ms]
  | .flush :: ms, b, e => by simp [exportLoop, exportLoop_error ms]

theorem exportLoop_clean : ∀ ms b e, (exportLoop b e ms).outcome = .returned none →
    ∀ m, .got m ∈ (exportLoop b e ms).log → exportFine m
  | [], _, _, h => by simp [exportLoop] at h
  | .down v r :: ms, b, e, h => by
      intro m hm
      cases r with
      | error c =>
        cases v <;> simp [exportLoop, after, otherReason, exportLoop_error ms] at h
      | normal =>
        cases v with
        | sink =>
          simp only [exportLoop, after, otherReason] at h
          simp only [exportLoop, after, otherReason, List.mem_append, List.mem_cons, Event.got.injEq,
            reduceCtorEq, List.not_mem_nil, or_false] at hm
          rcases hm with rfl | hm
          · exact ⟨by simp, by simp⟩
          · exact exportLoop_clean ms true e h m hm
        | _ => first
          | (simp [exportLoop] at h; done)
          | (simp [exportLoop] at hm; subst hm; exact ⟨by simp, by simp⟩)
      | userShutdown =>
        cases v with
        | sink =>
          simp only [exportLoop, after, otherReason] at h
          simp only [exportLoop, after, otherReason, List.mem_append, List.mem_cons, Event.got.injEq,
            reduceCtorEq, List.not_mem_nil, or_false] at hm
          rcases hm with rfl | hm
          · exact ⟨by simp, by simp⟩
          · exact exportLoop_clean ms true e h m hm
        | _ => first
          | (simp [exportLoop] at h; done)
          | (simp [exportLoop] at hm; subst hm; exact ⟨by simp, by simp⟩)
  | .signal c :: ms, b, e, h => by
      intro m hm
      have ih := exportLoop_clean ms b e (by simpa [exportLoop, after] using h) m
      cases c <;> simp [exportLoop, after] at hm <;> rcases hm with rfl | hm <;>
        first | exact ih hm | exact ⟨by simp, by simp⟩
  | .timeout :: ms, b, e, h => by simp [exportLoop, after, exportLoop_error ms] at h
  | .report :: ms, b, e, h => by
      intro m hm
      cases b with
      | true => simp [exportLoop] at hm; subst hm; exact ⟨by simp, by simp⟩
      | false =>
        simp [exportLoop, after] at hm h
        rcases hm with rfl | hm
        · exact ⟨by simp, by simp⟩
        · exact exportLoop_clean ms false e h m hm
  | .flush :: ms, b, e, h => by
      simpa [exportLoop] using exportLoop_clean ms b e (by simpa [exportLoop] using h)

theorem exportLoop_caused (env : Env) : ∀ ms b e (pre : List Event),
    (∀ x, e = some x → Cause env pre x) →
    ∀ x, (exportLoop b e ms).outcome = .returned (some x) → Cause env (pre ++ (exportLoop b e ms).log) x
  | [], _, _, _, _, _, h => by simp [exportLoop] at h
  | .down v r :: ms, b, e, pre, hp, x, h => by
      have hn : ∀ y, otherReason e r = some y → Cause env (pre ++ [.got (.down v r)]) y := by
        intro y hy
        cases r with
        | error c => simp [otherReason] at hy; subst hy; exact ⟨by simp, v, by simp⟩
        | normal => exact (hp y hy).mono fun z hz => by simp [hz]
        | userShutdown => exact (hp y hy).mono fun z hz => by simp [hz]
      cases v with
      | sink =>
        have := exportLoop_caused env ms true (otherReason e r)
          (pre ++ [.got (.down .sink r), .exit .exporter])
          (fun y hy => (hn y hy).mono fun z hz => by
            simp only [List.mem_append, List.mem_cons, List.not_mem_nil, or_false] at hz ⊢
            rcases hz with hz | hz <;> simp [hz])
          x (by simpa [exportLoop, after] using h)
        simpa [exportLoop, after] using this
      | exporter =>
        refine (hn x (by simpa [exportLoop] using h)).mono fun z hz => ?_
        simp only [exportLoop, List.mem_append, List.mem_cons, List.not_mem_nil, or_false] at hz ⊢
        rcases hz with hz | hz <;> simp [hz]
      | node =>
        refine (hn x (by simpa [exportLoop] using h)).mono fun z hz => ?_
        simp only [exportLoop, List.mem_append, List.mem_cons, List.not_mem_nil, or_false] at hz ⊢
        rcases hz with hz | hz <;> simp [hz]
      | worker => simp [exportLoop] at h
      | source => simp [exportLoop] at h
      | importer => simp [exportLoop] at h
  | .signal c :: ms, b, e, pre, hp, x, h => by
      have := exportLoop_caused env ms b e
        (pre ++ (.got (.signal c) :: if c then [.exit .exporter, .exit .sink] else []))
        (fun y hy => (hp y hy).mono fun z hz => by simp [hz]) x (by simpa [exportLoop, after] using h)
      simpa [exportLoop, after] using this
  | .timeout :: ms, b, e, pre, hp, x, h => by
      have := exportLoop_caused env ms true (some .timeout)
        (pre ++ [.got .timeout, .exit .exporter, .exit .sink])
        (fun y hy => by cases hy; simp [Cause]) x (by simpa [exportLoop, after] using h)
      simpa [exportLoop, after] using this
  | .report :: ms, b, e, pre, hp, x, h => by
      cases b with
      | true => exact (hp x (by simpa [exportLoop] using h)).mono fun z hz => by simp [hz]
      | false =>
        have := exportLoop_caused env ms false e (pre ++ [.got .report])
          (fun y hy => (hp y hy).mono fun z hz => by simp [hz]) x (by simpa [exportLoop, after] using h)
        simpa [exportLoop, after] using this
  | .flush :: ms, b, e, pre, hp, x, h => by
      simpa [exportLoop] using exportLoop_caused env ms b e pre hp x (by simpa [exportLoop] using h)

theorem importLoop_clean (env : Env) (b : Bool) : ∀ ms,
    Clean env [] (fun m => ∀ r, m ≠ .down .importer r) (importLoop b ms)
  | [] => by intro h; cases h
  | .down v r :: ms => by
      intro h
      refine ⟨by simp, ?_⟩
      intro m hm
      cases v with
      | source =>
        cases b with
        | false => simp [importLoop] at hm; subst hm; simp
        | true =>
          simp [importLoop, after] at h hm
          rcases hm with rfl | hm
          · simp
          · exact (importLoop_clean env true ms h).2 m hm
      | _ => simp [importLoop] at h
  | .signal c :: ms => by
      intro h
      refine ⟨by simp, ?_⟩
      intro m hm
      have ih := (importLoop_clean env b ms (by simpa [importLoop, after] using h)).2 m
      cases c <;> simp [importLoop, after] at hm <;> rcases hm with rfl | hm <;>
        first | exact ih hm | simp
  | .timeout :: ms => by simpa [importLoop] using importLoop_clean env b ms
  | .report :: ms => by simpa [importLoop] using importLoop_clean env b ms
  | .flush :: ms => by
      intro _
      exact ⟨by simp, fun m hm => by simp [importLoop] at hm; subst hm; simp⟩

theorem importLoop_caused (env : Env) (b : Bool) : ∀ ms, Caused env (importLoop b ms)
  | [] => by intro e h; cases h
  | .down v r :: ms => by
      cases v with
      | importer =>
        intro e h
        simp [importLoop] at h
        subst h
        exact ⟨r, by simp [importLoop]⟩
      | source =>
        cases b with
        | false => intro e h; simp [importLoop] at h
        | true => simpa [importLoop] using caused_after (importLoop_caused env true ms)
      | _ => intro e h; simp [importLoop] at h
  | .signal c :: ms => by simpa [importLoop] using caused_after (importLoop_caused env b ms)
  | .timeout :: ms => by simpa [importLoop] using importLoop_caused env b ms
  | .report :: ms => by simpa [importLoop] using importLoop_caused env b ms
  | .flush :: ms => by intro e h; simp [importLoop] at h

/-! ## Ends -/

theorem waitLoop_ends : ∀ ms, (∃ m ∈ ms, (∃ w r, m = .down w r) ∨ m = .signal true) →
    (waitLoop ms).outcome ≠ .waiting
  | [], h => by simp at h
  | .down v r :: ms, _ => by cases v <;> simp [waitLoop]
  | .signal true :: ms, _ => by simp [waitLoop]
  | .signal false :: ms, h => by simpa [waitLoop, after] using waitLoop_ends ms (by simpa using h)
  | .timeout :: ms, h => by simpa [waitLoop] using waitLoop_ends ms (by simpa using h)
  | .report :: ms, h => by simpa [waitLoop] using waitLoop_ends ms (by simpa using h)
  | .flush :: ms, h => by simpa [waitLoop] using waitLoop_ends ms (by simpa using h)

theorem exportLoop_ends : ∀ ms b e, (∃ r, .down .exporter r ∈ ms) → (exportLoop b e ms).outcome ≠ .waiting
  | [], _, _, h => by simp at h
  | .down v r :: ms, b, e, h => by
      cases v with
      | sink => simpa [exportLoop, after] using exportLoop_ends ms true (otherReason e r) (by simpa using h)
      | _ => simp [exportLoop]
  | .signal c :: ms, b, e, h => by simpa [exportLoop, after] using exportLoop_ends ms b e (by simpa using h)
  | .timeout :: ms, b, e, h => by simpa [exportLoop, after] using exportLoop_ends ms _ _ (by simpa using h)
  | .report :: ms, b, e, h => by
      cases b with
      | true => simp [exportLoop]
      | false => simpa [exportLoop, after] using exportLoop_ends ms false e (by simpa using h)
  | .flush :: ms, b, e, h => by simpa [exportLoop] using exportLoop_ends ms b e (by simpa using h)

theorem importLoop_ends (b : Bool) : ∀ ms,
    (∃ m ∈ ms, (∃ r, m = .down .importer r) ∨ m = .flush ∨ (b = false ∧ ∃ r, m = .down .source r)) →
    (importLoop b ms).outcome ≠ .waiting
  | [], h => by simp at h
  | .down v r :: ms, h => by
      cases v with
      | source =>
        cases b with
        | false => simp [importLoop]
        | true => simpa [importLoop, after] using importLoop_ends true ms (by simpa using h)
      | _ => simp [importLoop]
  | .signal c :: ms, h => by simpa [importLoop, after] using importLoop_ends b ms (by simpa using h)
  | .timeout :: ms, h => by simpa [importLoop] using importLoop_ends b ms (by simpa using h)
  | .report :: ms, h => by simpa [importLoop] using importLoop_ends b ms (by simpa using h)
  | .flush :: ms, _ => by simp [importLoop]

theorem waitLoop_ok : ∀ ms, (∀ w r, .down w r ∈ ms → w = .sink ∨ w = .worker ∨ w = .node) →
    (waitLoop ms).outcome ≠ .aborted
  | [], _ => by simp [waitLoop]
  | .down v r :: ms, h => by rcases h v r (by simp) with rfl | rfl | rfl <;> simp [waitLoop]
  | .signal true :: ms, _ => by simp [waitLoop]
  | .signal false :: ms, h => by
      simpa [waitLoop, after] using waitLoop_ok ms fun w r hm => h w r (List.mem_cons_of_mem _ hm)
  | .timeout :: ms, h => by simpa [waitLoop] using waitLoop_ok ms fun w r hm => h w r (List.mem_cons_of_mem _ hm)
  | .report :: ms, h => by simpa [waitLoop] using waitLoop_ok ms fun w r hm => h w r (List.mem_cons_of_mem _ hm)
  | .flush :: ms, h => by simpa [waitLoop] using waitLoop_ok ms fun w r hm => h w r (List.mem_cons_of_mem _ hm)

theorem exportLoop_ok : ∀ ms b e, (∀ w r, .down w r ∈ ms → w = .sink ∨ w = .exporter) →
    (exportLoop b e ms).outcome ≠ .aborted
  | [], _, _, _ => by simp [exportLoop]
  | .down v r :: ms, b, e, h => by
      have ih := fun b e => exportLoop_ok ms b e fun w r hm => h w r (List.mem_cons_of_mem _ hm)
      rcases h v r (by simp) with rfl | rfl <;> simp [exportLoop, after, ih]
  | .signal c :: ms, b, e, h => by
      simpa [exportLoop, after] using exportLoop_ok ms b e fun w r hm => h w r (List.mem_cons_of_mem _ hm)
  | .timeout :: ms, b, e, h => by
      simpa [exportLoop, after] using exportLoop_ok ms _ _ fun w r hm => h w r (List.mem_cons_of_mem _ hm)
  | .report :: ms, b, e, h => by
      have ih := exportLoop_ok ms b e fun w r hm => h w r (List.mem_cons_of_mem _ hm)
      cases b <;> simp [exportLoop, after, ih]
  | .flush :: ms, b, e, h => by
      simpa [exportLoop] using exportLoop_ok ms b e fun w r hm => h w r (List.mem_cons_of_mem _ hm)

theorem importLoop_ok (b : Bool) : ∀ ms, (∀ w r, .down w r ∈ ms → w = .source ∨ w = .importer) →
    (importLoop b ms).outcome ≠ .aborted
  | [], _ => by simp [importLoop]
  | .down v r :: ms, h => by
      have ih := importLoop_ok b ms fun w r hm => h w r (List.mem_cons_of_mem _ hm)
      rcases h v r (by simp) with rfl | rfl <;> cases b <;> simp [importLoop, after, ih]
  | .signal c :: ms, h => by
      simpa [importLoop, after] using importLoop_ok b ms fun w r hm => h w r (List.mem_cons_of_mem _ hm)
  | .timeout :: ms, h => by
      simpa [importLoop] using importLoop_ok b ms fun w r hm => h w r (List.mem_cons_of_mem _ hm)
  | .report :: ms, h => by
      simpa [importLoop] using importLoop_ok b ms fun w r hm => h w r (List.mem_cons_of_mem _ hm)
  | .flush :: ms, _ => by simp [importLoop]

/-- The command has returned. -/
def Returned (r : Run) : Prop := ∃ e, r.outcome = .returned e

theorem returned_of {r : Run} (h : r.outcome ≠ .waiting) (h' : r.outcome ≠ .aborted) : Returned r := by
  cases e : r.outcome with
  | waiting => exact absurd e h
  | aborted => exact absurd e h'
  | returned x => exact ⟨x, e⟩

theorem returned_step {env : Env} {s : Step} {r : Run} (h : Returned r) : Returned (step env s r) := by
  unfold step; split
  · exact ⟨_, rfl⟩
  · exact h

theorem returned_after {es : List Event} {r : Run} (h : Returned r) : Returned (after es r) := h

theorem returned_leaving {es : List Event} {r : Run} (h : Returned r) : Returned (leaving es r) := by
  obtain ⟨e, h⟩ := h
  exact ⟨e, by rw [outcome_leaving, h]⟩

theorem returned_unless {w : Who} {r : Run} (h : Returned r) : Returned (guardedUnlessDown w r) := by
  unfold guardedUnlessDown
  split
  · exact h
  · exact returned_leaving h

theorem returned_node {env : Env} {r : Run} (h : Returned r) : Returned (withNode env r) := by
  unfold withNode
  refine returned_step ?_
  split
  · exact returned_leaving h
  · exact h

theorem sinkGuard_outcome (r : Run) : (sinkGuard r).outcome = r.outcome := by
  unfold sinkGuard; split <;> rfl

theorem returned_sinkGuard {r : Run} (h : Returned r) : Returned (sinkGuard r) := by
  obtain ⟨e, h⟩ := h
  exact ⟨e, by rw [sinkGuard_outcome, h]⟩

/-! ## Interrupts -/

/-- An interrupt that was taken has stopped an actor. -/
def Obeys (w : Who) (r : Run) : Prop := .got (.signal true) ∈ r.log → .exit w ∈ r.log

theorem obeys_step {env : Env} {s : Step} {w : Who} {r : Run} (h : Obeys w r) : Obeys w (step env s r) := by
  unfold step; split
  · intro h; simp at h
  · exact h

theorem obeys_start {v w : Who} {r : Run} (h : Obeys w r) : Obeys w (after [.start v] r) := by
  intro hm
  have := h (by simpa [after] using hm)
  simp [after, this]

theorem obeys_leaving {v w : Who} {r : Run} (h : Obeys w r) : Obeys w (leaving [.exit v] r) := by
  intro hm
  refine sub_leaving _ _ _ (h ?_)
  unfold leaving at hm
  split at hm
  · simpa using hm
  · exact hm

theorem obeys_node {env : Env} {w : Who} {r : Run} (h : Obeys w r) : Obeys w (withNode env r) := by
  unfold withNode
  refine obeys_step ?_
  split
  · exact obeys_start (obeys_leaving h)
  · exact h

theorem obeys_sinkGuard {w : Who} {r : Run} (h : Obeys w r) : Obeys w (sinkGuard r) := by
  unfold sinkGuard
  split
  · intro hm
    have := h (by simpa using hm)
    simp [this]
  · exact h

theorem obeys_exportLoop {w : Who} (hw : w = .exporter ∨ w = .sink) : ∀ ms b e, Obeys w (exportLoop b e ms)
  | [], _, _ => by intro h; simp [exportLoop] at h
  | .down v r :: ms, b, e => by
      intro h
      cases v with
      | sink =>
        have := obeys_exportLoop hw ms true (otherReason e r) (by simpa [exportLoop, after] using h)
        simp [exportLoop, after, this]
      | _ => simp [exportLoop] at h
  | .signal true :: ms, b, e => by intro _; rcases hw with rfl | rfl <;> simp [exportLoop, after]
  | .signal false :: ms, b, e => by
      intro h
      have := obeys_exportLoop hw ms b e (by simpa [exportLoop, after] using h)
      simp [exportLoop, after, this]
  | .timeout :: ms, b, e => by intro _; rcases hw with rfl | rfl <;> simp [exportLoop, after]
  | .report :: ms, b, e => by
      intro h
      cases b with
      | true => simp [exportLoop] at h
      | false =>
        have := obeys_exportLoop hw ms false e (by simpa [exportLoop, after] using h)
        simp [exportLoop, after, this]
  | .flush :: ms, b, e => by simpa [exportLoop] using obeys_exportLoop hw ms b e

theorem obeys_importLoop (b : Bool) : ∀ ms, Obeys .source (importLoop b ms)
  | [] => by intro h; simp [importLoop] at h
  | .down v r :: ms => by
      intro h
      cases v with
      | source =>
        cases b with
        | false => simp [importLoop] at h
        | true =>
          have := obeys_importLoop true ms (by simpa [importLoop, after] using h)
          simp [importLoop, after, this]
      | _ => simp [importLoop] at h
  | .signal true :: ms => by intro _; simp [importLoop, after]
  | .signal false :: ms => by
      intro h
      have := obeys_importLoop b ms (by simpa [importLoop, after] using h)
      simp [importLoop, after, this]
  | .timeout :: ms => by simpa [importLoop] using obeys_importLoop b ms
  | .report :: ms => by simpa [importLoop] using obeys_importLoop b ms
  | .flush :: ms => by intro h; simp [importLoop] at h

end Verif.Commands
