import Verif.Commands.Lemmas
/-!
# Properties of client commands that wait
-/
namespace Verif.Commands
open Spec

/-- Nothing fails, the node is somewhere else. -/
def usual : Env := ⟨fun _ => false, false, false⟩

/-! ## C186: a command leaves nothing behind -/

/-- C186: whatever fails and whatever messages come, when `vast explore` returns, the sink, the exporter, the explorer and a node of
its own are told to stop, or are down. -/
theorem C186_explore (env : Env) (ms : List Msg) (e : Option Err) (h : (explore env ms).outcome = .returned e) :
    Tidy (explore env ms).log :=
  good_step (good_step (good_step (good_unless (good_node (good_step (good_guarded (good_step (good_unless
    (good_waitLoop ms))))))))) e h

/-- The same for `vast pivot`. -/
theorem C186_pivot (env : Env) (ms : List Msg) (e : Option Err) (h : (pivot env ms).outcome = .returned e) :
    Tidy (pivot env ms).log :=
  good_step (good_step (good_unless (good_node (good_step (good_guarded (good_step (good_unless (good_step
    (good_waitLoop ms))))))))) e h

/-- The same for `vast export`, if the node answers when it is asked for its accountant.  What is missing: the other case. -/
theorem C186_export_partial (env : Env) (ms : List Msg) (e : Option Err) (hc : env.fails .components = false)
    (h : (Commands.export env ms).outcome = .returned e) : Tidy (Commands.export env ms).log := by
  have hstep : step env .components (exportLoop false none ms) = exportLoop false none ms := by simp [step, hc]
  have loopErr : ∀ s, (exportLoop false none ms).outcome ≠ .returned (some (.step s)) := by
    intro s hs
    have := exportLoop_caused ⟨fun _ => false, false, false⟩ ms false none [] (by simp) _ hs
    simp [Cause] at this
  unfold Commands.export at h ⊢
  rw [hstep] at h ⊢
  have key : ∀ (r : Run), (r.outcome = .returned e → (∀ w, .start w ∈ r.log → Settled r.log w) ∧
      ((∃ s, e = some (.step s)) ∨ Settled r.log .sink)) →
      (step env .sink (after [.start .sink] (sinkGuard r))).outcome = .returned e →
      Tidy (step env .sink (after [.start .sink] (sinkGuard r))).log := by
    intro r hr ho
    unfold step at ho ⊢
    split at ho
    · rename_i hs; rw [if_pos hs]; intro w hw; cases hw
    · rename_i hs
      rw [if_neg hs]
      rw [outcome_after, sinkGuard_outcome] at ho
      obtain ⟨h1, h2⟩ := hr ho
      have sub : ∀ x ∈ r.log, x ∈ (after [.start .sink] (sinkGuard r)).log := by
        intro x hx
        unfold sinkGuard after
        split <;> simp [hx]
      intro w hw
      by_cases hws : w = .sink
      · subst hws
        rcases h2 with ⟨s, rfl⟩ | h2
        · refine .inl ?_
          unfold sinkGuard after
          rw [ho]
          simp
        · exact h2.mono sub
      · refine (h1 w ?_).mono sub
        unfold sinkGuard after at hw
        split at hw <;> simpa [hws] using hw
  refine key _ ?_ h
  intro ho
  by_cases hq : env.fails .query = true
  · simp only [step, hq, if_true] at ho ⊢
    cases ho
    exact ⟨by simp, .inl ⟨_, rfl⟩⟩
  · have hq : env.fails .query = false := by simpa using hq
    by_cases hn : env.fails .node = true
    · simp only [step, withNode, hq, hn, if_true, Bool.false_eq_true, if_false] at ho ⊢
      cases ho
      exact ⟨by simp, .inl ⟨_, rfl⟩⟩
    · have hn : env.fails .node = false := by simpa using hn
      by_cases hx : env.fails .exporter = true
      · cases ho2 : env.ownNode <;>
          simp [step, withNode, hq, hn, hx, ho2, after, leaving] at ho ⊢ <;> subst ho
        · simp
        · exact ⟨.inl (by simp), by simp⟩
      · have hx : env.fails .exporter = false := by simpa using hx
        have hout : (exportLoop false none ms).outcome = .returned e := by
          cases ho2 : env.ownNode <;>
            simpa [step, withNode, hq, hn, hx, ho2, after, outcome_leaving] using ho
        obtain ⟨s1, s2⟩ := exportLoop_settled ms false none [.start .exporter] e (by simp) hout
        cases ho2 : env.ownNode with
        | false =>
          have hl : (step env .query (withNode env (step env .exporter
              (after [.start .exporter] (exportLoop false none ms))))).log
              = [.start .exporter] ++ (exportLoop false none ms).log := by
            simp [step, withNode, hq, hn, hx, ho2, after]
          rw [hl]
          refine ⟨fun w hw => ?_, .inr s2⟩
          simp [exportLoop_start] at hw
          subst hw
          exact s1
        | true =>
          have hl : (step env .query (withNode env (step env .exporter
              (after [.start .exporter] (exportLoop false none ms))))).log
              = .start .node :: (([.start .exporter] ++ (exportLoop false none ms).log) ++ [.exit .node]) := by
            simp [step, withNode, hq, hn, hx, ho2, after, leaving, hout]
          rw [hl]
          refine ⟨fun w hw => ?_, .inr (s2.mono fun x hx => List.mem_cons_of_mem _ (List.mem_append_left _ hx))⟩
          simp [exportLoop_start] at hw
          rcases hw with rfl | rfl
          · exact .inl (by simp)
          · exact s1.mono fun x hx => List.mem_cons_of_mem _ (List.mem_append_left _ hx)

/-- In the other case, the exporter goes on in the node: nobody tells it to stop, and its query is never run. -/
theorem C186_export_refuted :
    ∃ env, (Commands.export env []).outcome = .returned (some (.step .components)) ∧
      .start .exporter ∈ (Commands.export env []).log ∧ ¬ Settled (Commands.export env []).log .exporter := by
  refine ⟨⟨fun s => s == .components, false, false⟩, by decide, by decide, ?_⟩
  have hl : (Commands.export ⟨fun s => s == .components, false, false⟩ []).log
      = [.start .sink, .start .exporter, .exit .sink] := by decide
  rw [hl]
  rintro (h | ⟨r, h⟩ | ⟨_, r, h⟩) <;> simp at h

/-- When `vast import` returns, the source is told to stop or is down, and so is a node of its own. -/
theorem C186_import_partial (env : Env) (ms : List Msg) (e : Option Err) (hf : FlushAfterSource ms)
    (h : (Commands.import env ms).outcome = .returned e) : Tidy (Commands.import env ms).log := by
  refine good_node (good_step (good_step (good_step ?_))) e h
  intro x hx w hw
  cases hr : env.fails .register with
  | true =>
    simp [hr, after] at hw ⊢
    subst hw
    exact .inl (by simp)
  | false =>
    simp [hr, after, importLoop_start] at hw hx ⊢
    subst hw
    exact importLoop_settled env.blocking ms [.start .source] [] x (by simp) (by simpa [FlushAfterSource] using hf) hx

-- an interrupted exploration: the explorer, the exporter and the sink are told to stop
example : explore usual [.signal false, .signal true] =
    ⟨[.start .sink, .start .exporter, .start .worker, .got (.signal false), .got (.signal true), .exit .worker,
      .exit .exporter, .exit .sink], .returned none⟩ := by decide
-- the explorer is done
example : explore usual [.down .worker .normal] =
    ⟨[.start .sink, .start .exporter, .start .worker, .got (.down .worker .normal), .exit .exporter, .exit .sink],
      .returned none⟩ := by decide
-- an export with a limit: the sink is down first, then the exporter sends its report
example : Commands.export usual [.down .sink .normal, .report] =
    ⟨[.start .sink, .start .exporter, .got (.down .sink .normal), .exit .exporter, .got .report], .returned none⟩ := by decide
example : Commands.import { usual with blocking := true } [.down .source .normal, .flush] =
    ⟨[.start .source, .got (.down .source .normal), .got .flush], .returned none⟩ := by decide
example : FlushAfterSource [.down .source .normal, .flush] := by
  intro xs ys h
  match xs, h with
  | [], h => cases h
  | x :: xs, h =>
    simp only [List.cons_append, List.cons.injEq] at h
    exact ⟨.normal, by simp [h.1]⟩

/-! ## C187: a command that fails says so -/

/-- C187: `vast explore` returns without an error only if no step failed and no actor went down with a reason. -/
theorem C187_explore (env : Env) (ms : List Msg) (h : (explore env ms).outcome = .returned none) :
    (∀ s ∈ exploreSteps, env.fails s = false) ∧
      ∀ w r, .got (.down w r) ∈ (explore env ms).log → r = .normal := by
  have := clean_step (clean_step (clean_step (clean_unless (w := .sink) (clean_node (clean_step (s := .exporter)
    (clean_start (w := .exporter) (clean_leaving (w := .exporter) (clean_step (s := .worker)
    (clean_unless (w := .worker) (waitLoop_clean env ms)))))))))) h
  exact ⟨this.1, fun w r hm => this.2 _ hm w r rfl⟩

theorem C187_pivot (env : Env) (ms : List Msg) (h : (pivot env ms).outcome = .returned none) :
    (∀ s ∈ pivotSteps, env.fails s = false) ∧
      ∀ w r, .got (.down w r) ∈ (pivot env ms).log → r = .normal := by
  have := clean_step (clean_step (clean_unless (w := .sink) (clean_node (clean_step (s := .exporter)
    (clean_start (w := .exporter) (clean_leaving (w := .exporter) (clean_step (s := .worker)
    (clean_unless (w := .worker) (clean_step (s := .components) (waitLoop_clean env ms)))))))))) h
  exact ⟨this.1, fun w r hm => this.2 _ hm w r rfl⟩

/-- `vast export` returns without an error only if no step failed, it did not run into its timeout, and no actor went down with an
error. -/
theorem C187_export (env : Env) (ms : List Msg) (h : (Commands.export env ms).outcome = .returned none) :
    (∀ s ∈ exportSteps, env.fails s = false) ∧ .got .timeout ∉ (Commands.export env ms).log ∧
      ∀ w r, .got (.down w r) ∈ (Commands.export env ms).log → r = .normal ∨ r = .userShutdown := by
  have base : Clean env [] exportFine (exportLoop false none ms) :=
    fun ho => ⟨by simp, exportLoop_clean ms false none ho⟩
  have := clean_step (s := .sink) (clean_start (w := .sink) (clean_sinkGuard (clean_step (s := .query) (clean_node
    (clean_step (s := .exporter) (clean_start (w := .exporter) (clean_step (s := .components) base))))))) h
  exact ⟨this.1, fun hm => (this.2 _ hm).1 rfl, fun w r hm => (this.2 _ hm).2 w r rfl⟩

/-- `vast import` returns without an error only if no step failed and the importer did not go down before the end.  What is
missing: how the source ended. -/
theorem C187_import_partial (env : Env) (ms : List Msg) (h : (Commands.import env ms).outcome = .returned none) :
    (∀ s ∈ importSteps, env.fails s = false) ∧ ¬ SeenDown (Commands.import env ms).log .importer := by
  have base : Clean env [.register] (fun m => ∀ r, m ≠ .down .importer r)
      (if env.fails .register then ⟨[.exit .source], .returned (some (.step .register))⟩
        else importLoop env.blocking ms) := by
    intro ho
    cases hr : env.fails .register with
    | true => simp [hr] at ho
    | false =>
      simp only [hr, Bool.false_eq_true, if_false] at ho ⊢
      exact ⟨by simp [hr], (importLoop_clean env env.blocking ms ho).2⟩
  have := clean_node (clean_step (s := .components) (clean_step (s := .transforms) (clean_step (s := .source)
    (clean_start (w := .source) base)))) h
  exact ⟨this.1, fun ⟨r, hm⟩ => this.2 _ hm r rfl⟩

/-- An import whose source dies of an error, for instance since its port is in use (datagram_source.cpp:57-59), is a success for
`vast import`. -/
theorem C187_import_refuted (c : Nat) :
    (Commands.import usual [.down .source (.error c)]).outcome = .returned none := rfl

/-- An error that a command returns has a cause: the step that failed, an actor that went down with this reason, the timeout, or the
importer that went down. -/
theorem C187_cause (env : Env) (ms : List Msg) (e : Err) :
    ((explore env ms).outcome = .returned (some e) → Cause env (explore env ms).log e) ∧
    ((pivot env ms).outcome = .returned (some e) → Cause env (pivot env ms).log e) ∧
    ((Commands.export env ms).outcome = .returned (some e) → Cause env (Commands.export env ms).log e) ∧
    ((Commands.import env ms).outcome = .returned (some e) → Cause env (Commands.import env ms).log e) := by
  refine ⟨fun h => ?_, fun h => ?_, fun h => ?_, fun h => ?_⟩
  · exact caused_step (caused_step (caused_step (caused_unless (caused_node (caused_step (caused_after
      (caused_leaving (caused_step (caused_unless (waitLoop_caused env ms)))))))))) e h
  · exact caused_step (caused_step (caused_unless (caused_node (caused_step (caused_after
      (caused_leaving (caused_step (caused_unless (caused_step (waitLoop_caused env ms)))))))))) e h
  · have base : Caused env (exportLoop false none ms) := fun x hx => by
      simpa using exportLoop_caused env ms false none [] (by simp) x hx
    exact caused_step (caused_after (caused_sinkGuard (caused_step (caused_node (caused_step (caused_after
      (caused_step base))))))) e h
  · refine caused_node (caused_step (caused_step (caused_step (caused_after ?_)))) e h
    intro x hx
    cases hr : env.fails .register with
    | true =>
      simp [hr] at hx
      subst hx
      exact hr
    | false =>
      simp only [hr, Bool.false_eq_true, if_false] at hx ⊢
      exact importLoop_caused env env.blocking ms x hx

-- the timeout of an export stays, although both actors go down as they were told
example : (Commands.export usual [.timeout, .down .sink .userShutdown, .down .exporter .userShutdown]).outcome =
    .returned (some .timeout) := by decide
example : (Commands.export usual [.down .exporter .normal]).outcome = .returned none := by decide
example : (explore usual [.down .sink (.error 3)]).outcome = .returned (some (.reason (.error 3))) := by decide
example : (Commands.import usual [.down .importer .normal]).outcome = .returned (some .remoteNodeDown) := by decide

/-! ## C188: a command comes to an end -/

/-- C188: `vast explore` and `vast pivot` return as soon as one of the actors that they monitor goes down, or at `Ctrl-C`. -/
theorem C188_explore (env : Env) (ms : List Msg)
    (hm : ∀ w r, .down w r ∈ ms → w = .sink ∨ w = .worker ∨ w = .node)
    (h : (∃ w r, .down w r ∈ ms) ∨ .signal true ∈ ms) :
    (∃ e, (explore env ms).outcome = .returned e) ∧ ∃ e, (pivot env ms).outcome = .returned e := by
  have base : Returned (waitLoop ms) := by
    refine returned_of (waitLoop_ends ms ?_) (waitLoop_ok ms hm)
    rcases h with ⟨w, r, h⟩ | h
    · exact ⟨_, h, .inl ⟨w, r, rfl⟩⟩
    · exact ⟨_, h, .inr rfl⟩
  exact ⟨returned_step (returned_step (returned_step (returned_unless (returned_node (returned_step (returned_after
      (returned_leaving (returned_step (returned_unless base))))))))),
    returned_step (returned_step (returned_unless (returned_node (returned_step (returned_after
      (returned_leaving (returned_step (returned_unless (returned_step base)))))))))⟩

/-- `vast export` returns when the exporter goes down, or it gets its report after the sink went down or the time was up; `Ctrl-C`
tells both to stop. -/
theorem C188_export (env : Env) (ms : List Msg) (hm : ∀ w r, .down w r ∈ ms → w = .sink ∨ w = .exporter)
    (h : ∃ r, .down .exporter r ∈ ms) : ∃ e, (Commands.export env ms).outcome = .returned e :=
  returned_step (returned_after (returned_sinkGuard (returned_step (returned_node (returned_step (returned_after
    (returned_step (returned_of (exportLoop_ends ms false none h) (exportLoop_ok ms false none hm)))))))))

/-- `vast import` returns when the importer goes down, when the source goes down, unless it is blocking, and when it is told that
everything is indexed. -/
theorem C188_import_partial (env : Env) (ms : List Msg) (hm : ∀ w r, .down w r ∈ ms → w = .source ∨ w = .importer)
    (h : (∃ r, .down .importer r ∈ ms) ∨ .flush ∈ ms ∨ (env.blocking = false ∧ ∃ r, .down .source r ∈ ms)) :
    ∃ e, (Commands.import env ms).outcome = .returned e := by
  have base : Returned (importLoop env.blocking ms) := by
    refine returned_of (importLoop_ends env.blocking ms ?_) (importLoop_ok env.blocking ms hm)
    rcases h with ⟨r, h⟩ | h | ⟨hb, r, h⟩
    · exact ⟨_, h, .inl ⟨r, rfl⟩⟩
    · exact ⟨_, h, .inr (.inl rfl)⟩
    · exact ⟨_, h, .inr (.inr ⟨hb, r, rfl⟩)⟩
  refine returned_node (returned_step (returned_step (returned_step (returned_after ?_))))
  split
  · exact ⟨_, rfl⟩
  · exact base

/-- `Ctrl-C` tells the actors of `vast export` and `vast import` to stop. -/
theorem C188_interrupt (env : Env) (ms : List Msg) :
    (.got (.signal true) ∈ (Commands.export env ms).log →
      .exit .exporter ∈ (Commands.export env ms).log ∧ .exit .sink ∈ (Commands.export env ms).log) ∧
    (.got (.signal true) ∈ (Commands.import env ms).log → .exit .source ∈ (Commands.import env ms).log) := by
  refine ⟨fun h => ⟨?_, ?_⟩, ?_⟩
  · exact obeys_step (obeys_start (obeys_sinkGuard (obeys_step (obeys_node (obeys_step (obeys_start (obeys_step
      (obeys_exportLoop (.inl rfl) ms false none)))))))) h
  · exact obeys_step (obeys_start (obeys_sinkGuard (obeys_step (obeys_node (obeys_step (obeys_start (obeys_step
      (obeys_exportLoop (.inr rfl) ms false none)))))))) h
  · refine obeys_node (obeys_step (obeys_step (obeys_step (obeys_start ?_))))
    split
    · intro h; simp at h
    · exact obeys_importLoop env.blocking ms

/-- A blocking import whose source is down cannot be interrupted: it goes on waiting, however often one presses `Ctrl-C`. -/
theorem C188_interrupt_refuted (r : Reason) (n : Nat) :
    (Commands.import { usual with blocking := true } (.down .source r :: List.replicate n (.signal true))).outcome =
      .waiting := by
  have : ∀ n, (importLoop true (List.replicate n (.signal true))).outcome = .waiting := by
    intro n
    induction n with
    | zero => rfl
    | succ n ih => simpa [List.replicate_succ, importLoop, after] using ih
  simpa [Commands.import, withNode, step, usual, after, importLoop] using this n

example : (explore usual [.report, .flush]).outcome = .waiting := by decide
example : (Commands.export usual [.signal true, .down .sink .userShutdown, .down .exporter .userShutdown]).outcome =
    .returned none := by decide

end Verif.Commands
