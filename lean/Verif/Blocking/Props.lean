import Verif.Blocking.Starve
import Verif.Blocking.End
/-! # C122, C123: blocking imports -/
namespace Verif.Blocking
open Spec

/-! ## C122: after a blocking import, its events are found -/

/-- What holds: the index has them all, if it had got them all (`hr`) when it got the subscription, and if they are all in the
partition that is still active at the end (`ha`).  Anything may happen besides, in any order. -/
theorem C122_indexed_partial (cap : Nat) (before after : List Event) (hs : (run cap before).sub = .index)
    (hr : ∀ x ∈ (run cap before).slices, x.own = true → ¬ EnRoute x)
    (hf : (run cap (before ++ .subscribe :: after)).sub = .flushed)
    (ha : ∀ x ∈ (run cap (before ++ .subscribe :: after)).slices, x.own = true →
      (run cap (before ++ .subscribe :: after)).active = some x.part) :
    ∀ x ∈ (run cap (before ++ .subscribe :: after)).slices, x.own = true → x.pos = .indexed := by
  have hi := inv_run cap before
  have hl : ∀ x ∈ (run cap before).slices, x.own = true → x.left = true := by
    intro x hx ho
    cases hp : x.pos with
    | hop n => exact absurd ⟨n, hp⟩ (hr x hx ho)
    | _ => unfold Slice.left; rw [hp]
  have hown := own_subscribe (cap := cap) hi hs hl
  have hi' := inv_step (cap := cap) hi .subscribe
  have h := own_runFrom (cap := cap) hi' hown after
  have h' := inv_run cap (before ++ .subscribe :: after)
  have he : run cap (before ++ .subscribe :: after) = runFrom cap (step cap (run cap before) .subscribe) after := by
    rw [run_append]; rfl
  rw [← he] at h
  intro x hx ho
  exact h.flushed hf x hx ho (h'.some x.part (ha x hx ho))

/-- A schedule in which two slices are indexed before the client gets its answer, while another client imports. -/
def goodBefore : List Event :=
  [.push true 3, .push true 4, .move 0, .move 1, .move 0, .move 1, .move 0, .move 1, .move 0, .ended, .move 1, .push false 2, .forward]
/-- The rest of it. -/
def goodAfter : List Event :=
  [.move 0, .move 1, .ackIndex 0, .move 2, .ackIndex 1, .move 0, .listen, .move 1, .ackPart 1, .ackPart 0]

example : (run 10 goodBefore).sub = .index ∧ (∀ x ∈ (run 10 goodBefore).slices, x.own = true → ¬ EnRoute x) ∧
    (run 10 (goodBefore ++ .subscribe :: goodAfter)).sub = .flushed ∧
    (∀ x ∈ (run 10 (goodBefore ++ .subscribe :: goodAfter)).slices, x.own = true →
      (run 10 (goodBefore ++ .subscribe :: goodAfter)).active = some x.part) ∧
    ((run 10 (goodBefore ++ .subscribe :: goodAfter)).slices.filter (·.own)).length = 2 := by
  refine ⟨by decide, ?_, by decide, by decide, by decide⟩
  intro x hx ho
  have h : ∀ x ∈ (run 10 goodBefore).slices, x.own = true → x.pos = .partition := by decide
  rintro ⟨n, hn⟩
  rw [h x hx ho] at hn
  cases hn

/-- Not all of it holds: the subscription overtakes the events, which do not even have reached the importer. -/
theorem C122_route_refuted (cap : Nat) : ∃ es, (run cap es).sub = .flushed ∧ ∃ x ∈ (run cap es).slices, x.own = true ∧ EnRoute x :=
  ⟨[.push true 1, .ended, .forward, .subscribe], rfl, _, List.mem_singleton.mpr rfl, rfl, 0, rfl⟩

/-- Even if the index had all the events: those that are in a partition that is full may be under way to its indexers. -/
theorem C122_partition_refuted (cap : Nat) : ∃ before after, (run cap before).sub = .index ∧
    (∀ x ∈ (run cap before).slices, x.own = true ∧ ¬ EnRoute x) ∧ (run cap (before ++ .subscribe :: after)).sub = .flushed ∧
    ∃ x ∈ (run cap (before ++ .subscribe :: after)).slices, x.pos = .indexers := by
  refine ⟨[.push true 1, .push true (cap + 1), .move 0, .move 1, .move 0, .move 1, .move 0, .move 1, .move 0, .move 1, .ended, .forward],
    [.move 0, .move 1, .ackIndex 0, .ackIndex 1, .move 1, .ackPart 1, .listen], ?_⟩
  have h : cap + 1 > cap - 1 := by omega
  refine ⟨?_, ?_, ?_, ?_⟩
  · simp [run, runFrom, step, State.move, State.toPartition, h]
  · intro x hx
    simp [run, runFrom, step, State.move, State.toPartition, h] at hx
    unfold EnRoute
    rcases hx with rfl | rfl <;> simp
  · simp [run, runFrom, step, State.move, State.toPartition, h, State.checkIndex, State.checkPart, Slice.handled, State.indexClean,
      State.partClean, Slice.left]
  · refine ⟨{ own := true, rows := 1, pos := .indexers, part := 0, ackIndex := true, sent := true }, ?_, rfl⟩
    simp [run, runFrom, step, State.move, State.toPartition, h, State.checkIndex, State.checkPart, Slice.handled, State.indexClean,
      State.partClean, Slice.left]

/-- Even if the indexers have the events, the store may not have them, so that a query does not give them. -/
theorem C122_store_refuted (cap : Nat) : ∃ before after, (run cap before).sub = .index ∧
    (∀ x ∈ (run cap before).slices, x.own = true ∧ ¬ EnRoute x) ∧ (run cap (before ++ .subscribe :: after)).sub = .flushed ∧
    (run cap (before ++ .subscribe :: after)).parts = 1 ∧
    ∃ x ∈ (run cap (before ++ .subscribe :: after)).slices, x.pos = .indexed ∧ ¬ Found x := by
  refine ⟨[.push true 1, .move 0, .move 0, .move 0, .move 0, .ended, .forward],
    [.move 0, .ackIndex 0, .move 0, .ackPart 0, .listen], rfl, ?_, ?_, ?_,
    { own := true, rows := 1, pos := .indexed, part := 0, ackIndex := true, ackPart := true, sent := true }, ?_, rfl, ?_⟩
  · intro x hx
    simp [run, runFrom, step, State.move, State.toPartition] at hx
    unfold EnRoute
    subst hx
    simp
  all_goals simp [run, runFrom, step, State.move, State.toPartition, State.checkIndex, State.checkPart, Slice.handled, State.indexClean,
      State.partClean, Slice.left, Found]

/-! ## C123: a blocking import ends -/

/-- Whatever has happened and whoever else has imported: if no slices come any more, then only a limited number of things can happen,
and when there is nothing left to do the client has its answer. -/
theorem C123_ends (cap : Nat) (before after : List Event) (h : Progress cap (run cap before) after) :
    after.length ≤ 10 * (run cap before).slices.length + 6 ∧
      (Still cap (run cap (before ++ after)) → (run cap (before ++ after)).sub = .flushed) := by
  refine ⟨Nat.le_trans (progress_work (inv_run cap before) h) (work_le _), ?_⟩
  intro hs
  refine stuck (inv_run cap _) (fun e he => hs e ?_)
  rintro own rows rfl
  cases he

/-- An execution in which everything that can happen has happened. -/
example : Progress 10 (run 10 [.push true 3]) [.move 0, .ended, .move 0, .move 0, .forward, .store 0, .move 0, .subscribe, .move 0, .move 0,
    .ackPart 0, .ackIndex 0, .listen] := by
  refine ⟨nofun, fun h => ?_, nofun, fun h => ?_, nofun, fun h => ?_, nofun, fun h => ?_, nofun, fun h => ?_, nofun, fun h => ?_, nofun,
    fun h => ?_, nofun, fun h => ?_, nofun, fun h => ?_, nofun, fun h => ?_, nofun, fun h => ?_, nofun, fun h => ?_, nofun, fun h => ?_, trivial⟩ <;>
    first
    | (have := congrArg State.sub h; revert this; decide)
    | (have := congrArg State.slices h; revert this; decide)

/-- As long as others import, there is no limit: any number of slices of others are done, and all of the client's own, and it still
waits. -/
theorem C123_starved_refuted (cap n : Nat) : ∃ es, (run cap es).sub = .waiting ∧ (run cap es).slices.length = n + 2 ∧
    ((run cap es).slices.head?.map Slice.own = some true) ∧
    ∀ x ∈ (run cap es).slices.dropLast, x.pos = .indexed ∧ x.ackIndex = true ∧ x.ackPart = true := by
  obtain ⟨hw, xs, x, hs, hk, hxs, _, _, ho⟩ := starving_run cap (n + 1)
  refine ⟨cycles (n + 1), hw, ?_, ho, ?_⟩
  · rw [hs]; simp [hk]
  · rw [hs, List.dropLast_concat]
    exact hxs

end Verif.Blocking
