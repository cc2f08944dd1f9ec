import Verif.Pivot.Props
/-!
# C113: the end of a pivot
-/
namespace Verif.Pivot
open Verif.Types Verif.Data
open Spec (Batch)

variable {τ : Type} [DecidableEq τ]

/-- Exporters that ended or that could not be started. -/
def Spec.settled : List (Msg τ) → Nat
  | [] => 0
  | .failed :: ms => 1 + Spec.settled ms
  | .down :: ms => 1 + Spec.settled ms
  | _ :: ms => Spec.settled ms

/-- A course of events that can happen: an exporter comes to an end after it was asked for, and once, and the first query
delivers nothing after its final status. -/
structure Spec.Possible (target : Name) (ms : List (Msg τ)) : Prop where
  settled : ∀ pre post s out, ms = pre ++ post → run target {} pre = some (s, out) → Spec.settled pre ≤ out.length
  late : NoLate ms

/-- The first query and all exporters are done. -/
def Spec.Done (ms : List (Msg τ)) (queries : List Query) : Prop := .status ∈ ms ∧ Spec.settled ms = queries.length

omit [DecidableEq τ] in
theorem settled_snoc (ms : List (Msg τ)) (m : Msg τ) : Spec.settled (ms ++ [m]) = Spec.settled ms + Spec.settled [m] := by
  induction ms with
  | nil => simp [Spec.settled]
  | cons m' ms ih => cases m' <;> simp [Spec.settled, ih, Nat.add_assoc]

theorem possible_prefix {target : Name} {ms : List (Msg τ)} {m : Msg τ} (h : Spec.Possible target (ms ++ [m])) : Spec.Possible target ms :=
  ⟨fun pre post s out e => h.1 pre (post ++ [m]) s out (by rw [e, List.append_assoc]),
    fun pre n post e => h.2 pre n (post ++ [m]) (by rw [e, List.append_assoc]; rfl)⟩

omit [DecidableEq τ] in
theorem rev_ind {P : List (Msg τ) → Prop} (h0 : P []) (h1 : ∀ ms m, P ms → P (ms ++ [m])) (ms : List (Msg τ)) : P ms := by
  have : ∀ l : List (Msg τ), P l.reverse := by
    intro l
    induction l with
    | nil => exact h0
    | cons m l ih => rw [List.reverse_cons]; exact h1 _ _ ih
  simpa using this ms.reverse

theorem run_snoc {target : Name} {ms : List (Msg τ)} {m : Msg τ} {s : State τ} {out : List Query}
    (h : run target {} (ms ++ [m]) = some (s, out)) :
    ∃ s1 o1 q, run target {} ms = some (s1, o1) ∧ step target s1 m = some (s, q) ∧ out = o1 ++ q := by
  rw [run_append] at h
  cases h1 : run target {} ms with
  | none => rw [h1] at h; cases h
  | some x =>
    obtain ⟨s1, o1⟩ := x
    rw [h1] at h
    simp only [run] at h
    cases h2 : step target s1 m with
    | none => rw [h2] at h; cases h
    | some y =>
      obtain ⟨s2, q⟩ := y
      rw [h2] at h
      simp at h
      exact ⟨s1, o1, q, rfl, by rw [h2, h.1], h.2.symm⟩

theorem cache_run {target : Name} (ms : List (Msg τ)) : ∀ {s s' : State τ} {out : List Query}, CacheOk target s.cache →
    run target s ms = some (s', out) → CacheOk target s'.cache := by
  induction ms with
  | nil => intro s s' out hc h; simp [run] at h; rw [← h.1]; exact hc
  | cons m ms ih =>
    intro s s' out hc h
    obtain ⟨s1, q, qs, h1, h2, rfl⟩ := run_cons h
    exact ih (step_adds hc h1).1 h2

theorem slice_length {target : Name} {s : State τ} {b : Batch τ} {s' : State τ} {q : List Query} (hc : CacheOk target s.cache)
    (h : onSlice target s b = some (s', q)) : s'.running = s.running + q.length ∧ s'.completed = s.completed ∧ s'.quit = s.quit := by
  obtain ⟨_, h1, h2, h3⟩ := onSlice_cases hc h
  refine ⟨?_, h1, h2⟩
  rcases h3 with ⟨rfl, h, _⟩ | ⟨_, _, _, _, _, ⟨_, rfl, hr⟩ | ⟨_, rfl, hr⟩⟩
  · simp [h]
  · simp [hr]
  · simp [hr]

theorem life_inv {target : Name} (ms : List (Msg τ)) (hp : Spec.Possible target ms) : ∀ (s : State τ) (out : List Query),
    run target {} ms = some (s, out) →
    (s.quit = false → s.running + Spec.settled ms = out.length ∧ (s.completed = true ↔ .status ∈ ms))
    ∧ (s.quit = true → Spec.Done ms out) := by
  induction ms using rev_ind with
  | h0 => intro s out h; simp [run] at h; obtain ⟨rfl, rfl⟩ := h; simp [Spec.settled]
  | h1 ms m ih =>
    intro s out h
    obtain ⟨s1, o1, q, h1, h2, rfl⟩ := run_snoc h
    have hle := hp.settled (ms ++ [m]) [] s (o1 ++ q) (by simp) h
    have hc := cache_run ms (by simp [CacheOk]) h1
    obtain ⟨i1, i2⟩ := ih (possible_prefix hp) s1 o1 h1
    rw [settled_snoc] at hle ⊢
    rw [step.eq_def] at h2
    cases hq : s1.quit with
    | true =>
      rw [hq] at h2
      simp at h2
      obtain ⟨rfl, rfl⟩ := h2
      refine ⟨fun h => by (rw [hq] at h; cases h), fun _ => ?_⟩
      obtain ⟨d1, d2⟩ := i2 hq
      simp only [List.append_nil] at hle ⊢
      exact ⟨by simp [d1], by rw [settled_snoc]; omega⟩
    | false =>
      rw [if_neg (by rw [hq]; simp)] at h2
      obtain ⟨j1, j2⟩ := i1 hq
      cases m with
      | slice b =>
        simp only at h2
        obtain ⟨a1, a2, a3⟩ := slice_length hc h2
        simp only [Spec.settled] at hle ⊢
        refine ⟨fun _ => ⟨by rw [a1, List.length_append]; omega, by rw [a2, j2]; simp⟩, fun h => ?_⟩
        rw [a3, hq] at h; cases h
      | spawned =>
        simp at h2
        obtain ⟨rfl, rfl⟩ := h2
        simp only [Spec.settled, List.append_nil]
        exact ⟨fun _ => ⟨by omega, by rw [j2]; simp⟩, fun h => by rw [hq] at h; cases h⟩
      | failed =>
        simp at h2
        obtain ⟨rfl, rfl⟩ := h2
        simp only [Spec.settled, List.append_nil] at hle ⊢
        exact ⟨fun _ => ⟨by omega, by simp [j2]⟩, fun h => by simp [hq] at h⟩
      | down =>
        simp at h2
        obtain ⟨rfl, rfl⟩ := h2
        simp only [Spec.settled, List.append_nil] at hle ⊢
        obtain ⟨_, _, k1, k2, k3⟩ := quitIfDone_same { s1 with running := s1.running - 1 }
        refine ⟨fun _ => ⟨by rw [k2]; simp only; omega, by rw [k1]; simp [j2]⟩, fun h => ?_⟩
        rcases k3.mp h with h | ⟨h, h'⟩
        · simp only [hq] at h; cases h
        · refine ⟨by simp [j2.mp h], ?_⟩
          rw [settled_snoc]
          simp only [Spec.settled] at h' ⊢
          omega
      | status =>
        simp at h2
        obtain ⟨rfl, rfl⟩ := h2
        simp only [Spec.settled, List.append_nil] at hle ⊢
        obtain ⟨_, _, k1, k2, k3⟩ := quitIfDone_same { s1 with completed := true }
        refine ⟨fun _ => ⟨by rw [k2]; simp only; omega, by rw [k1]; simp⟩, fun h => ?_⟩
        rcases k3.mp h with h | ⟨_, h'⟩
        · simp only [hq] at h; cases h
        · refine ⟨by simp, ?_⟩
          rw [settled_snoc]
          simp only [Spec.settled] at h' ⊢
          omega

/-- **C113.**  The pivoter does not end before the first query and all exporters that it asked for are done. -/
theorem C113_not_early (target : Name) (ms : List (Msg τ)) (hp : Spec.Possible target ms) (s : State τ) (out : List Query)
    (h : run target {} ms = some (s, out)) (hq : s.quit = true) : Spec.Done ms out := (life_inv ms hp s out h).2 hq

/-- It ends as soon as they are done, unless the last thing that happens is that an exporter cannot be started. -/
theorem C113_ends_partial (target : Name) (ms : List (Msg τ)) (hp : Spec.Possible target ms) (s : State τ) (out : List Query)
    (h : run target {} ms = some (s, out)) (hd : Spec.Done ms out)
    (hlast : ∀ pre post s' out', ms = pre ++ .failed :: post → run target {} (pre ++ [.failed]) = some (s', out') →
      ¬ Spec.Done (pre ++ [.failed]) out') : s.quit = true := by
  induction ms using rev_ind generalizing s out with
  | h0 => simp [Spec.Done] at hd
  | h1 ms m ih =>
    obtain ⟨s1, o1, q, h1, h2, rfl⟩ := run_snoc h
    have hp' := possible_prefix hp
    have hle := hp'.settled ms [] s1 o1 (by simp) h1
    have hc := cache_run ms (by simp [CacheOk]) h1
    have ih := ih hp' s1 o1 h1
    obtain ⟨i1, i2⟩ := life_inv ms hp' s1 o1 h1
    obtain ⟨ds, hd⟩ := hd
    rw [settled_snoc, List.length_append] at hd
    have hfull := h2
    rw [step.eq_def] at h2
    cases hq : s1.quit with
    | true =>
      rw [hq] at h2
      simp at h2
      rw [← h2.1, hq]
    | false =>
      have ih : Spec.Done ms o1 → False := fun hdone => by
        have := ih hdone (fun pre post s' out' e => hlast pre (post ++ [m]) s' out' (by rw [e, List.append_assoc]; rfl))
        rw [hq] at this; cases this
      rw [if_neg (by rw [hq]; simp)] at h2
      obtain ⟨j1, j2⟩ := i1 hq
      cases m with
      | slice b =>
        simp only [Spec.settled] at hd
        exact absurd ⟨by simpa using ds, by omega⟩ ih
      | spawned =>
        simp at h2
        obtain ⟨rfl, rfl⟩ := h2
        simp only [Spec.settled, List.length_nil] at hd
        exact absurd ⟨by simpa using ds, by omega⟩ ih
      | failed =>
        refine absurd ⟨ds, ?_⟩ (hlast ms [] s (o1 ++ q) rfl h)
        rw [settled_snoc, List.length_append]; exact hd
      | down =>
        simp at h2
        obtain ⟨rfl, rfl⟩ := h2
        simp only [Spec.settled, List.length_nil] at hd
        exact (quitIfDone_same _).2.2.2.2.mpr (.inr ⟨j2.mpr (by simpa using ds), by simp only; omega⟩)
      | status =>
        simp at h2
        obtain ⟨rfl, rfl⟩ := h2
        simp only [Spec.settled, List.length_nil] at hd
        exact (quitIfDone_same _).2.2.2.2.mpr (.inr ⟨rfl, by simp only; omega⟩)

/-! ## Examples -/

example : (run (str "zeek.http") {} someMsgs).map (fun x => (x.1.quit, x.1.running)) = some (true, 0)
    ∧ (run (str "zeek.http") {} (someMsgs.take 4)).map (fun x => (x.1.quit, x.1.running)) = some (false, 1) := by decide +kernel

theorem someMsgs_possible : Spec.Possible (str "zeek.http") someMsgs := by
  refine ⟨fun pre post s out e h => ?_, someMsgs_noLate⟩
  have e' : pre = someMsgs.take pre.length := by rw [e]; simp
  have hl : pre.length ≤ 5 := by have := congrArg List.length e; simp [someMsgs] at this; omega
  have h' : (run (str "zeek.http") {} pre).map (·.2.length) = some out.length := by rw [h]; rfl
  have key : ∀ n ≤ 5, ((run (str "zeek.http") {} (someMsgs.take n)).map (·.2.length)).all
      (fun k => decide (Spec.settled (someMsgs.take n) ≤ k)) = true := by decide +kernel
  have := key pre.length hl
  rw [← e', h'] at this
  simpa using this

example : ∀ s out, run (str "zeek.http") {} someMsgs = some (s, out) → s.quit = true → Spec.Done someMsgs out :=
  fun s out h => C113_not_early _ _ someMsgs_possible s out h

example : ∀ s out, run (str "zeek.http") {} someMsgs = some (s, out) → s.quit = true := fun s out h =>
  C113_ends_partial _ _ someMsgs_possible s out h
    (by
      have h' : (run (str "zeek.http") {} someMsgs).map (·.2.length) = some out.length := by rw [h]; rfl
      have h2 : (run (str "zeek.http") {} someMsgs).map (·.2.length) = some 1 := by decide +kernel
      rw [h2] at h'
      exact ⟨by simp [someMsgs], by have : Spec.settled someMsgs = 1 := by decide +kernel
                                    rw [this]; exact Option.some.inj h'⟩)
    (fun pre post s' out' e => by
      have : Msg.failed ∈ someMsgs := by rw [e]; simp
      simp [someMsgs] at this)

/-- If the last thing that happens is that an exporter cannot be started, the pivoter does not end although all is done. -/
theorem C113_failed_refuted : ∃ (ms : List (Msg Nat)) (s : State Nat) (out : List Query),
    run (str "zeek.http") {} ms = some (s, out) ∧ Spec.Done ms out ∧ s.quit = false ∧ s.running = 0 := by
  let ms : List (Msg Nat) := [.slice (conns [row "x" "a" "c"]), .status, .failed]
  have h : (run (str "zeek.http") {} ms).map (fun x => (x.2.length, x.1.quit, x.1.running)) = some (1, false, 0) := by decide +kernel
  cases hr : run (str "zeek.http") {} ms with
  | none => rw [hr] at h; cases h
  | some x =>
    obtain ⟨s, out⟩ := x
    rw [hr] at h
    simp at h
    refine ⟨ms, s, out, hr, ⟨by simp [ms], ?_⟩, h.2.1, h.2.2⟩
    rw [h.1]; rfl

end Verif.Pivot
