import Verif.Explorer.Model
/-!
C93: the end of an exploration.
-/
namespace Verif.Explorer

/-- Queries asked for. -/
def Spec.asked : List Msg → Nat
  | [] => 0
  | .initial n :: ms => n + Spec.asked ms
  | _ :: ms => Spec.asked ms

/-- Queries that came to an end, or that could not be started. -/
def Spec.settled : List Msg → Nat
  | [] => 0
  | .failed :: ms => 1 + Spec.settled ms
  | .down :: ms => 1 + Spec.settled ms
  | _ :: ms => Spec.settled ms

/-- A course of events that can happen: a query comes to an end after it was asked for, and once, and the first query delivers
nothing after its final status. -/
structure Spec.Possible (ms : List Msg) : Prop where
  settled : ∀ pre post, ms = pre ++ post → Spec.settled pre ≤ Spec.asked pre
  status : ∀ pre n post, ms = pre ++ .initial n :: post → Msg.status ∉ pre

/-- All is done. -/
def Spec.Done (ms : List Msg) : Prop := Msg.status ∈ ms ∧ Spec.settled ms = Spec.asked ms

theorem asked_append (a b : List Msg) : Spec.asked (a ++ b) = Spec.asked a + Spec.asked b := by
  induction a with
  | nil => simp [Spec.asked]
  | cons m a ih => cases m <;> simp [Spec.asked, ih, Nat.add_assoc]

theorem settled_append (a b : List Msg) : Spec.settled (a ++ b) = Spec.settled a + Spec.settled b := by
  induction a with
  | nil => simp [Spec.settled]
  | cons m a ih => cases m <;> simp [Spec.settled, ih, Nat.add_assoc]

/-- The state after messages. -/
def life (ms : List Msg) : Life := ms.foldl lifeStep ⟨0, false, false⟩

theorem life_snoc (ms : List Msg) (m : Msg) : life (ms ++ [m]) = lifeStep (life ms) m := by simp [life, List.foldl_append]

theorem possible_prefix {ms : List Msg} {m : Msg} (h : Spec.Possible (ms ++ [m])) : Spec.Possible ms :=
  ⟨fun pre post e => h.1 pre (post ++ [m]) (by rw [e, List.append_assoc]),
    fun pre n post e => h.2 pre n (post ++ [m]) (by rw [e, List.append_assoc]; rfl)⟩

theorem rev_ind {P : List Msg → Prop} (h0 : P []) (h1 : ∀ ms m, P ms → P (ms ++ [m])) (ms : List Msg) : P ms := by
  have : ∀ l : List Msg, P l.reverse := by
    intro l
    induction l with
    | nil => exact h0
    | cons m l ih => rw [List.reverse_cons]; exact h1 _ _ ih
  simpa using this ms.reverse

theorem life_inv (ms : List Msg) (hp : Spec.Possible ms) :
    ((life ms).quit = false → (life ms).running + Spec.settled ms = Spec.asked ms ∧ ((life ms).completed = true ↔ Msg.status ∈ ms))
    ∧ ((life ms).quit = true → ∃ pre post, ms = pre ++ post ∧ Spec.Done pre) := by
  induction ms using rev_ind with
  | h0 => simp [life, Spec.settled, Spec.asked]
  | h1 ms m ih =>
    have ih := ih (possible_prefix hp)
    have hle := hp.settled (ms ++ [m]) [] (by simp)
    rw [settled_append, asked_append] at hle
    rw [life_snoc]
    cases hq : (life ms).quit with
    | true =>
      have e : lifeStep (life ms) m = life ms := by simp [lifeStep, hq]
      rw [e, hq]
      refine ⟨by simp, fun _ => ?_⟩
      obtain ⟨pre, post, e1, e2⟩ := ih.2 hq
      exact ⟨pre, post ++ [m], by rw [e1, List.append_assoc], e2⟩
    | false =>
      obtain ⟨i1, i2⟩ := ih.1 hq
      cases m with
      | initial n =>
        simp [lifeStep, hq, asked_append, settled_append, Spec.asked, Spec.settled, i2]
        omega
      | spawned => simp [lifeStep, hq, asked_append, settled_append, Spec.asked, Spec.settled, i2, i1]
      | failed =>
        simp only [Spec.settled, Spec.asked] at hle
        simp [lifeStep, hq, asked_append, settled_append, Spec.asked, Spec.settled, i2]
        omega
      | down =>
        simp only [Spec.settled, Spec.asked] at hle
        simp only [lifeStep, hq, quitIfDone, Bool.false_eq_true, if_false]
        split
        · rename_i hd
          refine ⟨by simp, fun _ => ⟨ms ++ [.down], [], by simp, ?_, ?_⟩⟩
          · simpa using i2.mp hd.1
          · rw [asked_append, settled_append]
            simp only [Spec.settled, Spec.asked]
            have := hd.2
            omega
        · refine ⟨fun _ => ⟨?_, ?_⟩, fun h => by simp at h⟩
          · rw [asked_append, settled_append]; simp only [Spec.settled, Spec.asked]; omega
          · simpa using i2
      | status =>
        simp only [Spec.settled, Spec.asked] at hle
        simp only [lifeStep, hq, quitIfDone, Bool.false_eq_true, if_false]
        split
        · rename_i hd
          refine ⟨by simp, fun _ => ⟨ms ++ [.status], [], by simp, by simp, ?_⟩⟩
          rw [asked_append, settled_append]
          simp only [Spec.settled, Spec.asked]
          have := hd.2
          omega
        · refine ⟨fun _ => ⟨?_, by simp⟩, fun h => by simp at h⟩
          rw [asked_append, settled_append]; simp only [Spec.settled, Spec.asked]; omega

/-- The explorer does not end before the first query and all queries made for its results are done. -/
theorem C93_not_early (ms : List Msg) (hp : Spec.Possible ms) (hq : (life ms).quit = true) : Spec.Done ms := by
  obtain ⟨pre, post, e, hs, hd⟩ := (life_inv ms hp).2 hq
  have no : ∀ l : List Msg, Spec.asked l ≠ 0 → ∃ a n b, l = a ++ .initial n :: b := by
    intro l h
    induction l with
    | nil => simp [Spec.asked] at h
    | cons m l ih =>
      cases m with
      | initial n => exact ⟨[], n, l, rfl⟩
      | _ => obtain ⟨a, n, b, e⟩ := ih (by simpa [Spec.asked] using h); exact ⟨_ :: a, n, b, by rw [e]; rfl⟩
  have h0 : Spec.asked post = 0 := by
    apply Classical.byContradiction
    intro h
    obtain ⟨a, n, b, e'⟩ := no post h
    exact hp.status (pre ++ a) n b (by rw [e, e', List.append_assoc]) (by simp [hs])
  have h1 := hp.settled ms [] (by simp)
  rw [e, settled_append, asked_append] at h1
  refine ⟨by rw [e]; simp [hs], ?_⟩
  rw [e, settled_append, asked_append]
  omega

/-- It ends as soon as they are done, unless the last thing that happens is that a query cannot be started. -/
theorem C93_ends_partial (ms : List Msg) (hp : Spec.Possible ms) (hd : Spec.Done ms)
    (hlast : ∀ pre post, ms = pre ++ .failed :: post → ¬ Spec.Done (pre ++ [.failed])) : (life ms).quit = true := by
  induction ms using rev_ind with
  | h0 => simp [Spec.Done] at hd
  | h1 ms m ih =>
    have hp' := possible_prefix hp
    have hle := hp'.settled ms [] (by simp)
    obtain ⟨hs, hd⟩ := hd
    rw [settled_append, asked_append] at hd
    rw [life_snoc]
    cases hq : (life ms).quit with
    | true => simp [lifeStep, hq]
    | false =>
      have ih : Spec.Done ms → False := fun h => by
        have := ih hp' h (fun pre post e => hlast pre (post ++ [m]) (by rw [e, List.append_assoc]; rfl))
        simp [this] at hq
      obtain ⟨i1, i2⟩ := (life_inv ms hp').1 hq
      cases m with
      | initial n =>
        simp only [Spec.settled, Spec.asked] at hd
        exact absurd ⟨by simpa using hs, by omega⟩ ih
      | spawned => exact absurd ⟨by simpa using hs, by simpa [Spec.settled, Spec.asked] using hd⟩ ih
      | failed =>
        refine absurd ⟨hs, ?_⟩ (hlast ms [] rfl)
        rw [settled_append, asked_append]; exact hd
      | down =>
        simp only [Spec.settled, Spec.asked] at hd
        have h1 : (life ms).completed = true := i2.mpr (by simpa using hs)
        have h2 : (life ms).running = 1 := by omega
        simp [lifeStep, hq, quitIfDone, h1, h2]
      | status =>
        simp only [Spec.settled, Spec.asked] at hd
        have h2 : (life ms).running = 0 := by omega
        simp [lifeStep, hq, quitIfDone, h2]

/-- Two queries of which one cannot be started; the other one ends after the first query. -/
example : let ms : List Msg := [.initial 2, .failed, .spawned, .status, .down]
    Spec.Done ms ∧ (life ms).quit = true ∧ (life [.initial 2, .failed, .spawned, .status]).quit = false := by
  refine ⟨⟨by decide, by decide⟩, by decide, by decide⟩

example : Spec.Possible [.initial 2, .failed, .spawned, .status, .down] := by
  constructor
  · intro pre post e
    have : pre = ([.initial 2, .failed, .spawned, .status, .down] : List Msg).take pre.length := by rw [e]; simp
    have hl : pre.length ≤ 5 := by have := congrArg List.length e; simp at this; omega
    rw [this]
    generalize pre.length = n at hl
    revert hl; revert n; decide
  · intro pre n post e
    cases pre with
    | nil => simp
    | cons a pre =>
      exfalso
      simp at e
      have : Msg.initial n ∈ ([.failed, .spawned, .status, .down] : List Msg) := by rw [e.2]; simp
      simp at this

/-- If the last thing that happens is that a query cannot be started, the explorer does not end although all is done. -/
theorem C93_failed_refuted : Spec.Done [.initial 1, .status, .failed] ∧ (life [.initial 1, .status, .failed]).quit = false := by
  exact ⟨⟨by decide, by decide⟩, by decide⟩

end Verif.Explorer
