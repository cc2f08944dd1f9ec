import Verif.Combinator.Lemmas
namespace Verif.Combinator
open Spec
variable {α : Type} [DecidableEq α]

theorem Good.yes {fuel : Nat} {p : Parser α} (h : Good fuel p) {s t : List α} (e : p.run fuel s = some (true, t)) : Accepts p s (some t) := (h _ _ _ e).1 rfl
theorem Good.no {fuel : Nat} {p : Parser α} (h : Good fuel p) {s t : List α} (e : p.run fuel s = some (false, t)) : Accepts p s none := ((h _ _ _ e).2 rfl).1
theorem Good.back {fuel : Nat} {p : Parser α} (h : Good fuel p) (hr : restores p = true) {s t : List α} (e : p.run fuel s = some (false, t)) : t = s :=
  ((h _ _ _ e).2 rfl).2 hr

theorem Good.iter {fuel : Nat} {p : Parser α} (h : Good fuel p) (hr : restores p = true) {k : Nat} {s x y : List α} (e : iter (p.run fuel) k s = some (x, y)) :
    ∃ n, Many (fun a b => Accepts p a (some b)) n s y ∧ Accepts p y none := by
  obtain ⟨n, h1, h2⟩ := iter_spec _ _ _ _ _ e
  have hb := h.back hr h2
  subst hb
  exact ⟨n, Many.mono (fun a b e => h.yes e) h1, h.no h2⟩

theorem good (fuel : Nat) : ∀ p : Parser α, proper p = true → Good fuel p
  | .eps, _, s, b, t, h => by
    simp only [Parser.run, Option.some.injEq, Prod.mk.injEq] at h
    obtain ⟨rfl, rfl⟩ := h
    exact ⟨fun _ => rfl, fun h => (by cases h)⟩
  | .eoi, _, s, b, t, h => by
    simp only [Parser.run, Option.some.injEq, Prod.mk.injEq] at h
    obtain ⟨rfl, rfl⟩ := h
    cases s with
    | nil => exact ⟨fun _ => .inl ⟨rfl, rfl⟩, fun h => (by cases h)⟩
    | cons c s => exact ⟨fun h => (by cases h), fun _ => ⟨.inr ⟨by simp, rfl⟩, fun _ => rfl⟩⟩
  | .sat p, _, [], b, t, h => by
    simp only [Parser.run, Option.some.injEq, Prod.mk.injEq] at h
    obtain ⟨rfl, rfl⟩ := h
    exact ⟨fun h => (by cases h), fun _ => ⟨.inr ⟨fun _ _ e => (by cases e), rfl⟩, fun _ => rfl⟩⟩
  | .sat p, _, c :: s, b, t, h => by
    rw [Parser.run] at h
    split at h <;> rename_i hp <;> simp only [Option.some.injEq, Prod.mk.injEq] at h <;> obtain ⟨rfl, rfl⟩ := h
    · exact ⟨fun _ => .inl ⟨c, s, rfl, hp, rfl⟩, fun h => (by cases h)⟩
    · refine ⟨fun h => (by cases h), fun _ => ⟨.inr ⟨?_, rfl⟩, fun _ => rfl⟩⟩
      intro c' t' e
      cases e
      simpa using hp
  | .lit w, _, s, b, t, h => by
    rw [Parser.run] at h
    split at h <;> rename_i e <;> simp only [Option.some.injEq, Prod.mk.injEq] at h <;> obtain ⟨rfl, rfl⟩ := h
    · exact ⟨fun _ => .inl ⟨_, (strip_some w s _).mp e, rfl⟩, fun h => (by cases h)⟩
    · refine ⟨fun h => (by cases h), fun _ => ⟨.inr ⟨?_, rfl⟩, fun _ => rfl⟩⟩
      intro t' e'
      rw [(strip_some w s t').mpr e'] at e
      cases e
  | .symbols ks, hp, s, b, t, h => by
    have hne : ∀ k ∈ ks, k ≠ [] := by
      intro k hk
      have := List.all_eq_true.mp hp k hk
      simpa using this
    obtain ⟨h1, h2, h3⟩ := longest_spec s ks 0
    rw [Parser.run] at h
    split at h <;> rename_i e <;> simp only [Option.some.injEq, Prod.mk.injEq] at h <;> obtain ⟨rfl, rfl⟩ := h
    · refine ⟨fun h => (by cases h), fun _ => ⟨.inr ⟨?_, rfl⟩, fun _ => rfl⟩⟩
      intro k hk hpre
      have := h2 k hk hpre
      rw [e] at this
      exact hne k hk (List.length_eq_zero_iff.mp (by omega))
    · refine ⟨fun _ => .inl ?_, fun h => (by cases h)⟩
      rcases h3 with h3 | ⟨k, hk, ⟨u, hu⟩, hl⟩
      · exact absurd h3 e
      · refine ⟨k, hk, u, hu.symm, ?_, fun k' hk' hpre => by rw [hl]; exact h2 k' hk' hpre⟩
        rw [← hl, ← hu]; simp
  | .skip n, hp, _, _, _, _ => by cases hp
  | .seq p q, hp, s, b, t, h => by
    simp only [proper, Bool.and_eq_true] at hp
    have gp := good fuel p hp.1
    have gq := good fuel q hp.2
    rw [Parser.run] at h
    split at h
    · cases h
    · rename_i u e
      simp only [Option.some.injEq, Prod.mk.injEq] at h
      obtain ⟨rfl, rfl⟩ := h
      exact ⟨fun h => (by cases h), fun _ => ⟨.inr ⟨gp.no e, rfl⟩, fun _ => rfl⟩⟩
    · rename_i u e
      split at h
      · cases h
      · rename_i v e'
        simp only [Option.some.injEq, Prod.mk.injEq] at h
        obtain ⟨rfl, rfl⟩ := h
        exact ⟨fun h => (by cases h), fun _ => ⟨.inl ⟨u, gp.yes e, gq.no e'⟩, fun _ => rfl⟩⟩
      · rename_i v e'
        simp only [Option.some.injEq, Prod.mk.injEq] at h
        obtain ⟨rfl, rfl⟩ := h
        exact ⟨fun _ => .inl ⟨u, gp.yes e, gq.yes e'⟩, fun h => (by cases h)⟩
  | .choice p q, hp, s, b, t, h => by
    simp only [proper, Bool.and_eq_true] at hp
    have gp := good fuel p hp.1
    have gq := good fuel q hp.2
    rw [Parser.run] at h
    split at h
    · cases h
    · rename_i u e
      simp only [Option.some.injEq, Prod.mk.injEq] at h
      obtain ⟨rfl, rfl⟩ := h
      exact ⟨fun _ => .inl ⟨u, gp.yes e, rfl⟩, fun h => (by cases h)⟩
    · rename_i u e
      split at h
      · cases h
      · rename_i v e'
        simp only [Option.some.injEq, Prod.mk.injEq] at h
        obtain ⟨rfl, rfl⟩ := h
        exact ⟨fun _ => .inr ⟨gp.no e, gq.yes e'⟩, fun h => (by cases h)⟩
      · rename_i v e'
        simp only [Option.some.injEq, Prod.mk.injEq] at h
        obtain ⟨rfl, rfl⟩ := h
        exact ⟨fun h => (by cases h), fun _ => ⟨.inr ⟨gp.no e, gq.no e'⟩, fun _ => rfl⟩⟩
  | .kleene p, hp, s, b, t, h => by
    simp only [proper, Bool.and_eq_true] at hp
    have gp := good fuel p hp.1
    rw [Parser.run, Option.map_eq_some_iff] at h
    obtain ⟨⟨x, y⟩, h1, h2⟩ := h
    simp only [Prod.mk.injEq] at h2
    obtain ⟨rfl, rfl⟩ := h2
    obtain ⟨n, h3, h4⟩ := gp.iter hp.2 h1
    exact ⟨fun _ => ⟨n, _, h3, h4, rfl⟩, fun h => (by cases h)⟩
  | .plus p, hp, s, b, t, h => by
    simp only [proper, Bool.and_eq_true] at hp
    have gp := good fuel p hp.1
    rw [Parser.run] at h
    split at h
    · cases h
    · rename_i u e
      simp only [Option.some.injEq, Prod.mk.injEq] at h
      obtain ⟨rfl, rfl⟩ := h
      exact ⟨fun h => (by cases h), fun _ => ⟨.inr ⟨gp.no e, rfl⟩, fun hr => gp.back hr e⟩⟩
    · rename_i u e
      rw [Option.map_eq_some_iff] at h
      obtain ⟨⟨x, y⟩, h1, h2⟩ := h
      simp only [Prod.mk.injEq] at h2
      obtain ⟨rfl, rfl⟩ := h2
      obtain ⟨n, h3, h4⟩ := gp.iter hp.2 h1
      exact ⟨fun _ => .inl ⟨n, _, ⟨u, gp.yes e, h3⟩, h4, rfl⟩, fun h => (by cases h)⟩
  | .opt p, hp, s, b, t, h => by
    simp only [proper, Bool.and_eq_true] at hp
    have gp := good fuel p hp.1
    rw [Parser.run, Option.map_eq_some_iff] at h
    obtain ⟨⟨x, y⟩, h1, h2⟩ := h
    simp only [Prod.mk.injEq] at h2
    obtain ⟨rfl, rfl⟩ := h2
    refine ⟨fun _ => ?_, fun h => (by cases h)⟩
    cases x with
    | true => exact .inl ⟨_, gp.yes h1, rfl⟩
    | false => exact .inr ⟨gp.no h1, by rw [gp.back hp.2 h1]⟩
  | .list p q, hp, s, b, t, h => by
    simp only [proper, Bool.and_eq_true] at hp
    have gp := good fuel p hp.1
    have gq := good fuel q hp.2
    rw [Parser.run] at h
    split at h
    · cases h
    · rename_i u e
      simp only [Option.some.injEq, Prod.mk.injEq] at h
      obtain ⟨rfl, rfl⟩ := h
      exact ⟨fun h => (by cases h), fun _ => ⟨.inr ⟨gp.no e, rfl⟩, fun hr => gp.back hr e⟩⟩
    · rename_i u e
      rw [Option.map_eq_some_iff] at h
      obtain ⟨⟨x, y⟩, h1, h2⟩ := h
      simp only [Prod.mk.injEq] at h2
      obtain ⟨rfl, rfl⟩ := h2
      obtain ⟨n, h3, h4⟩ := iter_spec _ _ _ _ _ h1
      refine ⟨fun _ => .inl ⟨u, n, _, gp.yes e, Many.mono ?_ h3, ?_, rfl⟩, fun h => (by cases h)⟩
      · intro a b e'
        unfold both at e'
        split at e'
        · cases e'
        · cases e'
        · rename_i m em
          exact ⟨m, gq.yes em, gp.yes e'⟩
      · unfold both at h4
        split at h4
        · cases h4
        · rename_i m em
          exact .inl (gq.no em)
        · rename_i m em
          exact .inr ⟨m, gq.yes em, gp.no h4⟩
  | .conj p, hp, s, b, t, h => by
    have gp := good fuel p hp
    rw [Parser.run, Option.map_eq_some_iff] at h
    obtain ⟨⟨x, y⟩, h1, h2⟩ := h
    simp only [Prod.mk.injEq] at h2
    obtain ⟨rfl, rfl⟩ := h2
    cases x with
    | true => exact ⟨fun _ => .inl ⟨_, gp.yes h1, rfl⟩, fun h => (by cases h)⟩
    | false => exact ⟨fun h => (by cases h), fun _ => ⟨.inr ⟨gp.no h1, rfl⟩, fun _ => rfl⟩⟩
  | .neg p, hp, s, b, t, h => by
    have gp := good fuel p hp
    rw [Parser.run, Option.map_eq_some_iff] at h
    obtain ⟨⟨x, y⟩, h1, h2⟩ := h
    simp only [Prod.mk.injEq] at h2
    obtain ⟨rfl, rfl⟩ := h2
    cases x with
    | true => exact ⟨fun h => (by cases h), fun _ => ⟨.inl ⟨_, gp.yes h1, rfl⟩, fun _ => rfl⟩⟩
    | false => exact ⟨fun _ => .inr ⟨gp.no h1, rfl⟩, fun h => (by cases h)⟩
  | .diff p q, hp, s, b, t, h => by
    simp only [proper, Bool.and_eq_true] at hp
    have gp := good fuel p hp.1.1
    have gq := good fuel q hp.1.2
    rw [Parser.run] at h
    split at h
    · cases h
    · rename_i u e
      have hb := gq.back hp.2 e
      subst hb
      refine ⟨fun hb => .inr ⟨gq.no e, (gp _ _ _ h).1 hb⟩, fun hb => ⟨.inr ⟨gq.no e, ((gp _ _ _ h).2 hb).1⟩, fun hr => ((gp _ _ _ h).2 hb).2 hr⟩⟩
    · rename_i u e
      simp only [Option.some.injEq, Prod.mk.injEq] at h
      obtain ⟨rfl, rfl⟩ := h
      exact ⟨fun h => (by cases h), fun _ => ⟨.inl ⟨u, gq.yes e, rfl⟩, fun _ => rfl⟩⟩
  | .rep p mn mx, hp, s, b, t, h => by
    simp only [proper, Bool.and_eq_true, decide_eq_true_eq] at hp
    have gp := good fuel p hp.1.1
    rw [Parser.run] at h
    split at h
    · rename_i h0
      simp only [Option.some.injEq, Prod.mk.injEq] at h
      obtain ⟨rfl, rfl⟩ := h
      exact ⟨fun _ => ⟨0, _, rfl, .inl h0.symm, .inl ⟨by omega, rfl⟩⟩, fun h => (by cases h)⟩
    · rw [Option.map_eq_some_iff] at h
      obtain ⟨⟨n, u⟩, h1, h2⟩ := h
      have key : Many (fun a b => Accepts p a (some b)) n s u ∧ (n = mx ∨ (n < mx ∧ Accepts p u none)) := by
        rcases times_spec _ _ _ _ _ h1 with ⟨h3, h4⟩ | ⟨h3, v, h4, h5⟩
        · exact ⟨Many.mono (fun a b e => gp.yes e) h4, .inl h3⟩
        · have hb := gp.back hp.1.2 h5
          subst hb
          exact ⟨Many.mono (fun a b e => gp.yes e) h4, .inr ⟨h3, gp.no h5⟩⟩
      split at h2 <;> rename_i hc <;> simp only [Prod.mk.injEq] at h2 <;> obtain ⟨rfl, rfl⟩ := h2
      · exact ⟨fun _ => ⟨n, _, key.1, key.2, .inl ⟨hc, rfl⟩⟩, fun h => (by cases h)⟩
      · exact ⟨fun h => (by cases h), fun _ => ⟨⟨n, _, key.1, key.2, .inr ⟨by dsimp only at hc; omega, rfl⟩⟩, fun _ => rfl⟩⟩
  | .guard p g, hp, s, b, t, h => by
    have gp := good fuel p hp
    rw [Parser.run, Option.map_eq_some_iff] at h
    obtain ⟨⟨x, y⟩, h1, h2⟩ := h
    simp only [Prod.mk.injEq] at h2
    obtain ⟨rfl, rfl⟩ := h2
    cases x with
    | false => exact ⟨fun h => (by cases h), fun _ => ⟨.inr ⟨gp.no h1, rfl⟩, fun hr => (by cases hr)⟩⟩
    | true =>
      obtain ⟨u, hu⟩ := rest fuel p _ _ _ h1
      have ht : s.take (s.length - y.length) = u := by rw [← hu]; simp
      rw [ht]
      refine ⟨fun hg => .inl ⟨u, y, hu.symm, gp.yes h1, .inl ⟨by simpa using hg, rfl⟩⟩, fun hg => ⟨.inl ⟨u, y, hu.symm, gp.yes h1, .inr ⟨by simpa using hg, rfl⟩⟩,
        fun hr => (by cases hr)⟩⟩
  | .seqChoice p q, hp, s, b, t, h => by
    simp only [proper, Bool.and_eq_true] at hp
    have gp := good fuel p hp.1.1.1
    have gq := good fuel q hp.1.1.2
    rw [Parser.run] at h
    split at h
    · cases h
    · rename_i u e
      rw [Option.map_eq_some_iff] at h
      obtain ⟨⟨x, y⟩, h1, h2⟩ := h
      simp only [Prod.mk.injEq] at h2
      obtain ⟨rfl, rfl⟩ := h2
      refine ⟨fun _ => .inl ⟨u, gp.yes e, ?_⟩, fun h => (by cases h)⟩
      cases x with
      | true => exact .inl ⟨_, gq.yes h1, rfl⟩
      | false => exact .inr ⟨gq.no h1, by rw [gq.back hp.2 h1]⟩
    · rename_i u e
      have hb := gp.back hp.1.2 e
      subst hb
      exact ⟨fun hb => .inr ⟨gp.no e, (gq _ _ _ h).1 hb⟩, fun hb => ⟨.inr ⟨gp.no e, ((gq _ _ _ h).2 hb).1⟩, fun hr => ((gq _ _ _ h).2 hb).2 hr⟩⟩
  | .cond c p, hp, s, b, t, h => by
    have gp := good fuel p hp
    rw [Parser.run] at h
    split at h <;> rename_i hc
    · exact ⟨fun hb => .inl ⟨hc, (gp _ _ _ h).1 hb⟩, fun hb => ⟨.inl ⟨hc, ((gp _ _ _ h).2 hb).1⟩, fun hr => ((gp _ _ _ h).2 hb).2 hr⟩⟩
    · simp only [Option.some.injEq, Prod.mk.injEq] at h
      obtain ⟨rfl, rfl⟩ := h
      exact ⟨fun h => (by cases h), fun _ => ⟨.inr ⟨by simpa using hc, rfl⟩, fun _ => rfl⟩⟩

end Verif.Combinator
