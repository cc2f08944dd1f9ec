import Verif.Combinator.Sound
namespace Verif.Combinator
open Spec
variable {α : Type}

theorem Many.det {R : List α → List α → Prop} (hR : ∀ a b c, R a b → R a c → b = c) : ∀ {n m s t u}, Many R n s t → Many R m s u →
    (∀ x, ¬ R t x) → (∀ x, ¬ R u x) → n = m ∧ t = u
  | 0, 0, _, _, _, h1, h2, _, _ => ⟨rfl, h1 ▸ h2⟩
  | 0, _ + 1, _, _, _, h1, ⟨x, h2, _⟩, h3, _ => absurd h2 (h1 ▸ h3 x)
  | _ + 1, 0, _, _, _, ⟨x, h1, _⟩, h2, _, h4 => absurd h1 (h2 ▸ h4 x)
  | n + 1, m + 1, _, _, _, ⟨x, h1, h1'⟩, ⟨y, h2, h2'⟩, h3, h4 => by
    have := hR _ _ _ h1 h2
    subst this
    obtain ⟨a, b⟩ := Many.det hR h1' h2' h3 h4
    exact ⟨by omega, b⟩

/-- The same if the number of steps is bounded. -/
theorem Many.detLe {R : List α → List α → Prop} (hR : ∀ a b c, R a b → R a c → b = c) : ∀ {n m k s t u}, Many R n s t → Many R m s u →
    (n = k ∨ (n < k ∧ ∀ x, ¬ R t x)) → (m = k ∨ (m < k ∧ ∀ x, ¬ R u x)) → n = m ∧ t = u
  | 0, 0, _, _, _, _, h1, h2, _, _ => ⟨rfl, h1 ▸ h2⟩
  | 0, m + 1, _, _, _, _, h1, ⟨x, h2, _⟩, h3, h4 => by
    rcases h3 with h3 | h3
    · rcases h4 with h4 | h4 <;> omega
    · exact absurd h2 (h1 ▸ h3.2 x)
  | n + 1, 0, _, _, _, _, ⟨x, h1, _⟩, h2, h3, h4 => by
    rcases h4 with h4 | h4
    · rcases h3 with h3 | h3 <;> omega
    · exact absurd h1 (h2 ▸ h4.2 x)
  | n + 1, m + 1, k, _, _, _, ⟨x, h1, h1'⟩, ⟨y, h2, h2'⟩, h3, h4 => by
    have := hR _ _ _ h1 h2
    subst this
    obtain ⟨a, b⟩ := Many.detLe hR (k := k - 1) h1' h2' (h3.imp (by omega) (fun h => ⟨by omega, h.2⟩)) (h4.imp (by omega) (fun h => ⟨by omega, h.2⟩))
    exact ⟨by omega, b⟩

/-- The specification has one answer. -/
def Det (p : Parser α) : Prop := ∀ s r r', Accepts p s r → Accepts p s r' → r = r'

theorem Det.eq {p : Parser α} (h : Det p) {s t u} (h1 : Accepts p s (some t)) (h2 : Accepts p s (some u)) : t = u := Option.some.inj (h _ _ _ h1 h2)
theorem Det.no {p : Parser α} (h : Det p) {s t} (h1 : Accepts p s (some t)) (h2 : Accepts p s none) : False := by cases h _ _ _ h1 h2

theorem det : ∀ p : Parser α, Det p
  | .eps, s, r, r', h, h' => by simp only [Accepts] at h h'; rw [h, h']
  | .eoi, s, r, r', h, h' => by
    simp only [Accepts] at h h'
    rcases h with ⟨a, rfl⟩ | ⟨a, rfl⟩ <;> rcases h' with ⟨b, rfl⟩ | ⟨b, rfl⟩ <;> first | rfl | exact absurd a b | exact absurd b a
  | .sat p, s, r, r', h, h' => by
    simp only [Accepts] at h h'
    rcases h with ⟨c, t, rfl, hp, rfl⟩ | ⟨a, rfl⟩ <;> rcases h' with ⟨c', t', e, hp', rfl⟩ | ⟨b, rfl⟩
    · cases e; rfl
    · rw [b _ _ rfl] at hp; cases hp
    · rw [a _ _ e] at hp'; cases hp'
    · rfl
  | .lit w, s, r, r', h, h' => by
    simp only [Accepts] at h h'
    rcases h with ⟨t, rfl, rfl⟩ | ⟨a, rfl⟩ <;> rcases h' with ⟨t', e, rfl⟩ | ⟨b, rfl⟩
    · rw [List.append_cancel_left e]
    · exact absurd rfl (b t)
    · exact absurd e (a t')
    · rfl
  | .symbols ks, s, r, r', h, h' => by
    simp only [Accepts] at h h'
    rcases h with ⟨k, hk, t, e, rfl, hm⟩ | ⟨a, rfl⟩ <;> rcases h' with ⟨k', hk', t', e', rfl, hm'⟩ | ⟨b, rfl⟩
    · have h1 := hm k' hk' ⟨t', e'.symm⟩
      have h2 := hm' k hk ⟨t, e.symm⟩
      rw [e] at e'
      rw [(List.append_inj e' (by omega)).2]
    · exact absurd ⟨t, e.symm⟩ (b k hk)
    · exact absurd ⟨t', e'.symm⟩ (a k' hk')
    · rfl
  | .skip n, s, r, r', h, h' => by
    simp only [Accepts] at h h'
    rcases h with ⟨u, t, e, hl, rfl⟩ | ⟨a, rfl⟩ <;> rcases h' with ⟨u', t', e', hl', rfl⟩ | ⟨b, rfl⟩
    · rw [e] at e'; rw [(List.append_inj e' (by omega)).2]
    · rw [e] at b; simp at b; omega
    · rw [e'] at a; simp at a; omega
    · rfl
  | .seq p q, s, r, r', h, h' => by
    simp only [Accepts] at h h'
    have dp := det p
    have dq := det q
    rcases h with ⟨t, h1, h2⟩ | ⟨h1, rfl⟩ <;> rcases h' with ⟨t', h1', h2'⟩ | ⟨h1', rfl⟩
    · rw [dp.eq h1 h1'] at h2; exact dq _ _ _ h2 h2'
    · exact (dp.no h1 h1').elim
    · exact (dp.no h1' h1).elim
    · rfl
  | .choice p q, s, r, r', h, h' => by
    simp only [Accepts] at h h'
    have dp := det p
    have dq := det q
    rcases h with ⟨t, h1, rfl⟩ | ⟨h1, h2⟩ <;> rcases h' with ⟨t', h1', rfl⟩ | ⟨h1', h2'⟩
    · rw [dp.eq h1 h1']
    · exact (dp.no h1 h1').elim
    · exact (dp.no h1' h1).elim
    · exact dq _ _ _ h2 h2'
  | .kleene p, s, r, r', h, h' => by
    simp only [Accepts] at h h'
    have dp := det p
    obtain ⟨n, t, h1, h2, rfl⟩ := h
    obtain ⟨n', t', h1', h2', rfl⟩ := h'
    rw [(Many.det (R := fun a b => Accepts p a (some b)) (fun _ _ _ => dp.eq) h1 h1' (fun x hx => dp.no hx h2) (fun x hx => dp.no hx h2')).2]
  | .plus p, s, r, r', h, h' => by
    simp only [Accepts] at h h'
    have dp := det p
    rcases h with ⟨n, t, h1, h2, rfl⟩ | ⟨h1, rfl⟩ <;> rcases h' with ⟨n', t', h1', h2', rfl⟩ | ⟨h1', rfl⟩
    · rw [(Many.det (R := fun a b => Accepts p a (some b)) (fun _ _ _ => dp.eq) h1 h1' (fun x hx => dp.no hx h2) (fun x hx => dp.no hx h2')).2]
    · obtain ⟨u, hu, _⟩ := h1; exact (dp.no hu h1').elim
    · obtain ⟨u, hu, _⟩ := h1'; exact (dp.no hu h1).elim
    · rfl
  | .opt p, s, r, r', h, h' => by
    simp only [Accepts] at h h'
    have dp := det p
    rcases h with ⟨t, h1, rfl⟩ | ⟨h1, rfl⟩ <;> rcases h' with ⟨t', h1', rfl⟩ | ⟨h1', rfl⟩
    · rw [dp.eq h1 h1']
    · exact (dp.no h1 h1').elim
    · exact (dp.no h1' h1).elim
    · rfl
  | .list p q, s, r, r', h, h' => by
    simp only [Accepts] at h h'
    have dp := det p
    have dq := det q
    have stuck : ∀ u : List α, (Accepts q u none ∨ ∃ m, Accepts q u (some m) ∧ Accepts p m none) → ∀ x, ¬ ∃ m, Accepts q u (some m) ∧ Accepts p m (some x) := by
      rintro u (hq | ⟨m, hq, hp⟩) x ⟨m', hq', hp'⟩
      · exact dq.no hq' hq
      · rw [dq.eq hq hq'] at hp; exact dp.no hp' hp
    rcases h with ⟨t, n, u, h1, h2, h3, rfl⟩ | ⟨h1, rfl⟩ <;> rcases h' with ⟨t', n', u', h1', h2', h3', rfl⟩ | ⟨h1', rfl⟩
    · rw [← dp.eq h1 h1'] at h2'
      have := Many.det (R := fun a b => ∃ m, Accepts q a (some m) ∧ Accepts p m (some b)) ?_ h2 h2' (stuck u h3) (stuck u' h3')
      · rw [this.2]
      · rintro a b c ⟨m, hm, hb⟩ ⟨m', hm', hc⟩
        rw [dq.eq hm hm'] at hb
        exact dp.eq hb hc
    · exact (dp.no h1 h1').elim
    · exact (dp.no h1' h1).elim
    · rfl
  | .conj p, s, r, r', h, h' => by
    simp only [Accepts] at h h'
    have dp := det p
    rcases h with ⟨t, h1, rfl⟩ | ⟨h1, rfl⟩ <;> rcases h' with ⟨t', h1', rfl⟩ | ⟨h1', rfl⟩
    · rfl
    · exact (dp.no h1 h1').elim
    · exact (dp.no h1' h1).elim
    · rfl
  | .neg p, s, r, r', h, h' => by
    simp only [Accepts] at h h'
    have dp := det p
    rcases h with ⟨t, h1, rfl⟩ | ⟨h1, rfl⟩ <;> rcases h' with ⟨t', h1', rfl⟩ | ⟨h1', rfl⟩
    · rfl
    · exact (dp.no h1 h1').elim
    · exact (dp.no h1' h1).elim
    · rfl
  | .diff p q, s, r, r', h, h' => by
    simp only [Accepts] at h h'
    have dp := det p
    have dq := det q
    rcases h with ⟨t, h1, rfl⟩ | ⟨h1, h2⟩ <;> rcases h' with ⟨t', h1', rfl⟩ | ⟨h1', h2'⟩
    · rfl
    · exact (dq.no h1 h1').elim
    · exact (dq.no h1' h1).elim
    · exact dp _ _ _ h2 h2'
  | .rep p mn mx, s, r, r', h, h' => by
    simp only [Accepts] at h h'
    have dp := det p
    obtain ⟨n, t, h1, h2, h3⟩ := h
    obtain ⟨n', t', h1', h2', h3'⟩ := h'
    obtain ⟨rfl, rfl⟩ := Many.detLe (R := fun a b => Accepts p a (some b)) (fun _ _ _ => dp.eq) h1 h1' (h2.imp id (fun h => ⟨h.1, fun x hx => dp.no hx h.2⟩)) (h2'.imp id (fun h => ⟨h.1, fun x hx => dp.no hx h.2⟩))
    rcases h3 with ⟨a, rfl⟩ | ⟨a, rfl⟩ <;> rcases h3' with ⟨b, rfl⟩ | ⟨b, rfl⟩ <;> first | rfl | omega
  | .guard p g, s, r, r', h, h' => by
    simp only [Accepts] at h h'
    have dp := det p
    rcases h with ⟨u, t, e, h1, h2⟩ | ⟨h1, rfl⟩ <;> rcases h' with ⟨u', t', e', h1', h2'⟩ | ⟨h1', rfl⟩
    · have := dp.eq h1 h1'
      subst this
      rw [e] at e'
      have := List.append_cancel_right e'
      subst this
      rcases h2 with ⟨a, rfl⟩ | ⟨a, rfl⟩ <;> rcases h2' with ⟨b, rfl⟩ | ⟨b, rfl⟩ <;> first | rfl | (rw [a] at b; cases b)
    · exact (dp.no h1 h1').elim
    · exact (dp.no h1' h1).elim
    · rfl
  | .seqChoice p q, s, r, r', h, h' => by
    simp only [Accepts] at h h'
    have dp := det p
    have dq := det q
    rcases h with ⟨t, h1, h2⟩ | ⟨h1, h2⟩ <;> rcases h' with ⟨t', h1', h2'⟩ | ⟨h1', h2'⟩
    · have := dp.eq h1 h1'
      subst this
      rcases h2 with ⟨u, a, rfl⟩ | ⟨a, rfl⟩ <;> rcases h2' with ⟨v, b, rfl⟩ | ⟨b, rfl⟩
      · rw [dq.eq a b]
      · exact (dq.no a b).elim
      · exact (dq.no b a).elim
      · rfl
    · exact (dp.no h1 h1').elim
    · exact (dp.no h1' h1).elim
    · exact dq _ _ _ h2 h2'
  | .cond c p, s, r, r', h, h' => by
    simp only [Accepts] at h h'
    have dp := det p
    rcases h with ⟨a, h1⟩ | ⟨a, rfl⟩ <;> rcases h' with ⟨b, h2⟩ | ⟨b, rfl⟩
    · exact dp _ _ _ h1 h2
    · rw [a] at b; cases b
    · rw [a] at b; cases b
    · rfl

theorem iter_total (step : List α → Res α) (L : Nat) (h1 : ∀ s, s.length ≤ L → ∃ r, step s = some r) (h2 : ∀ s t, step s = some (true, t) → t.length < s.length) :
    ∀ (k : Nat) (s : List α), s.length ≤ L → s.length < k → ∃ r, iter step k s = some r
  | 0, _, _, h => by omega
  | k + 1, s, hL, hk => by
    obtain ⟨⟨b, t⟩, e⟩ := h1 s hL
    rw [iter, e]
    cases b with
    | false => exact ⟨_, rfl⟩
    | true =>
      have := h2 s t e
      exact iter_total step L h1 h2 k t (by omega) (by omega)

theorem times_total (step : List α → Res α) (L : Nat) (h1 : ∀ s, s.length ≤ L → ∃ r, step s = some r) (h2 : ∀ s t, step s = some (true, t) → t.length ≤ s.length) :
    ∀ (k : Nat) (s : List α), s.length ≤ L → ∃ r, times step k s = some r
  | 0, _, _ => ⟨_, rfl⟩
  | k + 1, s, hL => by
    obtain ⟨⟨b, t⟩, e⟩ := h1 s hL
    rw [times, e]
    cases b with
    | false => exact ⟨_, rfl⟩
    | true =>
      have := h2 s t e
      obtain ⟨r, hr⟩ := times_total step L h1 h2 k t (by omega)
      exact ⟨_, by dsimp only; rw [hr]; rfl⟩

variable [DecidableEq α]

theorem rest_le {fuel : Nat} {p : Parser α} {s t : List α} {b : Bool} (h : p.run fuel s = some (b, t)) : t.length ≤ s.length := (rest fuel p s b t h).length_le

theorem many_le {fuel : Nat} {p : Parser α} {n : Nat} {s t : List α} (h : Many (fun x y => p.run fuel x = some (true, y)) n s t) : t.length ≤ s.length :=
  (Many.suffix (fun a b e => rest fuel p _ _ _ e) h).length_le

theorem consume (fuel : Nat) : ∀ p : Parser α, consumes p = true → ∀ s t, p.run fuel s = some (true, t) → t.length < s.length
  | .eps, hc, _, _, _ => by cases hc
  | .eoi, hc, _, _, _ => by cases hc
  | .sat p, _, [], t, h => by simp [Parser.run] at h
  | .sat p, _, c :: s, t, h => by
    rw [Parser.run] at h
    split at h
    · simp only [Option.some.injEq, Prod.mk.injEq] at h; rw [← h.2]; simp
    · simp at h
  | .lit w, hc, s, t, h => by
    rw [Parser.run] at h
    split at h
    · rename_i u e
      simp only [Option.some.injEq, Prod.mk.injEq] at h
      rw [(strip_some w s u).mp e, ← h.2]
      have : w ≠ [] := by simpa [consumes] using hc
      have := List.length_pos_iff.mpr this
      simp; omega
    · simp at h
  | .symbols ks, _, s, t, h => by
    rw [Parser.run] at h
    split at h
    · simp at h
    · rename_i e
      simp only [Option.some.injEq, Prod.mk.injEq] at h
      obtain ⟨h1, h2, h3⟩ := longest_spec s ks 0
      rcases h3 with h3 | ⟨k, hk, hp, hl⟩
      · exact absurd h3 e
      · have := hp.length_le
        rw [← h.2, List.length_drop]
        omega
  | .skip n, hc, s, t, h => by
    have hc : n > 0 := by simpa [consumes] using hc
    rw [Parser.run] at h
    split at h
    · simp at h
    · simp only [Option.some.injEq, Prod.mk.injEq] at h
      rw [← h.2, List.length_drop]; omega
  | .seq p q, hc, s, t, h => by
    simp only [consumes, Bool.or_eq_true] at hc
    rw [Parser.run] at h
    split at h
    · cases h
    · simp at h
    · rename_i u e
      split at h
      · cases h
      · simp at h
      · rename_i v e'
        simp only [Option.some.injEq, Prod.mk.injEq] at h
        rw [← h.2]
        have h1 := rest_le e
        have h2 := rest_le e'
        rcases hc with hc | hc
        · have := consume fuel p hc _ _ e; omega
        · have := consume fuel q hc _ _ e'; omega
  | .choice p q, hc, s, t, h => by
    simp only [consumes, Bool.and_eq_true] at hc
    rw [Parser.run] at h
    split at h
    · cases h
    · rename_i u e
      simp only [Option.some.injEq, Prod.mk.injEq] at h
      rw [← h.2]; exact consume fuel p hc.1 _ _ e
    · split at h
      · cases h
      · rename_i v e'
        simp only [Option.some.injEq, Prod.mk.injEq] at h
        rw [← h.2]; exact consume fuel q hc.2 _ _ e'
      · simp at h
  | .kleene p, hc, _, _, _ => by cases hc
  | .plus p, hc, s, t, h => by
    rw [Parser.run] at h
    split at h
    · cases h
    · simp at h
    · rename_i u e
      rw [Option.map_eq_some_iff] at h
      obtain ⟨⟨x, y⟩, h1, h2⟩ := h
      simp only [Prod.mk.injEq] at h2
      rw [← h2.2]
      obtain ⟨n, h3, h4⟩ := iter_spec _ _ _ _ _ h1
      have h5 := consume fuel p hc _ _ e
      have h6 := many_le h3
      have h7 := rest_le h4
      omega
  | .opt p, hc, _, _, _ => by cases hc
  | .list p q, hc, s, t, h => by
    rw [Parser.run] at h
    split at h
    · cases h
    · simp at h
    · rename_i u e
      rw [Option.map_eq_some_iff] at h
      obtain ⟨⟨x, y⟩, h1, h2⟩ := h
      simp only [Prod.mk.injEq] at h2
      rw [← h2.2]
      obtain ⟨n, h3, h4⟩ := iter_spec _ _ _ _ _ h1
      have h5 := consume fuel p hc _ _ e
      have h6 := (Many.suffix (fun a b e' => by
        unfold both at e'
        split at e'
        · cases e'
        · cases e'
        · rename_i m em
          exact (rest fuel p _ _ _ e').trans (rest fuel q _ _ _ em)) h3).length_le
      omega
  | .conj p, hc, _, _, _ => by cases hc
  | .neg p, hc, _, _, _ => by cases hc
  | .diff p q, hc, s, t, h => by
    rw [Parser.run] at h
    split at h
    · cases h
    · rename_i u e
      have h1 := consume fuel p hc _ _ h
      have h2 := rest_le e
      omega
    · simp at h
  | .rep p mn mx, hc, s, t, h => by
    simp only [consumes, Bool.and_eq_true, decide_eq_true_eq] at hc
    rw [Parser.run] at h
    split at h
    · omega
    · rw [Option.map_eq_some_iff] at h
      obtain ⟨⟨n, u⟩, h1, h2⟩ := h
      split at h2
      · rename_i hn
        simp only [Prod.mk.injEq] at h2
        rw [← h2.2]
        have key : ∀ v, Many (fun x y => p.run fuel x = some (true, y)) n s v → v.length < s.length := by
          intro v hv
          cases n with
          | zero => dsimp only at hn; omega
          | succ n =>
            obtain ⟨w, hw, hv⟩ := hv
            have a := consume fuel p hc.2 _ _ hw
            have b := many_le hv
            omega
        rcases times_spec _ _ _ _ _ h1 with ⟨_, h3⟩ | ⟨_, v, h3, h4⟩
        · exact key u h3
        · have a := key v h3
          have b := rest_le h4
          omega
      · simp at h2
  | .guard p g, hc, s, t, h => by
    rw [Parser.run, Option.map_eq_some_iff] at h
    obtain ⟨⟨x, y⟩, h1, h2⟩ := h
    simp only [Prod.mk.injEq, Bool.and_eq_true] at h2
    obtain ⟨⟨rfl, _⟩, rfl⟩ := h2
    exact consume fuel p hc _ _ h1
  | .seqChoice p q, hc, s, t, h => by
    simp only [consumes, Bool.and_eq_true] at hc
    rw [Parser.run] at h
    split at h
    · cases h
    · rename_i u e
      rw [Option.map_eq_some_iff] at h
      obtain ⟨⟨x, y⟩, h1, h2⟩ := h
      simp only [Prod.mk.injEq] at h2
      rw [← h2.2]
      have a := consume fuel p hc.1 _ _ e
      have b := rest_le h1
      omega
    · rename_i u e
      have a := consume fuel q hc.2 _ _ h
      have b := rest_le e
      omega
  | .cond c p, hc, s, t, h => by
    rw [Parser.run] at h
    split at h
    · exact consume fuel p hc _ _ h
    · simp at h

theorem total (fuel : Nat) : ∀ p : Parser α, bounded p = true → ∀ s : List α, s.length < fuel → ∃ r, p.run fuel s = some r
  | .eps, _, s, _ => ⟨_, rfl⟩
  | .eoi, _, s, _ => ⟨_, rfl⟩
  | .sat p, _, [], _ => ⟨_, rfl⟩
  | .sat p, _, c :: s, _ => by rw [Parser.run]; split <;> exact ⟨_, rfl⟩
  | .lit w, _, s, _ => by rw [Parser.run]; split <;> exact ⟨_, rfl⟩
  | .symbols ks, _, s, _ => by rw [Parser.run]; split <;> exact ⟨_, rfl⟩
  | .skip n, _, s, _ => by rw [Parser.run]; split <;> exact ⟨_, rfl⟩
  | .seq p q, hb, s, hf => by
    simp only [bounded, Bool.and_eq_true] at hb
    obtain ⟨⟨b, t⟩, e⟩ := total fuel p hb.1 s hf
    rw [Parser.run, e]
    cases b with
    | false => exact ⟨_, rfl⟩
    | true =>
      have := rest_le e
      obtain ⟨⟨b', u⟩, e'⟩ := total fuel q hb.2 t (by omega)
      dsimp only
      rw [e']
      cases b' <;> exact ⟨_, rfl⟩
  | .choice p q, hb, s, hf => by
    simp only [bounded, Bool.and_eq_true] at hb
    obtain ⟨⟨b, t⟩, e⟩ := total fuel p hb.1 s hf
    rw [Parser.run, e]
    cases b with
    | true => exact ⟨_, rfl⟩
    | false =>
      obtain ⟨⟨b', u⟩, e'⟩ := total fuel q hb.2 s hf
      dsimp only
      rw [e']
      cases b' <;> exact ⟨_, rfl⟩
  | .kleene p, hb, s, hf => by
    simp only [bounded, Bool.and_eq_true] at hb
    obtain ⟨r, hr⟩ := iter_total (p.run fuel) s.length (fun a ha => total fuel p hb.1 a (by omega)) (fun a b => consume fuel p hb.2 a b) fuel s (Nat.le_refl _) hf
    exact ⟨_, by rw [Parser.run, hr]; rfl⟩
  | .plus p, hb, s, hf => by
    simp only [bounded, Bool.and_eq_true] at hb
    obtain ⟨⟨b, t⟩, e⟩ := total fuel p hb.1 s hf
    rw [Parser.run, e]
    cases b with
    | false => exact ⟨_, rfl⟩
    | true =>
      have := rest_le e
      obtain ⟨r, hr⟩ := iter_total (p.run fuel) t.length (fun a ha => total fuel p hb.1 a (by omega)) (fun a b => consume fuel p hb.2 a b) fuel t (Nat.le_refl _) (by omega)
      exact ⟨_, by dsimp only; rw [hr]; rfl⟩
  | .opt p, hb, s, hf => by
    obtain ⟨r, hr⟩ := total fuel p hb s hf
    exact ⟨_, by rw [Parser.run, hr]; rfl⟩
  | .list p q, hb, s, hf => by
    simp only [bounded, Bool.and_eq_true, Bool.or_eq_true] at hb
    obtain ⟨⟨b, t⟩, e⟩ := total fuel p hb.1.1 s hf
    rw [Parser.run, e]
    cases b with
    | false => exact ⟨_, rfl⟩
    | true =>
      have := rest_le e
      dsimp only
      have h1 : ∀ a : List α, a.length ≤ t.length → ∃ r, both (q.run fuel) (p.run fuel) a = some r := by
        intro a ha
        obtain ⟨⟨c, x⟩, ex⟩ := total fuel q hb.1.2 a (by omega)
        rw [both, ex]
        cases c with
        | false => exact ⟨_, rfl⟩
        | true =>
          have := rest_le ex
          exact total fuel p hb.1.1 x (by omega)
      have h2 : ∀ a x : List α, both (q.run fuel) (p.run fuel) a = some (true, x) → x.length < a.length := by
        intro a x ha
        unfold both at ha
        split at ha
        · cases ha
        · cases ha
        · rename_i m em
          have h1 := rest_le ha
          have h2 := rest_le em
          rcases hb.2 with hc | hc
          · have := consume fuel p hc _ _ ha; omega
          · have := consume fuel q hc _ _ em; omega
      obtain ⟨r, hr⟩ := iter_total _ t.length h1 h2 fuel t (Nat.le_refl _) (by omega)
      exact ⟨_, by rw [hr]; rfl⟩
  | .conj p, hb, s, hf => by
    obtain ⟨r, hr⟩ := total fuel p hb s hf
    exact ⟨_, by rw [Parser.run, hr]; rfl⟩
  | .neg p, hb, s, hf => by
    obtain ⟨r, hr⟩ := total fuel p hb s hf
    exact ⟨_, by rw [Parser.run, hr]; rfl⟩
  | .diff p q, hb, s, hf => by
    simp only [bounded, Bool.and_eq_true] at hb
    obtain ⟨⟨b, t⟩, e⟩ := total fuel q hb.2 s hf
    rw [Parser.run, e]
    cases b with
    | true => exact ⟨_, rfl⟩
    | false =>
      have := rest_le e
      exact total fuel p hb.1 t (by omega)
  | .rep p mn mx, hb, s, hf => by
    rw [Parser.run]
    split
    · exact ⟨_, rfl⟩
    · obtain ⟨r, hr⟩ := times_total (p.run fuel) s.length (fun a ha => total fuel p hb a (by omega)) (fun a b h => rest_le h) mx s (Nat.le_refl _)
      exact ⟨_, by rw [hr]; rfl⟩
  | .guard p g, hb, s, hf => by
    obtain ⟨r, hr⟩ := total fuel p hb s hf
    exact ⟨_, by rw [Parser.run, hr]; rfl⟩
  | .seqChoice p q, hb, s, hf => by
    simp only [bounded, Bool.and_eq_true] at hb
    obtain ⟨⟨b, t⟩, e⟩ := total fuel p hb.1 s hf
    rw [Parser.run, e]
    have := rest_le e
    obtain ⟨r, hr⟩ := total fuel q hb.2 t (by omega)
    cases b with
    | true => exact ⟨_, by dsimp only; rw [hr]; rfl⟩
    | false => exact ⟨r, hr⟩
  | .cond c p, hb, s, hf => by
    rw [Parser.run]
    split
    · exact total fuel p hb s hf
    · exact ⟨_, rfl⟩

end Verif.Combinator
