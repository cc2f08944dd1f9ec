import Verif.Combinator.Spec
namespace Verif.Combinator
open Spec
variable {α : Type} [DecidableEq α]

theorem strip_some : ∀ (w s t : List α), strip w s = some t ↔ s = w ++ t
  | [], s, t => by simp [strip]
  | a :: w, [], t => by simp [strip]
  | a :: w, b :: s, t => by
    rw [strip]
    by_cases h : a = b
    · rw [if_pos h, strip_some w s t]; simp [h]
    · rw [if_neg h]; simp [Ne.symm h]

theorem strip_isSome (w s : List α) : (strip w s).isSome = true ↔ w <+: s := by
  constructor
  · intro h
    obtain ⟨t, ht⟩ := Option.isSome_iff_exists.mp h
    exact ⟨t, ((strip_some w s t).mp ht).symm⟩
  · rintro ⟨t, ht⟩
    rw [(strip_some w s t).mpr ht.symm]; rfl

theorem longest_spec (s : List α) : ∀ (ks : List (List α)) (m : Nat),
    m ≤ longest s ks m ∧ (∀ k ∈ ks, k <+: s → k.length ≤ longest s ks m) ∧ (longest s ks m = m ∨ ∃ k ∈ ks, k <+: s ∧ k.length = longest s ks m)
  | [], m => ⟨Nat.le_refl _, fun _ h => (by cases h), .inl rfl⟩
  | k :: ks, m => by
    rw [longest]
    by_cases h : (strip k s).isSome ∧ k.length > m
    · rw [if_pos h]
      obtain ⟨h1, h2, h3⟩ := longest_spec s ks k.length
      refine ⟨by omega, ?_, .inr ?_⟩
      · intro k' hk' hp
        rcases List.mem_cons.mp hk' with rfl | hk'
        · exact h1
        · exact h2 k' hk' hp
      · rcases h3 with h3 | ⟨k', hk', hp, he⟩
        · exact ⟨k, List.mem_cons_self, (strip_isSome k s).mp h.1, h3.symm⟩
        · exact ⟨k', List.mem_cons_of_mem _ hk', hp, he⟩
    · rw [if_neg h]
      obtain ⟨h1, h2, h3⟩ := longest_spec s ks m
      refine ⟨h1, ?_, ?_⟩
      · intro k' hk' hp
        rcases List.mem_cons.mp hk' with rfl | hk'
        · have : ¬ k'.length > m := fun hgt => h ⟨(strip_isSome k' s).mpr hp, hgt⟩
          omega
        · exact h2 k' hk' hp
      · rcases h3 with h3 | ⟨k', hk', hp, he⟩
        · exact .inl h3
        · exact .inr ⟨k', List.mem_cons_of_mem _ hk', hp, he⟩

omit [DecidableEq α] in
theorem iter_spec (step : List α → Res α) : ∀ (k : Nat) (s a b : List α), iter step k s = some (a, b) →
    ∃ n, Many (fun x y => step x = some (true, y)) n s a ∧ step a = some (false, b)
  | 0, _, _, _, h => by cases h
  | k + 1, s, a, b, h => by
    rw [iter] at h
    cases e : step s with
    | none => rw [e] at h; cases h
    | some x =>
      obtain ⟨c, t⟩ := x
      rw [e] at h
      cases c with
      | false =>
        simp only [Option.some.injEq, Prod.mk.injEq] at h
        obtain ⟨rfl, rfl⟩ := h
        exact ⟨0, rfl, e⟩
      | true =>
        obtain ⟨n, h1, h2⟩ := iter_spec step k t a b h
        exact ⟨n + 1, ⟨t, e, h1⟩, h2⟩

omit [DecidableEq α] in
theorem times_spec (step : List α → Res α) : ∀ (m : Nat) (s : List α) (n : Nat) (t : List α), times step m s = some (n, t) →
    (n = m ∧ Many (fun x y => step x = some (true, y)) n s t) ∨
    (n < m ∧ ∃ u, Many (fun x y => step x = some (true, y)) n s u ∧ step u = some (false, t))
  | 0, s, n, t, h => by
    simp only [times, Option.some.injEq, Prod.mk.injEq] at h
    obtain ⟨rfl, rfl⟩ := h
    exact .inl ⟨rfl, rfl⟩
  | m + 1, s, n, t, h => by
    rw [times] at h
    cases e : step s with
    | none => rw [e] at h; cases h
    | some x =>
      obtain ⟨c, v⟩ := x
      rw [e] at h
      cases c with
      | false =>
        simp only [Option.some.injEq, Prod.mk.injEq] at h
        obtain ⟨rfl, rfl⟩ := h
        exact .inr ⟨by omega, s, rfl, e⟩
      | true =>
        simp only [Option.map_eq_some_iff] at h
        obtain ⟨⟨n', t'⟩, h1, h2⟩ := h
        simp only [Prod.mk.injEq] at h2
        obtain ⟨rfl, rfl⟩ := h2
        rcases times_spec step m v n' t' h1 with ⟨rfl, h3⟩ | ⟨h3, u, h4, h5⟩
        · exact .inl ⟨rfl, v, e, h3⟩
        · exact .inr ⟨by omega, u, ⟨v, e, h4⟩, h5⟩

omit [DecidableEq α] in
theorem Many.mono {R S : List α → List α → Prop} (h : ∀ a b, R a b → S a b) : ∀ {n s t}, Many R n s t → Many S n s t
  | 0, _, _, e => e
  | _ + 1, _, _, ⟨u, h1, h2⟩ => ⟨u, h _ _ h1, Many.mono h h2⟩

/-- What is proved of every parser, by induction. -/
def Good (fuel : Nat) (p : Parser α) : Prop := ∀ s b t, p.run fuel s = some (b, t) →
  (b = true → Accepts p s (some t)) ∧ (b = false → Accepts p s none ∧ (restores p = true → t = s))

/-- The rest is a rest of the input. -/
def Rest (fuel : Nat) (p : Parser α) : Prop := ∀ s b t, p.run fuel s = some (b, t) → t <:+ s

omit [DecidableEq α] in
theorem Many.suffix {R : List α → List α → Prop} (h : ∀ a b, R a b → b <:+ a) : ∀ {n s t}, Many R n s t → t <:+ s
  | 0, _, _, e => e ▸ List.suffix_refl _
  | _ + 1, _, _, ⟨_, h1, h2⟩ => (Many.suffix h h2).trans (h _ _ h1)

theorem rest (fuel : Nat) : ∀ p : Parser α, Rest fuel p
  | .eps, s, b, t, h => by simp only [Parser.run, Option.some.injEq, Prod.mk.injEq] at h; exact h.2 ▸ List.suffix_refl _
  | .eoi, s, b, t, h => by simp only [Parser.run, Option.some.injEq, Prod.mk.injEq] at h; exact h.2 ▸ List.suffix_refl _
  | .sat p, [], b, t, h => by simp only [Parser.run, Option.some.injEq, Prod.mk.injEq] at h; exact h.2 ▸ List.suffix_refl _
  | .sat p, c :: s, b, t, h => by
    rw [Parser.run] at h
    split at h <;> simp only [Option.some.injEq, Prod.mk.injEq] at h <;> rw [← h.2]
    · exact List.suffix_cons _ _
    · exact List.suffix_refl _
  | .lit w, s, b, t, h => by
    rw [Parser.run] at h
    split at h <;> simp only [Option.some.injEq, Prod.mk.injEq] at h <;> rw [← h.2]
    · rename_i u e
      exact ⟨w, ((strip_some w s u).mp e).symm⟩
    · exact List.suffix_refl _
  | .symbols ks, s, b, t, h => by
    rw [Parser.run] at h
    split at h <;> simp only [Option.some.injEq, Prod.mk.injEq] at h <;> rw [← h.2]
    · exact List.suffix_refl _
    · exact List.drop_suffix _ _
  | .skip n, s, b, t, h => by
    rw [Parser.run] at h
    split at h <;> simp only [Option.some.injEq, Prod.mk.injEq] at h <;> rw [← h.2]
    · exact List.suffix_refl _
    · exact List.drop_suffix _ _
  | .seq p q, s, b, t, h => by
    rw [Parser.run] at h
    split at h
    · cases h
    · simp only [Option.some.injEq, Prod.mk.injEq] at h; rw [← h.2]; exact List.suffix_refl _
    · rename_i u e
      split at h
      · cases h
      · simp only [Option.some.injEq, Prod.mk.injEq] at h; rw [← h.2]; exact List.suffix_refl _
      · rename_i v e'
        simp only [Option.some.injEq, Prod.mk.injEq] at h
        rw [← h.2]
        exact (rest fuel q _ _ _ e').trans (rest fuel p _ _ _ e)
  | .choice p q, s, b, t, h => by
    rw [Parser.run] at h
    split at h
    · cases h
    · rename_i u e
      simp only [Option.some.injEq, Prod.mk.injEq] at h
      rw [← h.2]
      exact rest fuel p _ _ _ e
    · split at h
      · cases h
      · rename_i v e'
        simp only [Option.some.injEq, Prod.mk.injEq] at h
        rw [← h.2]
        exact rest fuel q _ _ _ e'
      · simp only [Option.some.injEq, Prod.mk.injEq] at h; rw [← h.2]; exact List.suffix_refl _
  | .kleene p, s, b, t, h => by
    rw [Parser.run, Option.map_eq_some_iff] at h
    obtain ⟨⟨x, y⟩, h1, h2⟩ := h
    simp only [Prod.mk.injEq] at h2
    rw [← h2.2]
    obtain ⟨n, h3, h4⟩ := iter_spec _ _ _ _ _ h1
    exact (rest fuel p _ _ _ h4).trans (Many.suffix (fun a b e => rest fuel p _ _ _ e) h3)
  | .plus p, s, b, t, h => by
    rw [Parser.run] at h
    split at h
    · cases h
    · rename_i u e
      simp only [Option.some.injEq, Prod.mk.injEq] at h
      rw [← h.2]; exact rest fuel p _ _ _ e
    · rename_i u e
      rw [Option.map_eq_some_iff] at h
      obtain ⟨⟨x, y⟩, h1, h2⟩ := h
      simp only [Prod.mk.injEq] at h2
      rw [← h2.2]
      obtain ⟨n, h3, h4⟩ := iter_spec _ _ _ _ _ h1
      exact ((rest fuel p _ _ _ h4).trans (Many.suffix (fun a b e => rest fuel p _ _ _ e) h3)).trans (rest fuel p _ _ _ e)
  | .opt p, s, b, t, h => by
    rw [Parser.run, Option.map_eq_some_iff] at h
    obtain ⟨⟨x, y⟩, h1, h2⟩ := h
    simp only [Prod.mk.injEq] at h2
    rw [← h2.2]; exact rest fuel p _ _ _ h1
  | .list p q, s, b, t, h => by
    rw [Parser.run] at h
    split at h
    · cases h
    · rename_i u e
      simp only [Option.some.injEq, Prod.mk.injEq] at h
      rw [← h.2]; exact rest fuel p _ _ _ e
    · rename_i u e
      rw [Option.map_eq_some_iff] at h
      obtain ⟨⟨x, y⟩, h1, h2⟩ := h
      simp only [Prod.mk.injEq] at h2
      rw [← h2.2]
      obtain ⟨n, h3, h4⟩ := iter_spec _ _ _ _ _ h1
      refine (Many.suffix (fun a b e' => ?_) h3).trans (rest fuel p _ _ _ e)
      unfold both at e'
      split at e'
      · cases e'
      · cases e'
      · rename_i m em
        exact (rest fuel p _ _ _ e').trans (rest fuel q _ _ _ em)
  | .conj p, s, b, t, h => by
    rw [Parser.run, Option.map_eq_some_iff] at h
    obtain ⟨⟨x, y⟩, h1, h2⟩ := h
    simp only [Prod.mk.injEq] at h2
    rw [← h2.2]; exact List.suffix_refl _
  | .neg p, s, b, t, h => by
    rw [Parser.run, Option.map_eq_some_iff] at h
    obtain ⟨⟨x, y⟩, h1, h2⟩ := h
    simp only [Prod.mk.injEq] at h2
    rw [← h2.2]; exact List.suffix_refl _
  | .diff p q, s, b, t, h => by
    rw [Parser.run] at h
    split at h
    · cases h
    · rename_i u e
      exact (rest fuel p _ _ _ h).trans (rest fuel q _ _ _ e)
    · simp only [Option.some.injEq, Prod.mk.injEq] at h
      rw [← h.2]; exact List.suffix_refl _
  | .rep p mn mx, s, b, t, h => by
    rw [Parser.run] at h
    split at h
    · simp only [Option.some.injEq, Prod.mk.injEq] at h
      rw [← h.2]; exact List.suffix_refl _
    · rw [Option.map_eq_some_iff] at h
      obtain ⟨⟨n, u⟩, h1, h2⟩ := h
      split at h2 <;> simp only [Prod.mk.injEq] at h2 <;> rw [← h2.2]
      · rcases times_spec _ _ _ _ _ h1 with ⟨_, h3⟩ | ⟨_, v, h3, h4⟩
        · exact Many.suffix (fun a b e => rest fuel p _ _ _ e) h3
        · exact (rest fuel p _ _ _ h4).trans (Many.suffix (fun a b e => rest fuel p _ _ _ e) h3)
      · exact List.suffix_refl _
  | .guard p g, s, b, t, h => by
    rw [Parser.run, Option.map_eq_some_iff] at h
    obtain ⟨⟨x, y⟩, h1, h2⟩ := h
    simp only [Prod.mk.injEq] at h2
    rw [← h2.2]; exact rest fuel p _ _ _ h1
  | .seqChoice p q, s, b, t, h => by
    rw [Parser.run] at h
    split at h
    · cases h
    · rename_i u e
      rw [Option.map_eq_some_iff] at h
      obtain ⟨⟨x, y⟩, h1, h2⟩ := h
      simp only [Prod.mk.injEq] at h2
      rw [← h2.2]; exact (rest fuel q _ _ _ h1).trans (rest fuel p _ _ _ e)
    · rename_i u e
      exact (rest fuel q _ _ _ h).trans (rest fuel p _ _ _ e)
  | .cond c p, s, b, t, h => by
    rw [Parser.run] at h
    split at h
    · exact rest fuel p _ _ _ h
    · simp only [Option.some.injEq, Prod.mk.injEq] at h
      rw [← h.2]; exact List.suffix_refl _

end Verif.Combinator
