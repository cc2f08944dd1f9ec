import Verif.Combinator.TextLemmas
namespace Verif.Combinator.Text
open Spec

/-- The object can take what a parser of the type keeps. -/
def Fits (τ : Ty) (d : Dest) : Prop := d.kind = .chr → τ ≠ .str

/-- The text so far is empty, or the parser only appends. -/
def Clear (p : Parser) (d : Dest) : Prop := replaces p = false ∨ ∀ a, d = .str a → a = []

/-- Texts of the type. -/
def Sized (τ : Ty) (u : List Char) : Prop := (τ = .unused → u = []) ∧ (τ = .chr → ∃ c, u = [c])

/-- What is proved about one call of `step`. -/
def Step (K : Option (List Char × List Char) → Prop) (τ : Ty) (clear tidy : Prop) (s : List Char) (d : Dest) (b : Bool) (t : List Char) (d' : Dest) : Prop :=
  (b = true → ∃ u, K (some (t, u)) ∧ Sized τ u ∧ (clear → d' = store d u)) ∧ (b = false → K none ∧ t = s ∧ (tidy → d' = d))

def Good (junk : Char) (fuel : Nat) (p : Parser) : Prop := ∀ τ, p.ty = some τ → ∀ s d b t d', Fits τ d → p.run junk fuel s d = some (b, t, d') →
  Step (Keeps p s) τ (Clear p d) (tidy p = true) s d b t d'

theorem kind_unused {d : Dest} (h : d.kind = .unused) : d = .unused := by cases d <;> first | rfl | cases h

theorem fits_unused (τ : Ty) : Fits τ .unused := fun h => by cases h

theorem fits_fresh (junk : Char) (τ : Ty) : Fits τ (fresh junk τ) := by cases τ <;> simp [Fits, fresh, Dest.kind]

theorem clear_fresh (junk : Char) (p : Parser) (τ : Ty) : Clear p (fresh junk τ) := .inr (by cases τ <;> simp [fresh])

/-- An element of a container. -/
theorem element_step {junk : Char} {fuel : Nat} {p : Parser} (g : Good junk fuel p) {τ : Ty} (hτ : p.ty = some τ) (hs : τ ≠ .str)
    {s : List Char} {d : Dest} {b : Bool} {t : List Char} {d' : Dest} (e : element junk p.ty (p.run junk fuel) s d = some (b, t, d')) :
    Step (Keeps p s) τ True True s d b t d' := by
  cases d with
  | unused =>
    have k := kind_unused (run_kind junk fuel p _ _ _ _ _ e)
    have ⟨h1, h2⟩ := g τ hτ s .unused b t d' (fits_unused _) e
    refine ⟨fun hb => ?_, fun hb => ⟨(h2 hb).1, (h2 hb).2.1, fun _ => k⟩⟩
    obtain ⟨u, h3, h4, _⟩ := h1 hb
    exact ⟨u, h3, h4, fun _ => k⟩
  | chr c => cases e
  | str a =>
    simp only [element, hτ] at e
    split at e
    · cases e
    · rename_i e1
      simp only [Option.some.injEq, Prod.mk.injEq] at e
      obtain ⟨rfl, rfl, rfl⟩ := e
      have ⟨_, h2⟩ := g τ hτ s _ _ _ _ (fits_fresh junk τ) e1
      exact ⟨fun hb => (by cases hb), fun _ => ⟨(h2 rfl).1, (h2 rfl).2.1, fun _ => rfl⟩⟩
    · rename_i e1
      simp only [Option.some.injEq, Prod.mk.injEq] at e
      obtain ⟨rfl, rfl, rfl⟩ := e
      have ⟨h1, _⟩ := g τ hτ s _ _ _ _ (fits_fresh junk τ) e1
      refine ⟨fun _ => ?_, fun hb => (by cases hb)⟩
      obtain ⟨u, h3, h4, h5⟩ := h1 rfl
      refine ⟨u, h3, h4, fun _ => ?_⟩
      rw [h5 (clear_fresh junk p τ)]
      cases τ with
      | unused => rw [h4.1 rfl]; simp [fresh, store, push]
      | chr => obtain ⟨c, rfl⟩ := h4.2 rfl; simp [fresh, store, push]
      | str => exact absurd rfl hs

theorem store_append {d : Dest} (h : d.kind ≠ .chr) (u v : List Char) : store (store d u) v = store d (u ++ v) := by
  cases d with
  | unused => rfl
  | str a => simp [store]
  | chr c => exact absurd rfl h

/-- The loop of a container. -/
theorem iter_step {junk : Char} {fuel : Nat} {p : Parser} (g : Good junk fuel p) {τ : Ty} (hτ : p.ty = some τ) (hs : τ ≠ .str) :
    ∀ (k : Nat) (s : List Char) (d : Dest) (t : List Char) (d' : Dest), iter (element junk p.ty (p.run junk fuel)) k s d = some (t, d') →
    ∃ n u, Many (fun a b v => Keeps p a (some (b, v))) n s t u ∧ Keeps p t none ∧ (τ = .unused → u = []) ∧ d' = store d u
  | 0, _, _, _, _, e => by cases e
  | k + 1, s, d, t, d', e => by
    have hd : d.kind ≠ .chr := by
      intro h
      cases d with
      | unused => cases h
      | str a => cases h
      | chr c => simp [iter, element] at e
    rw [iter] at e
    split at e
    · cases e
    · rename_i t1 d1 e1
      obtain ⟨u, h3, h4, h5⟩ := (element_step g hτ hs e1).1 rfl
      obtain ⟨n, v, h6, h7, h8, h9⟩ := iter_step g hτ hs k _ _ _ _ e
      refine ⟨n + 1, u ++ v, ⟨_, u, v, h3, h6, rfl⟩, h7, fun h => by rw [h4.1 h, h8 h]; rfl, ?_⟩
      rw [h9, h5 trivial, store_append hd]
    · rename_i t1 d1 e1
      simp only [Option.some.injEq, Prod.mk.injEq] at e
      obtain ⟨rfl, rfl⟩ := e
      obtain ⟨h3, h4, h5⟩ := (element_step g hτ hs e1).2 rfl
      subst h4
      exact ⟨0, [], ⟨rfl, rfl⟩, h3, fun _ => rfl, by rw [h5 trivial, store_nil]⟩

/-- One alternative. -/
theorem alt_step {junk : Char} {fuel : Nat} {p : Parser} (g : Good junk fuel p) {τ : Ty} (hτ : p.ty = some τ)
    {s : List Char} {d : Dest} {b : Bool} {t : List Char} {d' : Dest} (hf : Fits τ d)
    (e : (if p.isChoice then p.run junk fuel s d else alternative junk p.ty (p.run junk fuel) s d) = some (b, t, d')) :
    Step (Keeps p s) τ (τ = .unused ∨ ∀ a, d = .str a → a = []) True s d b t d' := by
  split at e
  · rename_i hc
    have ⟨h1, h2⟩ := g τ hτ s d b t d' hf e
    refine ⟨fun hb => ?_, fun hb => ⟨(h2 hb).1, (h2 hb).2.1, fun _ => (h2 hb).2.2 ?_⟩⟩
    · obtain ⟨u, h3, h4, h5⟩ := h1 hb
      refine ⟨u, h3, h4, fun h => h5 ?_⟩
      rcases h with h | h
      · subst h; exact .inl (replaces_unused p hτ)
      · exact .inr h
    · cases p <;> first | rfl | cases hc
  · simp only [alternative, hτ] at e
    split at e
    · rename_i hd
      split at e
      · cases e
      · rename_i e1
        simp only [Option.some.injEq, Prod.mk.injEq] at e
        obtain ⟨rfl, rfl, rfl⟩ := e
        have ⟨h1, h2⟩ := g τ hτ s _ _ _ _ (fits_unused τ) e1
        refine ⟨fun hb => ?_, fun hb => ⟨(h2 hb).1, (h2 hb).2.1, fun _ => rfl⟩⟩
        obtain ⟨u, h3, h4, _⟩ := h1 hb
        refine ⟨u, h3, h4, fun _ => ?_⟩
        rcases hd with h | h
        · subst h; rfl
        · rw [h4.1 h, store_nil]
    · rename_i hd
      split at e
      · cases e
      · rename_i e1
        simp only [Option.some.injEq, Prod.mk.injEq] at e
        obtain ⟨rfl, rfl, rfl⟩ := e
        have ⟨_, h2⟩ := g τ hτ s _ _ _ _ (fits_fresh junk τ) e1
        exact ⟨fun hb => (by cases hb), fun _ => ⟨(h2 rfl).1, (h2 rfl).2.1, fun _ => rfl⟩⟩
      · rename_i e1
        simp only [Option.some.injEq, Prod.mk.injEq] at e
        obtain ⟨rfl, rfl, rfl⟩ := e
        have ⟨h1, _⟩ := g τ hτ s _ _ _ _ (fits_fresh junk τ) e1
        refine ⟨fun _ => ?_, fun hb => (by cases hb)⟩
        obtain ⟨u, h3, h4, h5⟩ := h1 rfl
        refine ⟨u, h3, h4, fun h => ?_⟩
        rw [h5 (clear_fresh junk p τ)]
        have h' : ∀ a, d = .str a → a = [] := by
          rcases h with h | h
          · exact absurd (.inr h) hd
          · exact h
        cases τ with
        | unused => exact absurd (.inr rfl) hd
        | chr =>
          obtain ⟨c, rfl⟩ := h4.2 rfl
          cases d with
          | unused => exact absurd (.inl rfl) hd
          | chr x => rfl
          | str a => rw [h' a rfl]; rfl
        | str =>
          cases d with
          | unused => exact absurd (.inl rfl) hd
          | chr x => exact absurd rfl (hf rfl)
          | str a => rw [h' a rfl]; rfl

theorem good (junk : Char) (fuel : Nat) : ∀ p : Parser, proper p = true → Good junk fuel p
  | .sat p, _ => by
    intro τ hτ s d b t d' hf e
    simp only [Parser.ty, Option.some.injEq] at hτ
    subst hτ
    cases s with
    | nil =>
      simp only [Parser.run, Option.some.injEq, Prod.mk.injEq] at e
      obtain ⟨rfl, rfl, rfl⟩ := e
      exact ⟨fun hb => (by cases hb), fun _ => ⟨.inr ⟨by simp, rfl⟩, rfl, fun _ => rfl⟩⟩
    | cons c s =>
      rw [Parser.run] at e
      split at e <;> rename_i hc <;> simp only [Option.some.injEq, Prod.mk.injEq] at e <;> obtain ⟨rfl, rfl, rfl⟩ := e
      · refine ⟨fun _ => ⟨[c], .inl ⟨c, s, rfl, hc, rfl⟩, ⟨by simp, fun _ => ⟨c, rfl⟩⟩, fun _ => by cases d <;> rfl⟩, fun hb => (by cases hb)⟩
      · exact ⟨fun hb => (by cases hb), fun _ => ⟨.inr ⟨fun c' t' e => by simp at e; rw [← e.1]; simpa using hc, rfl⟩, rfl, fun _ => rfl⟩⟩
  | .str w, _ => by
    intro τ hτ s d b t d' hf e
    simp only [Parser.ty, Option.some.injEq] at hτ
    subst hτ
    cases d with
    | chr c => cases e
    | unused =>
      rw [Parser.run] at e
      rcases copy_spec w s [] with ⟨r, rfl, h⟩ | ⟨h1, h2⟩
      · rw [h] at e
        simp only [if_true, Option.some.injEq, Prod.mk.injEq] at e
        obtain ⟨rfl, rfl, rfl⟩ := e
        exact ⟨fun _ => ⟨w, .inl ⟨r, rfl, rfl⟩, ⟨by simp, by simp⟩, fun _ => rfl⟩, fun hb => (by cases hb)⟩
      · rw [h2] at e
        simp only [Bool.false_eq_true, if_false, Option.some.injEq, Prod.mk.injEq] at e
        obtain ⟨rfl, rfl, rfl⟩ := e
        exact ⟨fun hb => (by cases hb), fun _ => ⟨.inr ⟨h1, rfl⟩, rfl, fun _ => rfl⟩⟩
    | str a =>
      rw [Parser.run] at e
      rcases copy_spec w s [] with ⟨r, rfl, h⟩ | ⟨h1, h2⟩
      · rw [h] at e
        simp only [if_true, Option.some.injEq, Prod.mk.injEq] at e
        obtain ⟨rfl, rfl, rfl⟩ := e
        refine ⟨fun _ => ⟨w, .inl ⟨r, rfl, rfl⟩, ⟨by simp, by simp⟩, fun h => ?_⟩, fun hb => (by cases hb)⟩
        rcases h with h | h
        · cases h
        · rw [h a rfl]; rfl
      · rw [h2] at e
        simp only [Bool.false_eq_true, if_false, Option.some.injEq, Prod.mk.injEq] at e
        obtain ⟨rfl, rfl, rfl⟩ := e
        exact ⟨fun hb => (by cases hb), fun _ => ⟨.inr ⟨h1, rfl⟩, rfl, fun h => by cases h⟩⟩
  | .ignore p, hp => by
    intro τ hτ s d b t d' hf e
    simp only [proper, Bool.and_eq_true] at hp
    obtain ⟨τp, hτp⟩ := Option.isSome_iff_exists.mp hp.2
    rw [Parser.run] at e
    split at e
    · cases e
    · rename_i e1
      simp only [Option.some.injEq, Prod.mk.injEq] at e
      obtain ⟨rfl, rfl, rfl⟩ := e
      have ⟨h1, h2⟩ := good junk fuel p hp.1 τp hτp s _ _ _ _ (fits_unused τp) e1
      simp only [Parser.ty, Option.some.injEq] at hτ
      subst hτ
      refine ⟨fun hb => ?_, fun hb => ⟨.inr ⟨(h2 hb).1, rfl⟩, (h2 hb).2.1, fun _ => rfl⟩⟩
      obtain ⟨u, h3, _⟩ := h1 hb
      exact ⟨[], .inl ⟨_, u, h3, rfl⟩, ⟨fun _ => rfl, by simp⟩, fun _ => (store_nil d).symm⟩
  | .seq p q, hp => by
    intro τ hτ s d b t d' hf e
    simp only [proper, Bool.and_eq_true, Bool.or_eq_true, decide_eq_true_eq, Bool.not_eq_true'] at hp
    obtain ⟨⟨hp1, hp2⟩, hr⟩ := hp
    cases hτp : p.ty with
    | none => simp [Parser.ty, hτp] at hτ
    | some τp =>
    cases hτq : q.ty with
    | none => simp [Parser.ty, hτp, hτq] at hτ
    | some τq =>
    simp only [Parser.ty, hτp, hτq, Option.bind_eq_bind, Option.bind_some] at hτ
    have fp : Fits τp d := fun h => by have := hf h; revert this hτ; cases τp <;> cases τq <;> cases τ <;> simp [seqTy]
    have fq : Fits τq d := fun h => by have := hf h; revert this hτ; cases τp <;> cases τq <;> cases τ <;> simp [seqTy]
    rw [Parser.run] at e
    split at e
    · cases e
    · rename_i e1
      simp only [Option.some.injEq, Prod.mk.injEq] at e
      obtain ⟨rfl, rfl, rfl⟩ := e
      obtain ⟨h1, h2, h3⟩ := (good junk fuel p hp1 τp hτp _ _ _ _ _ fp e1).2 rfl
      refine ⟨fun hb => (by cases hb), fun _ => ⟨.inr ⟨h1, rfl⟩, rfl, fun h => h3 ?_⟩⟩
      simp only [tidy, Bool.and_eq_true] at h
      exact h.1.2
    · rename_i t1 d1 e1
      obtain ⟨u, h3, h4, h5⟩ := (good junk fuel p hp1 τp hτp _ _ _ _ _ fp e1).1 rfl
      have fq' : Fits τq d1 := fun h => fq (by rw [← h, run_kind junk fuel p _ _ _ _ _ e1])
      split at e
      · cases e
      · rename_i e2
        simp only [Option.some.injEq, Prod.mk.injEq] at e
        obtain ⟨rfl, rfl, rfl⟩ := e
        obtain ⟨h6, h7, h8⟩ := (good junk fuel q hp2 τq hτq _ _ _ _ _ fq' e2).2 rfl
        refine ⟨fun hb => (by cases hb), fun _ => ⟨.inl ⟨_, u, h3, .inr ⟨h6, rfl⟩⟩, rfl, fun h => ?_⟩⟩
        simp only [tidy, Bool.and_eq_true, decide_eq_true_eq] at h
        have : τp = .unused := by have := h.1.1; rw [hτp] at this; exact Option.some.inj this
        subst this
        rw [h8 h.2, h5 (.inl (replaces_unused p hτp)), h4.1 rfl, store_nil]
      · rename_i e2
        simp only [Option.some.injEq, Prod.mk.injEq] at e
        obtain ⟨rfl, rfl, rfl⟩ := e
        obtain ⟨v, h6, h7, h8⟩ := (good junk fuel q hp2 τq hτq _ _ _ _ _ fq' e2).1 rfl
        refine ⟨fun _ => ⟨u ++ v, .inl ⟨_, u, h3, .inl ⟨_, v, h6, rfl⟩⟩, ?_, fun h => ?_⟩, fun hb => (by cases hb)⟩
        · constructor
          · intro h
            have : τp = .unused ∧ τq = .unused := by revert hτ; subst h; cases τp <;> cases τq <;> simp [seqTy]
            rw [h4.1 this.1, h7.1 this.2]; rfl
          · intro h
            have : (τp = .unused ∧ τq = .chr) ∨ (τp = .chr ∧ τq = .unused) := by revert hτ; subst h; cases τp <;> cases τq <;> simp [seqTy]
            rcases this with ⟨a, b⟩ | ⟨a, b⟩
            · obtain ⟨c, rfl⟩ := h7.2 b; exact ⟨c, by rw [h4.1 a]; rfl⟩
            · obtain ⟨c, rfl⟩ := h4.2 a; exact ⟨c, by rw [h7.1 b]; rfl⟩
        · have cp : Clear p d := by
            rcases h with h | h
            · simp only [replaces, Bool.or_eq_false_iff] at h; exact .inl h.1
            · exact .inr h
          have hd1 := h5 cp
          have cq : Clear q d1 := by
            rcases hr with hr | hr
            · rw [hτp] at hr
              rw [hd1, h4.1 (Option.some.inj hr), store_nil]
              rcases h with h | h
              · simp only [replaces, Bool.or_eq_false_iff] at h; exact .inl h.2
              · exact .inr h
            · exact .inl hr
          rw [h8 cq, hd1]
          by_cases hk : d.kind = .chr
          · have : τp = .unused ∨ τq = .unused := by have := hf hk; revert this hτ; cases τp <;> cases τq <;> cases τ <;> simp [seqTy]
            rcases this with a | a
            · rw [h4.1 a, store_nil]; rfl
            · rw [h7.1 a, store_nil, List.append_nil]
          · exact store_append hk u v
  | .choice p q, hp => by
    intro τ hτ s d b t d' hf e
    simp only [proper, Bool.and_eq_true, decide_eq_true_eq] at hp
    obtain ⟨⟨hp1, hp2⟩, hr⟩ := hp
    have hτp : p.ty = some τ := by
      rw [Parser.ty, ← hr] at hτ
      cases h : p.ty with
      | none => simp [h] at hτ
      | some x => rw [h] at hτ; revert hτ; cases x <;> simp [choiceTy]
    have hτq : q.ty = some τ := by rw [← hr, hτp]
    have hc : Clear (.choice p q) d → τ = .unused ∨ ∀ a, d = .str a → a = [] := by
      rintro (h | h)
      · simp only [replaces, hτ] at h
        left; simpa using h
      · exact .inr h
    rw [Parser.run] at e
    split at e
    · cases e
    · rename_i e1
      simp only [Option.some.injEq, Prod.mk.injEq] at e
      obtain ⟨rfl, rfl, rfl⟩ := e
      obtain ⟨u, h3, h4, h5⟩ := (alt_step (good junk fuel p hp1) hτp hf e1).1 rfl
      exact ⟨fun _ => ⟨u, .inl ⟨_, h3, rfl⟩, h4, fun h => h5 (hc h)⟩, fun hb => (by cases hb)⟩
    · rename_i e1
      obtain ⟨h1, _, h2⟩ := (alt_step (good junk fuel p hp1) hτp hf e1).2 rfl
      have h2 := h2 trivial
      subst h2
      split at e
      · cases e
      · rename_i e2
        simp only [Option.some.injEq, Prod.mk.injEq] at e
        obtain ⟨rfl, rfl, rfl⟩ := e
        obtain ⟨u, h3, h4, h5⟩ := (alt_step (good junk fuel q hp2) hτq hf e2).1 rfl
        exact ⟨fun _ => ⟨u, .inr ⟨h1, h3⟩, h4, fun h => h5 (hc h)⟩, fun hb => (by cases hb)⟩
      · rename_i e2
        simp only [Option.some.injEq, Prod.mk.injEq] at e
        obtain ⟨rfl, rfl, rfl⟩ := e
        obtain ⟨h3, _, h4⟩ := (alt_step (good junk fuel q hp2) hτq hf e2).2 rfl
        exact ⟨fun hb => (by cases hb), fun _ => ⟨.inr ⟨h1, h3⟩, rfl, fun _ => h4 trivial⟩⟩
  | .kleene p, hp => by
    intro τ hτ s d b t d' hf e
    cases hτp : p.ty with
    | none => simp [Parser.ty, hτp] at hτ
    | some τp =>
    simp only [Parser.ty, hτp, Option.bind_eq_bind, Option.bind_some] at hτ
    have hs : τp ≠ .str := by rintro rfl; cases hτ
    rw [Parser.run] at e
    split at e
    · cases e
    · rename_i e1
      simp only [Option.some.injEq, Prod.mk.injEq] at e
      obtain ⟨rfl, rfl, rfl⟩ := e
      obtain ⟨n, u, h1, h2, h3, h4⟩ := iter_step (good junk fuel p hp) hτp hs _ _ _ _ _ e1
      refine ⟨fun _ => ⟨u, ⟨n, _, u, h1, h2, rfl⟩, ⟨fun h => h3 ?_, fun h => ?_⟩, fun _ => h4⟩, fun hb => (by cases hb)⟩
      · revert hτ; subst h; cases τp <;> simp [manyTy]
      · revert hτ; subst h; cases τp <;> simp [manyTy]
  | .plus p, hp => by
    intro τ hτ s d b t d' hf e
    cases hτp : p.ty with
    | none => simp [Parser.ty, hτp] at hτ
    | some τp =>
    simp only [Parser.ty, hτp, Option.bind_eq_bind, Option.bind_some] at hτ
    have hs : τp ≠ .str := by rintro rfl; cases hτ
    rw [Parser.run] at e
    split at e
    · cases e
    · rename_i e1
      simp only [Option.some.injEq, Prod.mk.injEq] at e
      obtain ⟨rfl, rfl, rfl⟩ := e
      obtain ⟨h1, h2, h3⟩ := (element_step (good junk fuel p hp) hτp hs e1).2 rfl
      exact ⟨fun hb => (by cases hb), fun _ => ⟨.inr ⟨h1, rfl⟩, h2, fun _ => h3 trivial⟩⟩
    · rename_i e1
      split at e
      · cases e
      · rename_i e2
        simp only [Option.some.injEq, Prod.mk.injEq] at e
        obtain ⟨rfl, rfl, rfl⟩ := e
        have hd : d.kind ≠ .chr := by
          intro h
          cases d with
          | unused => cases h
          | str a => cases h
          | chr c => simp [element] at e1
        obtain ⟨v, h5, h6, h7⟩ := (element_step (good junk fuel p hp) hτp hs e1).1 rfl
        obtain ⟨n, u, h1, h2, h3, h4⟩ := iter_step (good junk fuel p hp) hτp hs _ _ _ _ _ e2
        refine ⟨fun _ => ⟨v ++ u, .inl ⟨n, _, _, ⟨_, v, u, h5, h1, rfl⟩, h2, rfl⟩, ⟨fun h => ?_, fun h => ?_⟩, fun _ => ?_⟩, fun hb => (by cases hb)⟩
        · have : τp = .unused := by revert hτ; subst h; cases τp <;> simp [manyTy]
          rw [h6.1 this, h3 this]; rfl
        · revert hτ; subst h; cases τp <;> simp [manyTy]
        · rw [h4, h7 trivial, store_append hd]
  | .maybe p, hp => by
    intro τ hτ s d b t d' hf e
    simp only [proper, Bool.and_eq_true, decide_eq_true_eq] at hp
    obtain ⟨⟨hp1, ht⟩, hn⟩ := hp
    rw [Parser.ty] at hτ
    rw [Parser.run] at e
    split at e
    · cases e
    · rename_i b' t' d1 e1
      simp only [Option.some.injEq, Prod.mk.injEq] at e
      obtain ⟨rfl, rfl, rfl⟩ := e
      have ⟨h1, h2⟩ := good junk fuel p hp1 τ hτ _ _ _ _ _ hf e1
      refine ⟨fun _ => ?_, fun hb => (by cases hb)⟩
      cases b' with
      | true =>
        obtain ⟨u, h3, h4, h5⟩ := h1 rfl
        exact ⟨u, .inl ⟨_, h3, rfl⟩, h4, fun h => h5 h⟩
      | false =>
        obtain ⟨h3, h4, h5⟩ := h2 rfl
        subst h4
        refine ⟨[], .inr ⟨h3, rfl⟩, ⟨fun _ => rfl, fun h => ?_⟩, fun _ => by rw [h5 ht, store_nil]⟩
        subst h; exact absurd hτ hn
  | .neg p, hp => by
    intro τ hτ s d b t d' hf e
    simp only [proper, Bool.and_eq_true] at hp
    obtain ⟨τp, hτp⟩ := Option.isSome_iff_exists.mp hp.2
    simp only [Parser.ty, Option.some.injEq] at hτ
    subst hτ
    rw [Parser.run] at e
    split at e
    · cases e
    · rename_i b' t' d1 e1
      simp only [Option.some.injEq, Prod.mk.injEq] at e
      obtain ⟨rfl, rfl, rfl⟩ := e
      have ⟨h1, h2⟩ := good junk fuel p hp.1 τp hτp _ _ _ _ _ (fits_unused τp) e1
      cases b' with
      | true =>
        obtain ⟨u, h3, _⟩ := h1 rfl
        exact ⟨fun hb => (by cases hb), fun _ => ⟨.inl ⟨_, h3, rfl⟩, rfl, fun _ => rfl⟩⟩
      | false =>
        exact ⟨fun _ => ⟨[], .inr ⟨(h2 rfl).1, rfl⟩, ⟨fun _ => rfl, by simp⟩, fun _ => (store_nil d).symm⟩, fun hb => (by cases hb)⟩
  | .diff p q, hp => by
    intro τ hτ s d b t d' hf e
    simp only [proper, Bool.and_eq_true] at hp
    obtain ⟨⟨hp1, hp2⟩, hq⟩ := hp
    obtain ⟨τq, hτq⟩ := Option.isSome_iff_exists.mp hq
    rw [Parser.ty] at hτ
    rw [Parser.run] at e
    split at e
    · cases e
    · rename_i e1
      obtain ⟨h1, h2, _⟩ := (good junk fuel q hp2 τq hτq _ _ _ _ _ (fits_unused τq) e1).2 rfl
      subst h2
      have ⟨h3, h4⟩ := good junk fuel p hp1 τ hτ _ _ _ _ _ hf e
      refine ⟨fun hb => ?_, fun hb => ⟨.inr ⟨h1, (h4 hb).1⟩, (h4 hb).2.1, fun h => (h4 hb).2.2 h⟩⟩
      obtain ⟨u, h5, h6, h7⟩ := h3 hb
      exact ⟨u, .inr ⟨h1, h5⟩, h6, fun h => h7 h⟩
    · rename_i e1
      simp only [Option.some.injEq, Prod.mk.injEq] at e
      obtain ⟨rfl, rfl, rfl⟩ := e
      obtain ⟨u, h3, _⟩ := (good junk fuel q hp2 τq hτq _ _ _ _ _ (fits_unused τq) e1).1 rfl
      exact ⟨fun hb => (by cases hb), fun _ => ⟨.inl ⟨_, h3, rfl⟩, rfl, fun _ => rfl⟩⟩

/-- A parser keeps one text. -/
theorem keeps_unique : ∀ (p : Parser) (s : List Char) (r r' : Option (List Char × List Char)), Keeps p s r → Keeps p s r' → r = r' := by
  have many : ∀ (R : List Char → Option (List Char × List Char) → Prop), (∀ s r r', R s r → R s r' → r = r') →
      ∀ n s t u n' t' u', Many (fun a b v => R a (some (b, v))) n s t u → R t none → Many (fun a b v => R a (some (b, v))) n' s t' u' → R t' none → n = n' ∧ t = t' ∧ u = u' := by
    intro R det n
    induction n with
    | zero =>
      rintro s t u n' t' u' ⟨rfl, rfl⟩ h1 h2 h3
      cases n' with
      | zero => obtain ⟨rfl, rfl⟩ := h2; exact ⟨rfl, rfl, rfl⟩
      | succ n' => obtain ⟨m, a, b, h4, _⟩ := h2; cases det _ _ _ h1 h4
    | succ n ih =>
      rintro s t u n' t' u' ⟨m, a, b, h4, h5, rfl⟩ h1 h2 h3
      cases n' with
      | zero => obtain ⟨rfl, rfl⟩ := h2; cases det _ _ _ h3 h4
      | succ n' =>
        obtain ⟨m', a', b', h6, h7, rfl⟩ := h2
        have := det _ _ _ h4 h6
        simp only [Option.some.injEq, Prod.mk.injEq] at this
        obtain ⟨rfl, rfl⟩ := this
        obtain ⟨rfl, rfl, rfl⟩ := ih _ _ _ _ _ _ h5 h1 h7 h3
        exact ⟨rfl, rfl, rfl⟩
  intro p
  induction p with
  | sat p =>
    rintro s r r' (⟨c, t, rfl, h, rfl⟩ | ⟨h, rfl⟩) (⟨c', t', e, h', rfl⟩ | ⟨h', rfl⟩)
    · simp at e; rw [e.1, e.2]
    · rw [h' c t rfl] at h; cases h
    · rw [h _ _ e] at h'; cases h'
    · rfl
  | str w =>
    rintro s r r' (⟨t, rfl, rfl⟩ | ⟨h, rfl⟩) (⟨t', e, rfl⟩ | ⟨h', rfl⟩)
    · simp at e; rw [e]
    · exact absurd rfl (h' t)
    · exact absurd e (h t')
    · rfl
  | ignore p ih =>
    rintro s r r' (⟨t, u, h, rfl⟩ | ⟨h, rfl⟩) (⟨t', u', h', rfl⟩ | ⟨h', rfl⟩)
    · have := ih _ _ _ h h'; simp at this; rw [this.1]
    · cases ih _ _ _ h h'
    · cases ih _ _ _ h h'
    · rfl
  | seq p q ihp ihq =>
    rintro s r r' (⟨t, u, h, h1⟩ | ⟨h, rfl⟩) (⟨t', u', h', h1'⟩ | ⟨h', rfl⟩)
    · have := ihp _ _ _ h h'
      simp only [Option.some.injEq, Prod.mk.injEq] at this
      obtain ⟨rfl, rfl⟩ := this
      rcases h1 with ⟨a, b, h2, rfl⟩ | ⟨h2, rfl⟩ <;> rcases h1' with ⟨a', b', h3, rfl⟩ | ⟨h3, rfl⟩
      · have := ihq _ _ _ h2 h3; simp at this; rw [this.1, this.2]
      · cases ihq _ _ _ h2 h3
      · cases ihq _ _ _ h2 h3
      · rfl
    · cases ihp _ _ _ h h'
    · cases ihp _ _ _ h h'
    · rfl
  | choice p q ihp ihq =>
    rintro s r r' (⟨x, h, rfl⟩ | ⟨h, h1⟩) (⟨x', h', rfl⟩ | ⟨h', h1'⟩)
    · exact ihp _ _ _ h h'
    · cases ihp _ _ _ h h'
    · cases ihp _ _ _ h h'
    · exact ihq _ _ _ h1 h1'
  | kleene p ih =>
    rintro s r r' ⟨n, t, u, h, h1, rfl⟩ ⟨n', t', u', h', h1', rfl⟩
    obtain ⟨_, rfl, rfl⟩ := many (Keeps p) ih _ _ _ _ _ _ _ h h1 h' h1'
    rfl
  | plus p ih =>
    rintro s r r' (⟨n, t, u, h, h1, rfl⟩ | ⟨h, rfl⟩) (⟨n', t', u', h', h1', rfl⟩ | ⟨h', rfl⟩)
    · obtain ⟨_, rfl, rfl⟩ := many (Keeps p) ih _ _ _ _ _ _ _ h h1 h' h1'
      rfl
    · obtain ⟨m, a, b, h2, _⟩ := h; cases ih _ _ _ h2 h'
    · obtain ⟨m, a, b, h2, _⟩ := h'; cases ih _ _ _ h h2
    · rfl
  | maybe p ih =>
    rintro s r r' (⟨x, h, rfl⟩ | ⟨h, rfl⟩) (⟨x', h', rfl⟩ | ⟨h', rfl⟩)
    · exact ih _ _ _ h h'
    · cases ih _ _ _ h h'
    · cases ih _ _ _ h h'
    · rfl
  | neg p ih =>
    rintro s r r' (⟨x, h, rfl⟩ | ⟨h, rfl⟩) (⟨x', h', rfl⟩ | ⟨h', rfl⟩)
    · rfl
    · cases ih _ _ _ h h'
    · cases ih _ _ _ h h'
    · rfl
  | diff p q ihp ihq =>
    rintro s r r' (⟨x, h, rfl⟩ | ⟨h, h1⟩) (⟨x', h', rfl⟩ | ⟨h', h1'⟩)
    · rfl
    · cases ihq _ _ _ h h'
    · cases ihq _ _ _ h h'
    · exact ihp _ _ _ h1 h1'

end Verif.Combinator.Text
