import Verif.Combinator.TextSpec
namespace Verif.Combinator.Text
open Spec

/-- Which object it is. -/
def Dest.kind : Dest → Ty
  | .unused => .unused
  | .chr _ => .chr
  | .str _ => .str

/-- What becomes of an object if `u` is kept. -/
def store : Dest → List Char → Dest
  | .unused, _ => .unused
  | .str a, u => .str (a ++ u)
  | .chr c, [] => .chr c
  | .chr _, x :: _ => .chr x

theorem store_nil (d : Dest) : store d [] = d := by cases d <;> simp [store]

theorem store_kind (d : Dest) (u : List Char) : (store d u).kind = d.kind := by
  cases d with
  | unused => rfl
  | str a => rfl
  | chr c => cases u <;> rfl

theorem assign_kind (d x : Dest) : (assign d x).kind = d.kind := by cases d <;> cases x <;> rfl

theorem iter_kind (step : List Char → Dest → Res) (h : ∀ s d b t d', step s d = some (b, t, d') → d'.kind = d.kind) :
    ∀ (k : Nat) (s : List Char) (d : Dest) (t : List Char) (d' : Dest), iter step k s d = some (t, d') → d'.kind = d.kind
  | 0, _, _, _, _, e => by cases e
  | k + 1, s, d, t, d', e => by
    rw [iter] at e
    split at e
    · cases e
    · rename_i t1 d1 e1
      rw [iter_kind step h k _ _ _ _ e, h _ _ _ _ _ e1]
    · rename_i t1 d1 e1
      simp only [Option.some.injEq, Prod.mk.injEq] at e
      rw [← e.2, h _ _ _ _ _ e1]

theorem element_kind (junk : Char) (τ : Option Ty) (run : List Char → Dest → Res) (h : ∀ s d b t d', run s d = some (b, t, d') → d'.kind = d.kind)
    (s : List Char) (d : Dest) (b : Bool) (t : List Char) (d' : Dest) (e : element junk τ run s d = some (b, t, d')) : d'.kind = d.kind := by
  cases d with
  | unused => exact h _ _ _ _ _ e
  | chr c => cases e
  | str a =>
    simp only [element] at e
    split at e
    · cases e
    · split at e
      · cases e
      · simp only [Option.some.injEq, Prod.mk.injEq] at e; rw [← e.2.2]
      · simp only [Option.some.injEq, Prod.mk.injEq] at e; rw [← e.2.2]; rfl

theorem alternative_kind (junk : Char) (τ : Option Ty) (run : List Char → Dest → Res)
    (s : List Char) (d : Dest) (b : Bool) (t : List Char) (d' : Dest) (e : alternative junk τ run s d = some (b, t, d')) : d'.kind = d.kind := by
  unfold alternative at e
  split at e
  · cases e
  · split at e
    · split at e
      · cases e
      · simp only [Option.some.injEq, Prod.mk.injEq] at e; rw [← e.2.2]
    · split at e
      · cases e
      · simp only [Option.some.injEq, Prod.mk.injEq] at e; rw [← e.2.2]
      · simp only [Option.some.injEq, Prod.mk.injEq] at e; rw [← e.2.2, assign_kind]

theorem run_kind (junk : Char) (fuel : Nat) : ∀ (p : Parser) (s : List Char) (d : Dest) (b : Bool) (t : List Char) (d' : Dest),
    p.run junk fuel s d = some (b, t, d') → d'.kind = d.kind
  | .sat p, [], d, b, t, d', h => by simp only [Parser.run, Option.some.injEq, Prod.mk.injEq] at h; rw [← h.2.2]
  | .sat p, c :: s, d, b, t, d', h => by
    rw [Parser.run] at h
    split at h <;> simp only [Option.some.injEq, Prod.mk.injEq] at h <;> rw [← h.2.2]
    cases d <;> rfl
  | .str w, s, .unused, b, t, d', h => by
    rw [Parser.run] at h
    split at h <;> simp only [Option.some.injEq, Prod.mk.injEq] at h <;> rw [← h.2.2]
  | .str w, s, .chr c, b, t, d', h => by cases h
  | .str w, s, .str a, b, t, d', h => by
    rw [Parser.run] at h
    split at h <;> simp only [Option.some.injEq, Prod.mk.injEq] at h <;> rw [← h.2.2] <;> rfl
  | .ignore p, s, d, b, t, d', h => by
    rw [Parser.run] at h
    split at h
    · cases h
    · simp only [Option.some.injEq, Prod.mk.injEq] at h; rw [← h.2.2]
  | .seq p q, s, d, b, t, d', h => by
    rw [Parser.run] at h
    split at h
    · cases h
    · rename_i e
      simp only [Option.some.injEq, Prod.mk.injEq] at h
      rw [← h.2.2]; exact run_kind junk fuel p _ _ _ _ _ e
    · rename_i e
      split at h
      · cases h
      · rename_i e'
        simp only [Option.some.injEq, Prod.mk.injEq] at h
        rw [← h.2.2, run_kind junk fuel q _ _ _ _ _ e', run_kind junk fuel p _ _ _ _ _ e]
      · rename_i e'
        simp only [Option.some.injEq, Prod.mk.injEq] at h
        rw [← h.2.2, run_kind junk fuel q _ _ _ _ _ e', run_kind junk fuel p _ _ _ _ _ e]
  | .choice p q, s, d, b, t, d', h => by
    have alt : ∀ (p : Parser), (∀ s d b t d', p.run junk fuel s d = some (b, t, d') → d'.kind = d.kind) → ∀ s d b t d',
        (if p.isChoice then p.run junk fuel s d else alternative junk p.ty (p.run junk fuel) s d) = some (b, t, d') → d'.kind = d.kind := by
      intro p hp s d b t d' e
      split at e
      · exact hp _ _ _ _ _ e
      · exact alternative_kind _ _ _ _ _ _ _ _ e
    have hp := alt p (run_kind junk fuel p)
    have hq := alt q (run_kind junk fuel q)
    rw [Parser.run] at h
    split at h
    · cases h
    · rename_i e
      simp only [Option.some.injEq, Prod.mk.injEq] at h
      rw [← h.2.2]; exact hp _ _ _ _ _ e
    · rename_i e
      split at h
      · cases h
      · rename_i e'
        simp only [Option.some.injEq, Prod.mk.injEq] at h
        rw [← h.2.2, hq _ _ _ _ _ e', hp _ _ _ _ _ e]
      · rename_i e'
        simp only [Option.some.injEq, Prod.mk.injEq] at h
        rw [← h.2.2, hq _ _ _ _ _ e', hp _ _ _ _ _ e]
  | .kleene p, s, d, b, t, d', h => by
    have he := element_kind junk p.ty _ (run_kind junk fuel p)
    rw [Parser.run] at h
    split at h
    · cases h
    · rename_i e
      simp only [Option.some.injEq, Prod.mk.injEq] at h
      rw [← h.2.2]; exact iter_kind _ he _ _ _ _ _ e
  | .plus p, s, d, b, t, d', h => by
    have he := element_kind junk p.ty _ (run_kind junk fuel p)
    rw [Parser.run] at h
    split at h
    · cases h
    · rename_i e
      simp only [Option.some.injEq, Prod.mk.injEq] at h
      rw [← h.2.2]; exact he _ _ _ _ _ e
    · rename_i e
      split at h
      · cases h
      · rename_i e'
        simp only [Option.some.injEq, Prod.mk.injEq] at h
        rw [← h.2.2, iter_kind _ he _ _ _ _ _ e', he _ _ _ _ _ e]
  | .maybe p, s, d, b, t, d', h => by
    rw [Parser.run] at h
    split at h
    · cases h
    · rename_i e
      simp only [Option.some.injEq, Prod.mk.injEq] at h
      rw [← h.2.2]; exact run_kind junk fuel p _ _ _ _ _ e
  | .neg p, s, d, b, t, d', h => by
    rw [Parser.run] at h
    split at h
    · cases h
    · simp only [Option.some.injEq, Prod.mk.injEq] at h; rw [← h.2.2]
  | .diff p q, s, d, b, t, d', h => by
    rw [Parser.run] at h
    split at h
    · cases h
    · exact run_kind junk fuel p _ _ _ _ _ h
    · simp only [Option.some.injEq, Prod.mk.injEq] at h; rw [← h.2.2]

theorem copy_spec : ∀ (w s a : List Char), (∃ t, s = w ++ t ∧ copy w s a = (true, t, a ++ w)) ∨ ((∀ t, s ≠ w ++ t) ∧ (copy w s a).1 = false)
  | [], s, a => .inl ⟨s, rfl, by simp [copy]⟩
  | c :: w, [], a => .inr ⟨by simp, rfl⟩
  | c :: w, b :: s, a => by
    rw [copy]
    by_cases h : b = c
    · rw [if_pos h]
      subst h
      rcases copy_spec w s (a ++ [b]) with ⟨t, rfl, e⟩ | ⟨h1, h2⟩
      · exact .inl ⟨t, rfl, by rw [e]; simp⟩
      · exact .inr ⟨fun t e => h1 t (by simpa using e), h2⟩
    · rw [if_neg h]
      exact .inr ⟨fun t e => h (by simp at e; exact e.1), rfl⟩

theorem replaces_unused : ∀ p : Parser, p.ty = some .unused → replaces p = false
  | .sat _, h => rfl
  | .str _, h => by simp [Parser.ty] at h
  | .ignore _, _ => rfl
  | .seq p q, h => by
    rw [Parser.ty] at h
    cases hp : p.ty with
    | none => simp [hp] at h
    | some a =>
      cases hq : q.ty with
      | none => simp [hp, hq] at h
      | some b =>
        simp only [hp, hq, Option.bind_eq_bind, Option.bind_some] at h
        have : a = .unused ∧ b = .unused := by revert h; cases a <;> cases b <;> simp [seqTy]
        rw [replaces, replaces_unused p (by rw [hp, this.1]), replaces_unused q (by rw [hq, this.2])]; rfl
  | .choice p q, h => by simp [replaces, h]
  | .kleene _, _ => rfl
  | .plus _, _ => rfl
  | .maybe p, h => by rw [replaces]; exact replaces_unused p h
  | .neg _, _ => rfl
  | .diff p _, h => by rw [replaces]; exact replaces_unused p h

end Verif.Combinator.Text
