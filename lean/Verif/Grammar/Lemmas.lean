import Verif.Grammar.Spec
namespace Verif.Grammar
open Spec
variable {α : Type}

theorem on_some {r : Res α} {yes no : List α → Res α} {x : Bool × List α} (h : on r yes no = some x) :
    (∃ t, r = some (true, t) ∧ yes t = some x) ∨ (∃ t, r = some (false, t) ∧ no t = some x) := by
  unfold on at h
  split at h
  · cases h
  · exact .inl ⟨_, rfl, h⟩
  · exact .inr ⟨_, rfl, h⟩

theorem on_mono {r r' : Res α} {yes no yes' no' : List α → Res α} (hr : ∀ x, r = some x → r' = some x) (hy : ∀ t x, yes t = some x → yes' t = some x)
    (hn : ∀ t x, no t = some x → no' t = some x) (x : Bool × List α) (h : on r yes no = some x) : on r' yes' no' = some x := by
  rcases on_some h with ⟨t, h1, h2⟩ | ⟨t, h1, h2⟩
  · rw [hr _ h1]; exact hy _ _ h2
  · rw [hr _ h1]; exact hn _ _ h2

theorem run_succ (G : Nat → Parser α) : ∀ (n : Nat) (p : Parser α) (s : List α) (x : Bool × List α), p.run G n s = some x → p.run G (n + 1) s = some x
  | 0, _, _, _, h => by cases h
  | n + 1, p, s, x, h => by
    have ih := run_succ G n
    cases p with
    | leaf f => exact h
    | seq p q => exact on_mono (ih p s) (fun t => on_mono (ih q t) (fun _ _ h => h) (fun _ _ h => h)) (fun _ _ h => h) x h
    | choice p q => exact on_mono (ih p s) (fun _ _ h => h) (fun _ => on_mono (ih q s) (fun _ _ h => h) (fun _ _ h => h)) x h
    | kleene p => exact on_mono (ih p s) (fun t => ih (.kleene p) t) (fun _ _ h => h) x h
    | plus p => exact on_mono (ih p s) (fun t => ih (.kleene p) t) (fun _ _ h => h) x h
    | opt p => exact on_mono (ih p s) (fun _ _ h => h) (fun _ _ h => h) x h
    | list p q => exact on_mono (ih p s) (fun t => ih (.kleene (.seq q p)) t) (fun _ _ h => h) x h
    | conj p => exact on_mono (ih p s) (fun _ _ h => h) (fun _ _ h => h) x h
    | neg p => exact on_mono (ih p s) (fun _ _ h => h) (fun _ _ h => h) x h
    | diff p q => exact on_mono (ih q s) (fun _ _ h => h) (fun t => ih p t) x h
    | rule i => exact ih (G i) s x h

theorem run_mono (G : Nat → Parser α) {n m : Nat} (hnm : n ≤ m) {p : Parser α} {s : List α} {x : Bool × List α} (h : p.run G n s = some x) : p.run G m s = some x := by
  induction hnm with
  | refl => exact h
  | step _ ih => exact run_succ G _ _ _ _ ih

theorem run_unique (G : Nat → Parser α) {n m : Nat} {p : Parser α} {s : List α} {x y : Bool × List α} (h : p.run G n s = some x) (h' : p.run G m s = some y) : x = y := by
  have h1 := run_mono G (Nat.le_max_left n m) h
  have h2 := run_mono G (Nat.le_max_right n m) h'
  rw [h1] at h2
  exact Option.some.inj h2

/-- The answer of a call. -/
def answer (s : List α) : Option (List α) → Bool × List α
  | some t => (true, t)
  | none => (false, s)

theorem kleene_some (G : Nat → Parser α) {q : Parser α} {s : List α} {r : Option (List α)} (h : Accepts G q s r) : ∀ p, q = .kleene p → r ≠ none := by
  induction h with
  | more _ _ _ ih => intro p e; exact ih p e
  | stop _ _ => intro p e h; cases h
  | _ => intro p e; cases e

/-- A call that ends gives what the grammar says. -/
theorem sound (G : Nat → Parser α) : ∀ (n : Nat) (p : Parser α) (s : List α) (x : Bool × List α), p.run G n s = some x → ∃ r, Accepts G p s r ∧ x = answer s r
  | 0, _, _, _, h => by cases h
  | n + 1, p, s, x, h => by
    have yes : ∀ p s t, Parser.run G n p s = some (true, t) → Accepts G p s (some t) := by
      intro p s t h
      obtain ⟨r, h1, h2⟩ := sound G n p s _ h
      cases r with
      | none => cases h2
      | some u => cases h2; exact h1
    have no : ∀ p s t, Parser.run G n p s = some (false, t) → Accepts G p s none ∧ t = s := by
      intro p s t h
      obtain ⟨r, h1, h2⟩ := sound G n p s _ h
      cases r with
      | none => cases h2; exact ⟨h1, rfl⟩
      | some u => cases h2
    have all : ∀ p s x, Parser.run G n p s = some x → ∃ r, Accepts G p s r ∧ x = answer s r := sound G n
    cases p with
    | leaf f =>
      simp only [Parser.run] at h
      refine ⟨f s, .leaf, ?_⟩
      split at h <;> rename_i e <;> rw [e] <;> cases h <;> rfl
    | seq p q =>
      rcases on_some h with ⟨t, h1, h2⟩ | ⟨t, h1, h2⟩
      · rcases on_some h2 with ⟨u, h3, h4⟩ | ⟨u, h3, h4⟩
        · cases h4; exact ⟨some u, .seq (yes _ _ _ h1) (yes _ _ _ h3), rfl⟩
        · cases h4; exact ⟨none, .seq (yes _ _ _ h1) (no _ _ _ h3).1, rfl⟩
      · cases h2; exact ⟨none, .seqFail (no _ _ _ h1).1, rfl⟩
    | choice p q =>
      rcases on_some h with ⟨t, h1, h2⟩ | ⟨t, h1, h2⟩
      · cases h2; exact ⟨some t, .first (yes _ _ _ h1), rfl⟩
      · rcases on_some h2 with ⟨u, h3, h4⟩ | ⟨u, h3, h4⟩
        · cases h4; exact ⟨some u, .second (no _ _ _ h1).1 (yes _ _ _ h3), rfl⟩
        · cases h4; exact ⟨none, .second (no _ _ _ h1).1 (no _ _ _ h3).1, rfl⟩
    | kleene p =>
      rcases on_some h with ⟨t, h1, h2⟩ | ⟨t, h1, h2⟩
      · obtain ⟨r, h3, h4⟩ := all _ _ _ h2
        cases r with
        | some u => exact ⟨some u, .more (yes _ _ _ h1) h3, h4⟩
        | none => exact absurd rfl (kleene_some G h3 _ rfl)
      · cases h2
        obtain ⟨h3, rfl⟩ := no _ _ _ h1
        exact ⟨some t, .stop h3, rfl⟩
    | plus p =>
      rcases on_some h with ⟨t, h1, h2⟩ | ⟨t, h1, h2⟩
      · obtain ⟨r, h3, h4⟩ := all _ _ _ h2
        cases r with
        | some u => exact ⟨some u, .plus (yes _ _ _ h1) h3, h4⟩
        | none => exact absurd rfl (kleene_some G h3 _ rfl)
      · cases h2
        obtain ⟨h3, rfl⟩ := no _ _ _ h1
        exact ⟨none, .plusFail h3, rfl⟩
    | opt p =>
      rcases on_some h with ⟨t, h1, h2⟩ | ⟨t, h1, h2⟩
      · cases h2; exact ⟨some t, .opt (yes _ _ _ h1), rfl⟩
      · cases h2
        obtain ⟨h3, rfl⟩ := no _ _ _ h1
        exact ⟨some t, .optFail h3, rfl⟩
    | list p q =>
      rcases on_some h with ⟨t, h1, h2⟩ | ⟨t, h1, h2⟩
      · obtain ⟨r, h3, h4⟩ := all _ _ _ h2
        cases r with
        | some u => exact ⟨some u, .list (yes _ _ _ h1) h3, h4⟩
        | none => exact absurd rfl (kleene_some G h3 _ rfl)
      · cases h2
        obtain ⟨h3, rfl⟩ := no _ _ _ h1
        exact ⟨none, .listFail h3, rfl⟩
    | conj p =>
      rcases on_some h with ⟨t, h1, h2⟩ | ⟨t, h1, h2⟩
      · cases h2; exact ⟨some s, .conj (yes _ _ _ h1), rfl⟩
      · cases h2; exact ⟨none, .conjFail (no _ _ _ h1).1, rfl⟩
    | neg p =>
      rcases on_some h with ⟨t, h1, h2⟩ | ⟨t, h1, h2⟩
      · cases h2; exact ⟨none, .negFail (yes _ _ _ h1), rfl⟩
      · cases h2; exact ⟨some s, .neg (no _ _ _ h1).1, rfl⟩
    | diff p q =>
      rcases on_some h with ⟨t, h1, h2⟩ | ⟨t, h1, h2⟩
      · cases h2; exact ⟨none, .diffFail (yes _ _ _ h1), rfl⟩
      · obtain ⟨h3, rfl⟩ := no _ _ _ h1
        obtain ⟨r, h4, h5⟩ := all _ _ _ h2
        exact ⟨r, .diff h3 h4, h5⟩
    | rule i =>
      obtain ⟨r, h1, h2⟩ := all _ _ _ h
      exact ⟨r, .rule h1, h2⟩

/-- What the grammar says, a call gives. -/
theorem complete (G : Nat → Parser α) {p : Parser α} {s : List α} {r : Option (List α)} (h : Accepts G p s r) : ∃ n, p.run G n s = some (answer s r) := by
  have two : ∀ {n m : Nat} {p q : Parser α} {s t : List α} {x y}, p.run G n s = some x → q.run G m t = some y → p.run G (max n m) s = some x ∧ q.run G (max n m) t = some y :=
    fun h h' => ⟨run_mono G (Nat.le_max_left _ _) h, run_mono G (Nat.le_max_right _ _) h'⟩
  induction h with
  | @leaf f s => exact ⟨1, by simp only [Parser.run]; cases f s <;> rfl⟩
  | @seq p q s t r _ _ ih1 ih2 =>
    obtain ⟨n, h1⟩ := ih1; obtain ⟨m, h2⟩ := ih2
    obtain ⟨h1, h2⟩ := two h1 h2
    exact ⟨_ + 1, by rw [Parser.run, h1]; simp only [on, answer]; rw [h2]; cases r <;> rfl⟩
  | seqFail _ ih => obtain ⟨n, h⟩ := ih; exact ⟨n + 1, by rw [Parser.run, h]; rfl⟩
  | first _ ih => obtain ⟨n, h⟩ := ih; exact ⟨n + 1, by rw [Parser.run, h]; rfl⟩
  | @second p q s r _ _ ih1 ih2 =>
    obtain ⟨n, h1⟩ := ih1; obtain ⟨m, h2⟩ := ih2
    obtain ⟨h1, h2⟩ := two h1 h2
    exact ⟨_ + 1, by rw [Parser.run, h1]; simp only [on, answer]; rw [h2]; cases r <;> rfl⟩
  | @more p s t r _ h' ih1 ih2 =>
    obtain ⟨n, h1⟩ := ih1; obtain ⟨m, h2⟩ := ih2
    obtain ⟨h1, h2⟩ := two h1 h2
    refine ⟨max n m + 1, ?_⟩
    rw [Parser.run, h1]; simp only [on, answer]; rw [h2]
    cases r with
    | some u => rfl
    | none =>
      exact absurd rfl (kleene_some G h' _ rfl)
  | stop _ ih => obtain ⟨n, h⟩ := ih; exact ⟨n + 1, by rw [Parser.run, h]; rfl⟩
  | @plus p s t r _ h' ih1 ih2 =>
    obtain ⟨n, h1⟩ := ih1; obtain ⟨m, h2⟩ := ih2
    obtain ⟨h1, h2⟩ := two h1 h2
    refine ⟨max n m + 1, ?_⟩
    rw [Parser.run, h1]; simp only [on, answer]; rw [h2]
    cases r with
    | some u => rfl
    | none =>
      exact absurd rfl (kleene_some G h' _ rfl)
  | plusFail _ ih => obtain ⟨n, h⟩ := ih; exact ⟨n + 1, by rw [Parser.run, h]; rfl⟩
  | opt _ ih => obtain ⟨n, h⟩ := ih; exact ⟨n + 1, by rw [Parser.run, h]; rfl⟩
  | optFail _ ih => obtain ⟨n, h⟩ := ih; exact ⟨n + 1, by rw [Parser.run, h]; rfl⟩
  | @list p q s t r _ h' ih1 ih2 =>
    obtain ⟨n, h1⟩ := ih1; obtain ⟨m, h2⟩ := ih2
    obtain ⟨h1, h2⟩ := two h1 h2
    refine ⟨max n m + 1, ?_⟩
    rw [Parser.run, h1]; simp only [on, answer]; rw [h2]
    cases r with
    | some u => rfl
    | none =>
      exact absurd rfl (kleene_some G h' _ rfl)
  | listFail _ ih => obtain ⟨n, h⟩ := ih; exact ⟨n + 1, by rw [Parser.run, h]; rfl⟩
  | conj _ ih => obtain ⟨n, h⟩ := ih; exact ⟨n + 1, by rw [Parser.run, h]; rfl⟩
  | conjFail _ ih => obtain ⟨n, h⟩ := ih; exact ⟨n + 1, by rw [Parser.run, h]; rfl⟩
  | neg _ ih => obtain ⟨n, h⟩ := ih; exact ⟨n + 1, by rw [Parser.run, h]; rfl⟩
  | negFail _ ih => obtain ⟨n, h⟩ := ih; exact ⟨n + 1, by rw [Parser.run, h]; rfl⟩
  | @diff p q s r _ _ ih1 ih2 =>
    obtain ⟨n, h1⟩ := ih1; obtain ⟨m, h2⟩ := ih2
    obtain ⟨h1, h2⟩ := two h1 h2
    exact ⟨_ + 1, by rw [Parser.run, h1]; simp only [on, answer]; rw [h2]; rfl⟩
  | diffFail _ ih => obtain ⟨n, h⟩ := ih; exact ⟨n + 1, by rw [Parser.run, h]; rfl⟩
  | rule _ ih => obtain ⟨n, h⟩ := ih; exact ⟨n + 1, h⟩

end Verif.Grammar
