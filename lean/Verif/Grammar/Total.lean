import Verif.Grammar.Lemmas
namespace Verif.Grammar
open Spec
variable {α : Type}

/-- Rules keep what is said about them. -/
def Sane (G : Nat → Parser α) (c : Nat → Prop) (rank : Nat → Nat) : Prop :=
  ∀ i, (c i → Consumes c (G i)) ∧ Bounded c (G i) ∧ ∀ j, Left c j (G i) → rank j < rank i

/-- What is left is no longer than the input. -/
theorem shrink {G : Nat → Parser α} {c : Nat → Prop} {rank : Nat → Nat} (hG : Sane G c rank) {p : Parser α} {s : List α} {r : Option (List α)} (h : Accepts G p s r) :
    Bounded c p → ∀ t, r = some t → t.length ≤ s.length ∧ (Consumes c p → t.length < s.length) := by
  induction h with
  | leaf => intro hb t e; exact ⟨hb _ _ e, fun hc => hc _ _ e⟩
  | seq _ _ ih1 ih2 =>
    intro hb t e
    have h1 := ih1 hb.1 _ rfl
    have h2 := ih2 hb.2 _ e
    exact ⟨Nat.le_trans h2.1 h1.1, fun hc => hc.elim (fun h => Nat.lt_of_le_of_lt h2.1 (h1.2 h)) fun h => Nat.lt_of_lt_of_le (h2.2 h) h1.1⟩
  | first _ ih => intro hb t e; exact ⟨(ih hb.1 t e).1, fun hc => (ih hb.1 t e).2 hc.1⟩
  | second _ _ _ ih => intro hb t e; exact ⟨(ih hb.2 t e).1, fun hc => (ih hb.2 t e).2 hc.2⟩
  | more _ _ ih1 ih2 =>
    intro hb t e
    exact ⟨Nat.le_trans (ih2 hb _ e).1 (ih1 hb.1 _ rfl).1, fun hc => hc.elim⟩
  | stop _ _ => intro hb t e; cases e; exact ⟨Nat.le_refl _, fun hc => hc.elim⟩
  | plus _ _ ih1 ih2 =>
    intro hb t e
    exact ⟨Nat.le_trans (ih2 hb _ e).1 (ih1 hb.1 _ rfl).1, fun hc => Nat.lt_of_le_of_lt (ih2 hb _ e).1 ((ih1 hb.1 _ rfl).2 hc)⟩
  | opt _ ih => intro hb t e; exact ⟨(ih hb t e).1, fun hc => hc.elim⟩
  | optFail _ _ => intro hb t e; cases e; exact ⟨Nat.le_refl _, fun hc => hc.elim⟩
  | list _ _ ih1 ih2 =>
    intro hb t e
    have hk := ih2 ⟨⟨hb.2.1, hb.1⟩, hb.2.2.symm⟩ _ e
    exact ⟨Nat.le_trans hk.1 (ih1 hb.1 _ rfl).1, fun hc => Nat.lt_of_le_of_lt hk.1 ((ih1 hb.1 _ rfl).2 hc)⟩
  | conj _ _ => intro hb t e; cases e; exact ⟨Nat.le_refl _, fun hc => hc.elim⟩
  | neg _ _ => intro hb t e; cases e; exact ⟨Nat.le_refl _, fun hc => hc.elim⟩
  | diff _ _ _ ih => intro hb t e; exact ih hb.1 t e
  | @rule i _ _ _ ih => intro hb t e; exact ⟨(ih (hG i).2.1 t e).1, fun hc => (ih (hG i).2.1 t e).2 ((hG i).1 hc)⟩
  | _ => intro _ t e; cases e

/-- A bound of the rules that may be called first. -/
theorem left_bound (c : Nat → Prop) (rank : Nat → Nat) : ∀ p : Parser α, ∃ k, ∀ j, Left c j p → rank j < k
  | .leaf _ => ⟨0, fun _ h => h.elim⟩
  | .rule i => ⟨rank i + 1, fun j h => by cases h; exact Nat.lt_succ_self _⟩
  | .kleene p => left_bound c rank p
  | .plus p => left_bound c rank p
  | .opt p => left_bound c rank p
  | .conj p => left_bound c rank p
  | .neg p => left_bound c rank p
  | .seq p q => by
    obtain ⟨k, h⟩ := left_bound c rank p; obtain ⟨l, h'⟩ := left_bound c rank q
    exact ⟨max k l, fun j hj => hj.elim (fun x => Nat.lt_of_lt_of_le (h j x) (Nat.le_max_left _ _)) fun x => Nat.lt_of_lt_of_le (h' j x.2) (Nat.le_max_right _ _)⟩
  | .list p q => by
    obtain ⟨k, h⟩ := left_bound c rank p; obtain ⟨l, h'⟩ := left_bound c rank q
    exact ⟨max k l, fun j hj => hj.elim (fun x => Nat.lt_of_lt_of_le (h j x) (Nat.le_max_left _ _)) fun x => Nat.lt_of_lt_of_le (h' j x.2) (Nat.le_max_right _ _)⟩
  | .choice p q => by
    obtain ⟨k, h⟩ := left_bound c rank p; obtain ⟨l, h'⟩ := left_bound c rank q
    exact ⟨max k l, fun j hj => hj.elim (fun x => Nat.lt_of_lt_of_le (h j x) (Nat.le_max_left _ _)) fun x => Nat.lt_of_lt_of_le (h' j x) (Nat.le_max_right _ _)⟩
  | .diff p q => by
    obtain ⟨k, h⟩ := left_bound c rank p; obtain ⟨l, h'⟩ := left_bound c rank q
    exact ⟨max k l, fun j hj => hj.elim (fun x => Nat.lt_of_lt_of_le (h j x) (Nat.le_max_left _ _)) fun x => Nat.lt_of_lt_of_le (h' j x) (Nat.le_max_right _ _)⟩

/-- Every parser gives an answer on every input. -/
theorem total {G : Nat → Parser α} {c : Nat → Prop} {rank : Nat → Nat} (hG : Sane G c rank) : ∀ (m : Nat) (p : Parser α), Bounded c p →
    ∀ s : List α, s.length = m → ∃ r, Accepts G p s r := by
  intro m
  induction m using Nat.strongRecOn with
  | ind m ihm =>
  have inner : ∀ (k : Nat) (p : Parser α), Bounded c p → (∀ j, Left c j p → rank j < k) → ∀ s : List α, s.length = m → ∃ r, Accepts G p s r := by
    intro k
    induction k using Nat.strongRecOn with
    | ind k ihk =>
    -- after a parser `p`: if it consumed something, anything ends
    have next : ∀ (p q : Parser α) (s t : List α), s.length = m → Bounded c p → Bounded c q → Accepts G p s (some t) →
        (¬ Consumes c p → ∀ t : List α, t.length = m → ∃ r, Accepts G q t r) → ∃ r, Accepts G q t r := by
      intro p q s t hs hp hq h hn
      have := shrink hG h hp t rfl
      by_cases hl : t.length < m
      · exact ihm t.length hl q hq t rfl
      · have e : t.length = m := by omega
        exact hn (fun hc => by have := this.2 hc; omega) t e
    intro p
    induction p with
    | leaf f => intro _ _ s _; exact ⟨f s, .leaf⟩
    | seq p q ihp ihq =>
      intro hb hl s hs
      obtain ⟨r, h⟩ := ihp hb.1 (fun j h => hl j (.inl h)) s hs
      cases r with
      | none => exact ⟨none, .seqFail h⟩
      | some t =>
        obtain ⟨r, h'⟩ := next p q s t hs hb.1 hb.2 h fun hn => ihq hb.2 fun j h => hl j (.inr ⟨hn, h⟩)
        exact ⟨r, .seq h h'⟩
    | choice p q ihp ihq =>
      intro hb hl s hs
      obtain ⟨r, h⟩ := ihp hb.1 (fun j h => hl j (.inl h)) s hs
      cases r with
      | some t => exact ⟨some t, .first h⟩
      | none =>
        obtain ⟨r, h'⟩ := ihq hb.2 (fun j h => hl j (.inr h)) s hs
        exact ⟨r, .second h h'⟩
    | kleene p ih =>
      intro hb hl s hs
      obtain ⟨r, h⟩ := ih hb.1 hl s hs
      cases r with
      | none => exact ⟨some s, .stop h⟩
      | some t =>
        obtain ⟨r, h'⟩ := next p (.kleene p) s t hs hb.1 hb h fun hn => absurd hb.2 hn
        exact ⟨r, .more h h'⟩
    | plus p ih =>
      intro hb hl s hs
      obtain ⟨r, h⟩ := ih hb.1 hl s hs
      cases r with
      | none => exact ⟨none, .plusFail h⟩
      | some t =>
        obtain ⟨r, h'⟩ := next p (.kleene p) s t hs hb.1 hb h fun hn => absurd hb.2 hn
        exact ⟨r, .plus h h'⟩
    | opt p ih =>
      intro hb hl s hs
      obtain ⟨r, h⟩ := ih hb hl s hs
      cases r with
      | none => exact ⟨some s, .optFail h⟩
      | some t => exact ⟨some t, .opt h⟩
    | list p q ihp ihq =>
      intro hb hl s hs
      obtain ⟨r, h⟩ := ihp hb.1 (fun j h => hl j (.inl h)) s hs
      have hk : Bounded c (.kleene (.seq q p)) := ⟨⟨hb.2.1, hb.1⟩, hb.2.2.symm⟩
      cases r with
      | none => exact ⟨none, .listFail h⟩
      | some t =>
        obtain ⟨r, h'⟩ := next p (.kleene (.seq q p)) s t hs hb.1 hk h (by
          intro hn t ht
          obtain ⟨r, hq⟩ := ihq hb.2.1 (fun j h => hl j (.inr ⟨hn, h⟩)) t ht
          cases r with
          | none => exact ⟨some t, .stop (.seqFail hq)⟩
          | some u =>
            obtain ⟨r, hp⟩ := next q p t u ht hb.2.1 hb.1 hq fun _ => ihp hb.1 fun j h => hl j (.inl h)
            cases r with
            | none => exact ⟨some t, .stop (.seq hq hp)⟩
            | some v =>
              obtain ⟨r, h⟩ := next (.seq q p) (.kleene (.seq q p)) t v ht hk.1 hk (.seq hq hp) fun hn => absurd hk.2 hn
              exact ⟨r, .more (.seq hq hp) h⟩)
        exact ⟨r, .list h h'⟩
    | conj p ih =>
      intro hb hl s hs
      obtain ⟨r, h⟩ := ih hb hl s hs
      cases r with
      | none => exact ⟨none, .conjFail h⟩
      | some t => exact ⟨some s, .conj h⟩
    | neg p ih =>
      intro hb hl s hs
      obtain ⟨r, h⟩ := ih hb hl s hs
      cases r with
      | none => exact ⟨some s, .neg h⟩
      | some t => exact ⟨none, .negFail h⟩
    | diff p q ihp ihq =>
      intro hb hl s hs
      obtain ⟨r, h⟩ := ihq hb.2 (fun j h => hl j (.inr h)) s hs
      cases r with
      | some t => exact ⟨none, .diffFail h⟩
      | none =>
        obtain ⟨r, h'⟩ := ihp hb.1 (fun j h => hl j (.inl h)) s hs
        exact ⟨r, .diff h h'⟩
    | rule i =>
      intro _ hl s hs
      obtain ⟨r, h⟩ := ihk (rank i) (hl i rfl) (G i) (hG i).2.1 (hG i).2.2 s hs
      exact ⟨r, .rule h⟩
  intro p hb s hs
  obtain ⟨k, hk⟩ := left_bound c rank p
  exact inner k p hb hk s hs

end Verif.Grammar
