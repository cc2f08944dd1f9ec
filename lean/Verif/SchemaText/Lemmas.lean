import Verif.SchemaText.Spec

/-! # Lemmas about the resolution of symbols -/

namespace Verif.SchemaText

open Verif.Types (Name Meta)
open Spec

/-! ### Outcomes and maps -/

theorem R.bind_ok {α β : Type} {x : R α} {f : α → R β} {b : β} (h : x.bind f = .ok b) :
    ∃ a, x = .ok a ∧ f a = .ok b := by
  cases x <;> first | exact ⟨_, rfl, h⟩ | cases h

theorem assoc_mem {n : Name} {t : T} {l : List (Name × T)} (h : assoc n l = some t) : (n, t) ∈ l := by
  induction l with
  | nil => cases h
  | cons x l ih =>
    obtain ⟨k, u⟩ := x
    rw [assoc] at h
    split at h
    · rename_i e; cases h; subst e; exact List.mem_cons_self ..
    · exact List.mem_cons_of_mem _ (ih h)

theorem assoc_none {n : Name} {l : List (Name × T)} (h : assoc n l = none) : n ∉ l.map (·.1) := by
  induction l with
  | nil => simp
  | cons x l ih =>
    obtain ⟨k, u⟩ := x
    rw [assoc] at h
    split at h
    · cases h
    · rename_i e
      simp only [List.map_cons, List.mem_cons, not_or]
      exact ⟨fun h => e h.symm, ih h⟩

theorem assoc_eq_none {n : Name} {l : List (Name × T)} (h : n ∉ l.map (·.1)) : assoc n l = none := by
  cases h' : assoc n l with
  | none => rfl
  | some t => exact absurd (List.mem_map.mpr ⟨_, assoc_mem h', rfl⟩) h

theorem assoc_eq {n : Name} {t : T} {l : List (Name × T)} (hd : (l.map (·.1)).Nodup) (h : (n, t) ∈ l) :
    assoc n l = some t := by
  induction l with
  | nil => cases h
  | cons x l ih =>
    obtain ⟨k, u⟩ := x
    rw [List.map_cons, List.nodup_cons] at hd
    rw [assoc]
    cases h with
    | head => simp
    | tail _ h =>
      rw [if_neg (fun e => hd.1 (by rw [e]; exact List.mem_map.mpr ⟨_, h, rfl⟩))]
      exact ih hd.2 h

theorem remove_sublist (n : Name) (l : List (Name × T)) : (remove n l).Sublist l := by
  induction l with
  | nil => exact .slnil
  | cons x l ih =>
    obtain ⟨k, u⟩ := x
    rw [remove]
    split
    · exact List.sublist_cons_self ..
    · exact ih.cons₂ _

theorem remove_length {n : Name} {l : List (Name × T)} (h : n ∈ l.map (·.1)) :
    (remove n l).length + 1 = l.length := by
  induction l with
  | nil => simp at h
  | cons x l ih =>
    obtain ⟨k, u⟩ := x
    rw [remove]
    split
    · rfl
    · rename_i e
      simp only [List.map_cons, List.mem_cons] at h
      rw [List.length_cons, ih (h.resolve_left fun h => e h.symm), List.length_cons]

theorem mem_remove {n k : Name} {l : List (Name × T)} (hd : (l.map (·.1)).Nodup) :
    k ∈ (remove n l).map (·.1) ↔ k ∈ l.map (·.1) ∧ k ≠ n := by
  induction l with
  | nil => simp [remove]
  | cons x l ih =>
    obtain ⟨j, u⟩ := x
    rw [List.map_cons, List.nodup_cons] at hd
    rw [remove]
    split
    · rename_i e
      subst e
      simp only [List.map_cons, List.mem_cons]
      constructor
      · intro h; exact ⟨.inr h, fun e => hd.1 (e ▸ h)⟩
      · rintro ⟨h | h, h'⟩
        · exact absurd h h'
        · exact h
    · rename_i e
      simp only [List.map_cons, List.mem_cons, ih hd.2]
      constructor
      · rintro (h | ⟨h, h'⟩)
        · exact ⟨.inl h, fun h' => e (h ▸ h')⟩
        · exact ⟨.inr h, h'⟩
      · rintro ⟨h | h, h'⟩
        · exact .inl h
        · exact .inr ⟨h, h'⟩

theorem keys_unique {n : Name} {d e : T} {l : List (Name × T)} (hd : (l.map (·.1)).Nodup) (h : (n, d) ∈ l)
    (h' : (n, e) ∈ l) : d = e := by
  have := assoc_eq hd h
  rw [assoc_eq hd h'] at this
  exact (Option.some.inj this).symm

/-! ### Expressions -/

theorem applyOp_iff (op : Name) (l : Meta × Types.Fields T) (m : Meta) (r : Types.Fields T) (v : Meta × Types.Fields T) :
    applyOp op l m r = .ok v ↔ Applied op l (m, r) v := by
  unfold applyOp
  constructor
  · intro h
    split at h
    · rename_i e; subst e
      cases hm : Types.merge l.1 l.2 r with
      | none => rw [hm] at h; cases h
      | some w => rw [hm] at h; cases h; exact .plus hm
    · split at h
      · rename_i e; subst e; cases h; exact .left
      · split at h
        · rename_i e; subst e; cases h; exact .right
        · split at h
          · rename_i e; subst e
            split at h
            · cases h
            · rename_i hne
              cases hm : Types.removePath (r.toList.map (·.1)) l.2 with
              | none => rw [hm] at h; cases h
              | some w => rw [hm] at h; cases h; exact .minus (fun e => hne (by simp [show r.toList = [] from e])) hm
          · cases h
            refine .other ?_
            simp only [List.mem_cons, List.not_mem_nil, or_false, not_or]
            exact ⟨‹_›, ‹_›, ‹_›, ‹_›⟩
  · intro h
    cases h with
    | plus h => rw [if_pos rfl, show Types.merge l.1 l.2 r = some v from h]; rfl
    | left => rw [if_neg (by decide), if_pos rfl]
    | right => rw [if_neg (by decide), if_neg (by decide), if_pos rfl]
    | minus hne h =>
      rw [if_neg (by decide), if_neg (by decide), if_neg (by decide), if_pos rfl,
        if_neg (by simpa [List.isEmpty_iff] using hne), show Types.removePath (r.toList.map (·.1)) l.2 = some _ from h]
      rfl
    | other h =>
      simp only [List.mem_cons, List.not_mem_nil, or_false, not_or] at h
      rw [if_neg h.1, if_neg h.2.1, if_neg h.2.2.1, if_neg h.2.2.2]

theorem applyOps_iff (fs : Fs) (l w : Meta × Types.Fields T) : applyOps l fs = .ok w ↔ AppliedAll l fs w := by
  match fs with
  | .nil =>
    rw [applyOps]
    constructor
    · intro h; cases h; exact .nil
    · intro h; cases h; rfl
  | .cons op (.record gs m) rest =>
    rw [applyOps]
    constructor
    · intro h
      obtain ⟨v, h1, h2⟩ := R.bind_ok h
      exact .cons ((applyOp_iff ..).mp h1) ((applyOps_iff rest _ _).mp h2)
    · intro h
      cases h with
      | cons h1 h2 => rw [(applyOp_iff ..).mpr h1]; exact (applyOps_iff rest _ _).mpr h2
  | .cons _ (.none _) _ | .cons _ (.basic _ _) _ | .cons _ (.enum _ _) _ | .cons _ (.list _ _) _ |
    .cons _ (.map _ _ _) _ | .cons _ (.alias _ _) _ =>
    constructor
    · intro h; simp [applyOps] at h
    · intro h; cases h

theorem algebra_iff (n : Name) (fs : Fs) (t : T) : algebra n fs = .ok t ↔ Value n fs t := by
  constructor
  · intro h
    unfold algebra at h
    split at h
    · obtain ⟨w, h1, h2⟩ := R.bind_ok h
      split at h2
      · cases h2
      · rename_i hne
        split at h2
        · cases h2
        · rename_i hn
          cases h2
          refine .intro (by simp) ((applyOps_iff ..).mp h1) (fun e => hne (by rw [e]; rfl)) ?_
          intro f hf e
          apply hn
          rw [List.any_eq_true]
          exact ⟨f, hf, by rw [e]; rfl⟩
    · cases h
  · intro h
    cases h with
    | @intro k gs rest m w hr ha hne hn =>
      cases rest with
      | nil => exact absurd rfl hr
      | cons op t rest =>
        rw [algebra, (applyOps_iff ..).mpr ha]
        show (if w.2.toList.isEmpty = true then (R.error : R T) else _) = _
        rw [if_neg (by simpa [List.isEmpty_iff] using hne), if_neg]
        simp only [List.any_eq_true, not_exists, not_and]
        intro f hf e
        exact hn f hf (List.isEmpty_iff.mp e)

theorem isAlgebra_iff (m : Meta) : Meta.isAlgebra m = true ↔ ∃ v, (algebraKey, v) ∈ m.attrs := by
  rw [Meta.isAlgebra, List.any_eq_true]
  constructor
  · rintro ⟨⟨k, v⟩, h, e⟩
    exact ⟨v, by have := of_decide_eq_true e; simp only at this; rw [← this]; exact h⟩
  · rintro ⟨v, h⟩
    exact ⟨_, h, by simp⟩

/-! ### Meanings -/

variable {globals symbols : List (Name × T)}

theorem value_unique {n : Name} {fs : Fs} {t u : T} (h : Value n fs t) (h' : Value n fs u) : t = u := by
  have h := (algebra_iff ..).mpr h
  rw [(algebra_iff ..).mpr h'] at h
  cases h; rfl

theorem means_unique (hg : (globals.map (·.1)).Nodup) (hs : (symbols.map (·.1)).Nodup) {self : Name} {e t : T}
    (h : Means globals symbols self e t) : ∀ u, Means globals symbols self e u → u = t := by
  refine Means.rec (motive_1 := fun self e t _ => ∀ u, Means globals symbols self e u → u = t)
    (motive_2 := fun self fs gs _ => ∀ hs', MeansAll globals symbols self fs hs' → hs' = gs)
    ?_ ?_ ?_ ?_ ?_ ?_ ?_ ?_ ?_ ?_ ?_ h
  · intro self n as d t hn hne hd _ ih u hu
    cases hu with
    | symbol _ _ hd' hu => rw [keys_unique hs hd' hd] at hu; rw [ih _ hu]
    | global _ ho _ => exact absurd hd ((ho.resolve_left hne) d)
  · intro self n as t hn ho ht u hu
    cases hu with
    | symbol _ hne hd' _ => exact absurd hd' ((ho.resolve_left hne) _)
    | global _ _ ht' => rw [keys_unique hg ht' ht]
  · intro _ _ _ u hu; cases hu; rfl
  · intro _ _ _ u hu; cases hu; rfl
  · intro _ _ _ _ _ ih u hu
    cases hu with
    | list h => rw [ih _ h]
  · intro _ _ _ _ _ _ _ _ ih1 ih2 u hu
    cases hu with
    | map h1 h2 => rw [ih1 _ h1, ih2 _ h2]
  · intro _ _ _ _ _ ih u hu
    cases hu with
    | alias h => rw [ih _ h]
  · intro _ _ _ _ ha _ ih u hu
    cases hu with
    | record _ h => rw [ih _ h]
    | algebra ha' => exact absurd ha' (ha _)
  · intro _ _ _ _ _ _ ha _ hv ih u hu
    cases hu with
    | record ha' => exact absurd ha (ha' _)
    | algebra _ h hv' => rw [ih _ h] at hv'; exact value_unique hv' hv
  · intro _ hs' h; cases h; rfl
  · intro _ _ _ _ _ _ _ _ ih1 ih2 hs' h
    cases h with
    | cons h1 h2 => rw [ih1 _ h1, ih2 _ h2]

/-- Symbols with a meaning do not depend on themselves. -/
theorem means_acc (hs : (symbols.map (·.1)).Nodup) {self : Name} {e t : T} (h : Means globals symbols self e t) :
    ∀ b ∈ refs e, b ≠ self → (∃ d, (b, d) ∈ symbols) → Acc (fun x y => Uses symbols y x) b := by
  refine Means.rec (motive_1 := fun self e t _ => ∀ b ∈ refs e, b ≠ self → (∃ d, (b, d) ∈ symbols) →
      Acc (fun x y => Uses symbols y x) b)
    (motive_2 := fun self fs gs _ => ∀ b ∈ refsAll fs, b ≠ self → (∃ d, (b, d) ∈ symbols) →
      Acc (fun x y => Uses symbols y x) b)
    ?_ ?_ ?_ ?_ ?_ ?_ ?_ ?_ ?_ ?_ ?_ h
  · intro self n as d t hn hne hd _ ih b hb _ _
    rw [refs, List.mem_singleton] at hb
    subst hb
    refine Acc.intro _ ?_
    rintro y ⟨d', hd', hy, hyb, e, he⟩
    rw [keys_unique hs hd' hd] at hy
    exact ih y hy hyb ⟨e, he⟩
  · intro self n as t hn ho ht b hb hne he
    rw [refs, List.mem_singleton] at hb
    subst hb
    obtain ⟨d, hd⟩ := he
    exact absurd hd ((ho.resolve_left hne) d)
  · intro _ _ _ b hb; cases hb
  · intro _ _ _ b hb; cases hb
  · intro _ _ _ _ _ ih; exact ih
  · intro _ _ _ _ _ _ _ _ ih1 ih2 b hb
    rw [refs, List.mem_append] at hb
    exact hb.elim (ih1 b) (ih2 b)
  · intro _ _ _ _ _ ih; exact ih
  · intro _ _ _ _ _ _ ih; exact ih
  · intro _ _ _ _ _ _ _ _ _ ih; exact ih
  · intro _ b hb; cases hb
  · intro _ _ _ _ _ _ _ _ ih1 ih2 b hb
    rw [refsAll, List.mem_append] at hb
    exact hb.elim (ih1 b) (ih2 b)

theorem reaches_last {a c : Name} (h : Reaches symbols a c) : ∃ b, Uses symbols b c ∧ (b = a ∨ Reaches symbols a b) := by
  cases h with
  | single h => exact ⟨_, h, .inl rfl⟩
  | step h h' => exact ⟨_, h', .inr h⟩

theorem reaches_cons {a b c : Name} (h : Uses symbols a b) (h' : Reaches symbols b c) : Reaches symbols a c := by
  induction h' with
  | single h' => exact .step (.single h) h'
  | step _ h' ih => exact .step ih h'

theorem reaches_first {a c : Name} (h : Reaches symbols a c) : ∃ b, Uses symbols a b ∧ (b = c ∨ Reaches symbols b c) := by
  induction h with
  | single h => exact ⟨_, h, .inl rfl⟩
  | step h h' ih =>
    obtain ⟨b, hb, rfl | hr⟩ := ih
    · exact ⟨_, hb, .inr (.single h')⟩
    · exact ⟨_, hb, .inr (.step hr h')⟩

theorem acc_not_reaches {a : Name} (h : Acc (fun x y => Uses symbols y x) a) : ¬ Reaches symbols a a := by
  induction h with
  | intro a _ ih =>
    intro hr
    obtain ⟨b, hb, rfl | hr'⟩ := reaches_first hr
    · exact ih _ hb (.single hb)
    · exact ih b hb (.step hr' hb)

/-- The meaning of a definition has its name. -/
theorem means_named {n : Name} {d t : T} (h : Means globals symbols n d t) (hd : ∀ m, d ≠ .none m) :
    t.name = d.name ∧ ∀ m, t ≠ .none m := by
  cases h <;> first
    | exact absurd rfl (hd _)
    | exact ⟨rfl, fun m h => by cases h⟩
    | skip
  rename_i hv
  cases hv
  exact ⟨rfl, fun m h => by cases h⟩

end Verif.SchemaText
