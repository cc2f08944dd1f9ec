import Verif.Recovery.Model

namespace Verif.Recovery

/-! ## Lists -/

theorem mem_insertNew {x y : Nat} {xs : List Nat} : y ∈ insertNew x xs ↔ y = x ∨ y ∈ xs := by
  unfold insertNew; split <;> simp_all

theorem nodup_insertNew {x : Nat} {xs : List Nat} (h : xs.Nodup) : (insertNew x xs).Nodup := by
  unfold insertNew; split
  · exact h
  · exact List.nodup_cons.2 ⟨by assumption, h⟩

theorem mem_load {y : Nat} {xs : List Nat} : y ∈ xs.foldr insertNew [] ↔ y ∈ xs := by
  induction xs with
  | nil => simp
  | cons x xs ih => simp [mem_insertNew, ih]

theorem nodup_load (xs : List Nat) : (xs.foldr insertNew []).Nodup := by
  induction xs with
  | nil => simp
  | cons x xs ih => exact nodup_insertNew ih

theorem not_mem_eraseIdx {xs : List Nat} {i x : Nat} (h : xs.Nodup) (hi : xs[i]? = some x) : x ∉ xs.eraseIdx i := by
  induction xs generalizing i with
  | nil => simp at hi
  | cons y ys ih =>
    obtain ⟨h1, h2⟩ := List.nodup_cons.1 h
    cases i with
    | zero => simp at hi; subst hi; simpa using h1
    | succ i =>
      simp at hi
      simp only [List.eraseIdx_cons_succ, List.mem_cons, not_or]
      exact ⟨fun e => h1 (e ▸ List.mem_of_getElem? hi), ih h2 hi⟩

theorem mem_eraseIdx_of_ne {xs : List Nat} {i x y : Nat} (hi : xs[i]? = some x) (hy : y ∈ xs) (hne : y ≠ x) :
    y ∈ xs.eraseIdx i := by
  induction xs generalizing i with
  | nil => simp at hi
  | cons z zs ih =>
    cases i with
    | zero => simp at hi; subst hi; simpa [hne] using hy
    | succ i =>
      simp at hi
      simp only [List.eraseIdx_cons_succ, List.mem_cons]
      rcases List.mem_cons.1 hy with h | h
      · exact .inl h
      · exact .inr (ih hi h)

/-! ## Numbers of partitions are new -/

/-- The number occurs somewhere other than as the active partition. -/
def Seen (s : State) (id : Nat) : Prop :=
  id ∈ s.unpersisted ∨ id ∈ s.persisted ∨ id ∈ s.writes ∨ id ∈ s.written ∨ (∃ x ∈ s.saves, id ∈ x.ids) ∨
  (∃ x, s.image = some x ∧ id ∈ x.ids) ∨ id ∈ s.asked.map (·.1) ∨ id ∈ s.mapping.map (·.1) ∨ id ∈ s.mapped.map (·.1) ∨
  id ∈ s.unlinking ∨ id ∈ s.erased ∨ id ∈ s.files

structure Fresh (s : State) : Prop where
  active : ∀ a, s.active = some a → a ∈ s.used
  seen : ∀ id, Seen s id → id ∈ s.used ∧ s.active ≠ some id

theorem fresh_decommission {s : State} (h : Fresh s) : Fresh (decommission s) := by
  unfold decommission
  split
  · exact h
  · rename_i a ha
    constructor
    · intro b hb; cases hb
    · intro id hid
      refine ⟨?_, by simp⟩
      have h1 := h.seen id
      have h2 := h.active a ha
      simp only [Seen, List.mem_cons] at hid h1
      grind

theorem fresh_flush {s : State} (h : Fresh s) : Fresh (flush s) := by
  constructor
  · exact h.active
  · intro id hid
    apply h.seen
    simp only [Seen, flush, List.mem_append, List.mem_singleton] at hid ⊢
    grind

theorem fresh_create {s : State} {id : Nat} (h : Fresh s) (hid : id ∉ s.used) : Fresh (create s id) := by
  constructor
  · intro a ha; simp [create] at ha ⊢; exact .inl ha.symm
  · intro i hi
    have h1 := (h.seen i hi).1
    simp only [create]
    exact ⟨List.mem_cons_of_mem _ h1, fun e => hid (by cases e; exact h1)⟩

theorem used_decommission (s : State) : (decommission s).used = s.used := by
  unfold decommission; split <;> rfl

theorem fresh_push {s : State} {l n : Nat} (h : Fresh s) : Fresh (push s l n) := by
  unfold push; split
  · exact h
  · exact ⟨h.active, h.seen⟩

theorem fresh_onSlice {s : State} {l n id : Nat} {r : Bool} (h : Fresh s) (hid : id ∉ s.used) :
    Fresh (onSlice s l n r id) := by
  apply fresh_push
  have h' : Fresh { s with stats := fun k => if k = l then s.stats k + n else s.stats k } := ⟨h.active, h.seen⟩
  unfold makeRoom
  split
  · exact fresh_create h' hid
  · split
    · exact fresh_create (fresh_flush (fresh_decommission h')) (by
        show id ∉ (decommission _).used
        rw [used_decommission]; exact hid)
    · exact h'

theorem seen_step {s : State} {e : Ev} {id : Nat} (he : ∀ l n r i, e ≠ .slice l n r i) (hx : e ≠ .exit)
    (h : Seen (step s e) id) : Seen s id := by
  cases e with
  | slice l n r i => exact absurd rfl (he l n r i)
  | exit => exact absurd rfl hx
  | ack i =>
    simp only [step, onAck] at h
    split at h
    · split at h
      · exact h
      · rename_i x hx
        have := List.mem_of_getElem? hx
        have h2 : id ∈ s.written.eraseIdx i → id ∈ s.written := List.mem_of_mem_eraseIdx
        simp only [Seen, mem_insertNew, List.mem_filter] at h ⊢
        grind
    · exact h
  | erase i =>
    simp only [step, onErase] at h
    split at h
    · split at h
      · simp only [Seen, List.map_append, List.mem_append, List.map_cons, List.map_nil, List.mem_singleton] at h ⊢
        grind
      · split at h
        · simp only [Seen, List.map_append, List.mem_append, List.map_cons, List.map_nil, List.mem_singleton] at h ⊢
          grind
        · exact h
    · exact h
  | metaErased i =>
    simp only [step, onMetaErased] at h
    split at h
    · split at h
      · exact h
      · rename_i x hx
        have h1 : x.1 ∈ s.asked.map (·.1) := List.mem_map_of_mem (List.mem_of_getElem? hx)
        have h2 : id ∈ (s.asked.eraseIdx i).map (·.1) → id ∈ s.asked.map (·.1) := by
          intro h'
          obtain ⟨y, hy, e⟩ := List.mem_map.1 h'
          exact List.mem_map.2 ⟨y, List.mem_of_mem_eraseIdx hy, e⟩
        simp only [Seen, List.map_append, List.mem_append, List.map_cons, List.map_nil, List.mem_singleton,
          List.mem_filter] at h ⊢
        grind
    · exact h
  | map i =>
    simp only [step, onMap] at h
    split at h
    · exact h
    · rename_i x hx
      have h1 : x.1 ∈ s.mapping.map (·.1) := List.mem_map_of_mem (List.mem_of_getElem? hx)
      have h2 : id ∈ (s.mapping.eraseIdx i).map (·.1) → id ∈ s.mapping.map (·.1) := by
        intro h'
        obtain ⟨y, hy, e⟩ := List.mem_map.1 h'
        exact List.mem_map.2 ⟨y, List.mem_of_mem_eraseIdx hy, e⟩
      simp only [Seen, List.map_append, List.mem_append, List.map_cons, List.map_nil, List.mem_singleton] at h ⊢
      grind
  | mapped i =>
    have h2 : id ∈ (s.mapped.eraseIdx i).map (·.1) → id ∈ s.mapped.map (·.1) := by
      intro h'
      obtain ⟨y, hy, e⟩ := List.mem_map.1 h'
      exact List.mem_map.2 ⟨y, List.mem_of_mem_eraseIdx hy, e⟩
    simp only [step, onMapped] at h
    split at h
    · split at h
      · exact h
      · simp only [Seen] at h ⊢
        grind
      · rename_i x a hx
        have h1 : x ∈ s.mapped.map (·.1) := List.mem_map.2 ⟨_, List.mem_of_getElem? hx, rfl⟩
        simp only [Seen, List.mem_append, List.mem_singleton] at h ⊢
        grind
    · exact h
  | write i ok =>
    simp only [step, onWrite] at h
    split at h
    · exact h
    · rename_i x hx
      have := List.mem_of_getElem? hx
      have h2 : id ∈ s.writes.eraseIdx i → id ∈ s.writes := List.mem_of_mem_eraseIdx
      split at h
      · simp only [Seen, mem_insertNew, List.mem_cons] at h ⊢
        grind
      · simp only [Seen] at h ⊢
        grind
  | save ok =>
    simp only [step, onSave] at h
    split at h
    · exact h
    · rename_i x xs hx
      cases ok
      · simp only [Seen, hx, List.mem_cons] at h ⊢
        grind
      · simp only [Seen, hx, List.mem_cons] at h ⊢
        grind
  | unlink i ok =>
    simp only [step, onUnlink] at h
    split at h
    · exact h
    · rename_i x hx
      have := List.mem_of_getElem? hx
      have h2 : id ∈ s.unlinking.eraseIdx i → id ∈ s.unlinking := List.mem_of_mem_eraseIdx
      cases ok
      · simp only [Seen, List.mem_cons] at h ⊢
        grind
      · simp only [Seen, List.mem_cons, List.mem_filter, if_true] at h ⊢
        grind
  | restart =>
    simp only [step, restart, start, Seen] at h ⊢
    cases hi : s.image with
    | none => rw [hi] at h; simp only [mem_load] at h; grind
    | some x => rw [hi] at h; simp only [mem_load, List.mem_filter] at h; grind

theorem active_step {s : State} {e : Ev} (he : ∀ l n r i, e ≠ .slice l n r i) (hx : e ≠ .exit) :
    ((step s e).active = s.active ∨ (step s e).active = none) ∧ (step s e).used = s.used := by
  cases e with
  | slice l n r i => exact absurd rfl (he l n r i)
  | exit => exact absurd rfl hx
  | ack i => simp only [step, onAck]; repeat' split
             all_goals simp
  | erase i => simp only [step, onErase]; repeat' split
               all_goals simp
  | metaErased i => simp only [step, onMetaErased]; repeat' split
                    all_goals simp
  | map i => simp only [step, onMap]; repeat' split
             all_goals simp
  | mapped i => simp only [step, onMapped]; repeat' split
                all_goals simp
  | write i ok => simp only [step, onWrite]; repeat' split
                  all_goals simp
  | save ok => simp only [step, onSave]; split <;> simp
  | unlink i ok => simp only [step, onUnlink]; split <;> simp
  | restart => simp [step, restart, start]

theorem fresh_step {s : State} (e : Ev) (h : Fresh s) : Fresh (step s e) := by
  by_cases hs : ∃ l n r i, e = .slice l n r i
  · obtain ⟨l, n, r, i, rfl⟩ := hs
    simp only [step]
    split
    · rename_i hc; exact fresh_onSlice h hc.2
    · exact h
  · by_cases hx : e = .exit
    · subst hx
      simp only [step]
      split
      · have := fresh_flush (fresh_decommission h)
        exact ⟨this.active, this.seen⟩
      · exact h
    · have h1 := active_step (s := s) (fun l n r i e' => hs ⟨l, n, r, i, e'⟩) hx
      constructor
      · intro a ha
        rw [h1.2]
        rcases h1.1 with h2 | h2
        · exact h.active a (h2 ▸ ha)
        · rw [h2] at ha; cases ha
      · intro id hid
        have h3 := h.seen id (seen_step (fun l n r i e' => hs ⟨l, n, r, i, e'⟩) hx hid)
        rw [h1.2]
        refine ⟨h3.1, ?_⟩
        rcases h1.1 with h2 | h2
        · rw [h2]; exact h3.2
        · rw [h2]; simp

theorem fresh_run {s : State} (es : List Ev) (h : Fresh s) : Fresh (run s es) := by
  induction es generalizing s with
  | nil => exact h
  | cons e es ih => exact ih (fresh_step e h)

theorem fresh_start : Fresh start := by
  constructor
  · intro a ha; cases ha
  · intro id h; simp [Seen, start] at h

end Verif.Recovery
