import Verif.Recovery.Lemmas

namespace Verif.Recovery

/-! ## Files of erased partitions do not come back -/

def Settled (s : State) (id : Nat) : Prop :=
  id ∈ s.files ∨ (∃ a, (id, a, true) ∈ s.mapped) ∨ id ∈ s.unlinking ∨ id ∈ s.erased

structure Disk (s : State) : Prop where
  nodup : s.writes.Nodup
  settled : ∀ id, Settled s id → id ∉ s.writes

theorem disk_start : Disk start := ⟨by simp [start], by intro id h; simp [Settled, start] at h⟩

theorem disk_decommission {s : State} (f : Fresh s) (h : Disk s) : Disk (decommission s) := by
  unfold decommission
  split
  · exact h
  · rename_i a ha
    have h1 : ∀ id, Seen s id → id ≠ a := fun id hid e => (f.seen id hid).2 (e ▸ ha)
    constructor
    · exact List.nodup_cons.2 ⟨fun hm => h1 a (.inr (.inr (.inl hm))) rfl, h.nodup⟩
    · intro id hid
      have h2 : Seen s id := by
        simp only [Settled] at hid
        simp only [Seen, List.mem_map]
        rcases hid with h | ⟨b, h⟩ | h | h
        · simp [h]
        · have : ∃ x, x ∈ s.mapped ∧ x.1 = id := ⟨_, h, rfl⟩
          simp [this]
        · simp [h]
        · simp [h]
      simp only [List.mem_cons, not_or]
      exact ⟨h1 id h2, h.settled id hid⟩

theorem disk_step {s : State} (e : Ev) (f : Fresh s) (h : Disk s) : Disk (step s e) := by
  cases e with
  | slice l n r i =>
    simp only [step]
    split
    · have h1 : Disk (makeRoom { s with stats := fun k => if k = l then s.stats k + n else s.stats k } r i) := by
        unfold makeRoom
        split
        · exact ⟨h.nodup, h.settled⟩
        · split
          · have := disk_decommission (s := { s with stats := fun k => if k = l then s.stats k + n else s.stats k })
              ⟨f.active, f.seen⟩ ⟨h.nodup, h.settled⟩
            exact ⟨this.nodup, this.settled⟩
          · exact ⟨h.nodup, h.settled⟩
      show Disk (push _ l n)
      unfold push
      split
      · exact h1
      · exact ⟨h1.nodup, h1.settled⟩
    · exact h
  | exit =>
    simp only [step]
    split
    · have := disk_decommission f h
      exact ⟨this.nodup, this.settled⟩
    · exact h
  | ack i => simp only [step, onAck]; repeat' split
             all_goals exact ⟨h.nodup, h.settled⟩
  | erase i => simp only [step, onErase]; repeat' split
               all_goals exact ⟨h.nodup, h.settled⟩
  | metaErased i => simp only [step, onMetaErased]; repeat' split
                    all_goals exact ⟨h.nodup, h.settled⟩
  | map i =>
    simp only [step, onMap]
    split
    · exact h
    · refine ⟨h.nodup, ?_⟩
      intro id hid
      apply h.settled
      simp only [Settled, List.mem_append, List.mem_singleton] at hid ⊢
      grind
  | mapped i =>
    simp only [step, onMapped]
    repeat' split
    · exact h
    · refine ⟨h.nodup, ?_⟩
      intro id hid
      apply h.settled
      have h2 : ∀ x, x ∈ s.mapped.eraseIdx i → x ∈ s.mapped := fun x => List.mem_of_mem_eraseIdx
      simp only [Settled] at hid ⊢
      grind
    · rename_i x a hx
      refine ⟨h.nodup, ?_⟩
      intro id hid
      apply h.settled
      have h2 : ∀ x, x ∈ s.mapped.eraseIdx i → x ∈ s.mapped := fun x => List.mem_of_mem_eraseIdx
      have h3 := List.mem_of_getElem? hx
      simp only [Settled, List.mem_append, List.mem_singleton] at hid ⊢
      grind
    · exact h
  | write i ok =>
    simp only [step, onWrite]
    split
    · exact h
    · rename_i x hx
      have h2 : ∀ x, x ∈ s.writes.eraseIdx i → x ∈ s.writes := fun x => List.mem_of_mem_eraseIdx
      have h3 := not_mem_eraseIdx h.nodup hx
      split
      · refine ⟨h.nodup.sublist (List.eraseIdx_sublist ..), ?_⟩
        intro id hid
        have h4 := h.settled id
        simp only [Settled, mem_insertNew] at hid h4 ⊢
        grind
      · refine ⟨h.nodup.sublist (List.eraseIdx_sublist ..), ?_⟩
        intro id hid hm
        exact h.settled id hid (h2 _ hm)
  | save ok => simp only [step, onSave]; split
               · exact h
               · exact ⟨h.nodup, h.settled⟩
  | unlink i ok =>
    simp only [step, onUnlink]
    split
    · exact h
    · rename_i x hx
      refine ⟨h.nodup, ?_⟩
      intro id hid
      apply h.settled
      have h2 : id ∈ s.unlinking.eraseIdx i → id ∈ s.unlinking := List.mem_of_mem_eraseIdx
      have h3 := List.mem_of_getElem? hx
      cases ok
      · simp only [Settled, List.mem_cons] at hid ⊢
        grind
      · simp only [Settled, List.mem_cons, if_true, List.mem_filter] at hid ⊢
        grind
  | restart => exact ⟨by simp [step, restart, start], by simp [step, restart, start]⟩

theorem disk_run {s : State} (es : List Ev) (f : Fresh s) (h : Disk s) : Disk (run s es) := by
  induction es generalizing s with
  | nil => exact h
  | cons e es ih => exact ih (fresh_step e f) (disk_step e f h)

theorem files_decommission (s : State) : (decommission s).files = s.files ∧ (decommission s).erased = s.erased := by
  unfold decommission; split <;> exact ⟨rfl, rfl⟩

theorem files_onSlice (s : State) (l n : Nat) (r : Bool) (i : Nat) :
    (onSlice s l n r i).files = s.files ∧ (onSlice s l n r i).erased = s.erased := by
  simp only [onSlice, push]
  have h1 : (makeRoom { s with stats := fun k => if k = l then s.stats k + n else s.stats k } r i).files = s.files ∧
      (makeRoom { s with stats := fun k => if k = l then s.stats k + n else s.stats k } r i).erased = s.erased := by
    unfold makeRoom
    split
    · exact ⟨rfl, rfl⟩
    · split
      · exact files_decommission _
      · exact ⟨rfl, rfl⟩
  split
  · exact h1
  · exact h1

theorem gone_step {s : State} (e : Ev) (d : Disk s) (he : ∀ i, e ≠ .unlink i false)
    (h : ∀ id ∈ s.erased, id ∉ s.files) : ∀ id ∈ (step s e).erased, id ∉ (step s e).files := by
  cases e with
  | slice l n r i =>
    simp only [step]
    split
    · rw [(files_onSlice s l n r i).1, (files_onSlice s l n r i).2]; exact h
    · exact h
  | exit =>
    simp only [step]
    split
    · show ∀ id ∈ (decommission s).erased, id ∉ (decommission s).files
      rw [(files_decommission s).1, (files_decommission s).2]; exact h
    · exact h
  | ack i => simp only [step, onAck]; repeat' split
             all_goals exact h
  | erase i => simp only [step, onErase]; repeat' split
               all_goals exact h
  | metaErased i => simp only [step, onMetaErased]; repeat' split
                    all_goals exact h
  | map i => simp only [step, onMap]; repeat' split
             all_goals exact h
  | mapped i => simp only [step, onMapped]; repeat' split
                all_goals exact h
  | write i ok =>
    simp only [step, onWrite]
    split
    · exact h
    · rename_i x hx
      split
      · intro id hid
        have h1 := h id hid
        have h2 := d.settled id (.inr (.inr (.inr hid)))
        have h3 := List.mem_of_getElem? hx
        simp only [mem_insertNew]
        grind
      · exact h
  | save ok => simp only [step, onSave]; split <;> exact h
  | unlink i ok =>
    cases ok
    · exact absurd rfl (he i)
    · simp only [step, onUnlink]
      split
      · exact h
      · intro id hid
        simp only [List.mem_cons, if_true, List.mem_filter] at hid ⊢
        rcases hid with e | hid
        · subst e; simp
        · exact fun hm => h id hid hm.1
  | restart => exact h

theorem gone_run {s : State} (es : List Ev) (f : Fresh s) (d : Disk s) (he : ∀ i, .unlink i false ∉ es)
    (h : ∀ id ∈ s.erased, id ∉ s.files) : ∀ id ∈ (run s es).erased, id ∉ (run s es).files := by
  induction es generalizing s with
  | nil => exact h
  | cons e es ih =>
    exact ih (fresh_step e f) (disk_step e f d) (fun i hm => he i (List.mem_cons_of_mem _ hm))
      (gone_step e d (fun i e' => he i (by simp [e'])) h)

/-! ## A partition that was saved stays known -/

/-- The saved and to be saved lists of partitions, oldest first. -/
def old (s : State) : List (List Nat) := s.image.toList.map (·.ids) ++ s.saves.map (·.ids)

structure Kept (id : Nat) (s : State) : Prop where
  free : id ∉ s.asked.map (·.1) ∧ id ∉ s.mapping.map (·.1) ∧ id ∉ s.mapped.map (·.1) ∧ id ∉ s.unlinking
  chain : (id ∈ s.files ∨ id ∈ s.writes) →
    (old s).Pairwise (fun a b => id ∈ a → id ∈ b) ∧
    (s.running = true → ∀ x ∈ old s, id ∈ x → id ∈ s.persisted ∨ id ∈ s.unpersisted)

theorem kept_start (id : Nat) : Kept id start := by
  constructor <;> simp [start, old]

theorem seen_old {s : State} {id : Nat} {x : List Nat} (hx : x ∈ old s) (hid : id ∈ x) : Seen s id := by
  simp only [old, List.mem_append, List.mem_map, Option.mem_toList] at hx
  simp only [Seen]
  rcases hx with ⟨y, hy, rfl⟩ | ⟨y, hy, rfl⟩
  · have : ∃ x, s.image = some x ∧ id ∈ x.ids := ⟨y, hy, hid⟩
    simp [this]
  · have : ∃ x ∈ s.saves, id ∈ x.ids := ⟨y, hy, hid⟩
    simp [this]

theorem kept_decommission {id : Nat} {s : State} (f : Fresh s) (h : Kept id s) : Kept id (decommission s) := by
  unfold decommission
  split
  · exact h
  · rename_i a ha
    refine ⟨h.free, ?_⟩
    intro hm
    by_cases e : id = a
    · subst e
      have h1 : ∀ x ∈ old s, id ∉ x := fun x hx hid => (f.seen id (seen_old hx hid)).2 ha
      constructor
      · apply List.pairwise_iff_forall_sublist.2
        intro x y hs hid
        exact absurd hid (h1 x (hs.subset (by simp)))
      · intro _ x hx hid
        exact absurd hid (h1 x hx)
    · have h2 := h.chain (by simpa [e] using hm)
      refine ⟨h2.1, ?_⟩
      intro hr x hx hid
      have := h2.2 hr x hx hid
      simp only [List.mem_cons]
      grind

theorem old_flush (s : State) : old (flush s) = old s ++ [s.persisted ++ s.unpersisted] := by
  simp [old, flush]

theorem kept_flush {id : Nat} {s : State} (hr : s.running = true) (h : Kept id s) : Kept id (flush s) := by
  refine ⟨h.free, ?_⟩
  intro hm
  have h1 := h.chain hm
  rw [old_flush]
  constructor
  · refine List.pairwise_append.2 ⟨h1.1, by simp, ?_⟩
    intro x hx y hy hid
    have : y = s.persisted ++ s.unpersisted := by simpa using hy
    subst this
    simpa using h1.2 hr x hx hid
  · intro _ x hx hid
    rcases List.mem_append.1 hx with hx | hx
    · exact h1.2 hr x hx hid
    · have : x = s.persisted ++ s.unpersisted := by simpa using hx
      subst this
      simpa [flush] using hid

theorem running_decommission (s : State) : (decommission s).running = s.running := by
  unfold decommission; split <;> rfl

theorem old_load {s : State} : old (restart s) = s.image.toList.map (·.ids) := by
  simp [old, restart, start]

theorem kept_step {id : Nat} {s : State} (e : Ev) (f : Fresh s) (he : e ≠ .erase id) (h : Kept id s) : Kept id (step s e) := by
  cases e with
  | slice l n r i =>
    simp only [step]
    split
    · rename_i hc
      have h1 : Kept id (makeRoom { s with stats := fun k => if k = l then s.stats k + n else s.stats k } r i) := by
        unfold makeRoom
        split
        · exact ⟨h.free, h.chain⟩
        · split
          · have h2 := kept_decommission (id := id) (s := { s with stats := fun k => if k = l then s.stats k + n else s.stats k })
              ⟨f.active, f.seen⟩ ⟨h.free, h.chain⟩
            have h3 := kept_flush (by rw [running_decommission]; exact hc.1) h2
            exact ⟨h3.free, h3.chain⟩
          · exact ⟨h.free, h.chain⟩
      show Kept id (push _ l n)
      unfold push
      split
      · exact h1
      · exact ⟨h1.free, h1.chain⟩
    · exact h
  | exit =>
    simp only [step]
    split
    · rename_i hr
      have h3 := kept_flush (by rw [running_decommission]; exact hr) (kept_decommission f h)
      exact ⟨h3.free, fun hm => ⟨(h3.chain hm).1, by simp [onExit]⟩⟩
    · exact h
  | ack i =>
    simp only [step, onAck]
    repeat' split
    · exact h
    · refine ⟨h.free, fun hm => ⟨(h.chain hm).1, fun hr x hx hid => ?_⟩⟩
      have := (h.chain hm).2 hr x hx hid
      simp only [mem_insertNew, List.mem_filter]
      grind
    · exact h
  | erase i =>
    have hne : id ≠ i := fun e => he (by rw [e])
    have h0 := h.free
    simp only [step, onErase]
    repeat' split
    · exact ⟨by simpa [hne] using h0, h.chain⟩
    · exact ⟨by simpa [hne] using h0, h.chain⟩
    · exact h
    · exact h
  | metaErased i =>
    have h0 := h.free
    simp only [step, onMetaErased]
    repeat' split
    · exact h
    · rename_i x hx
      have hne : id ≠ x.1 := fun e => h0.1 (e ▸ List.mem_map_of_mem (List.mem_of_getElem? hx))
      constructor
      · refine ⟨fun hm => h0.1 ?_, ?_, h0.2.2⟩
        · obtain ⟨y, hy, e⟩ := List.mem_map.1 hm
          exact List.mem_map.2 ⟨y, List.mem_of_mem_eraseIdx hy, e⟩
        · simpa [hne] using h0.2.1
      · intro hm
        refine ⟨(h.chain hm).1, fun hr y hy hid => ?_⟩
        have := (h.chain hm).2 hr y hy hid
        simp only [List.mem_filter]
        grind
    · exact h
  | map i =>
    have h0 := h.free
    simp only [step, onMap]
    split
    · exact h
    · rename_i x hx
      have hne : id ≠ x.1 := fun e => h0.2.1 (e ▸ List.mem_map_of_mem (List.mem_of_getElem? hx))
      refine ⟨⟨h0.1, fun hm => h0.2.1 ?_, ?_, h0.2.2.2⟩, h.chain⟩
      · obtain ⟨y, hy, e⟩ := List.mem_map.1 hm
        exact List.mem_map.2 ⟨y, List.mem_of_mem_eraseIdx hy, e⟩
      · simpa [hne] using h0.2.2.1
  | mapped i =>
    have h0 := h.free
    have h5 : id ∉ (s.mapped.eraseIdx i).map (·.1) := by
      intro hm
      obtain ⟨y, hy, e⟩ := List.mem_map.1 hm
      exact h0.2.2.1 (List.mem_map.2 ⟨y, List.mem_of_mem_eraseIdx hy, e⟩)
    simp only [step, onMapped]
    repeat' split
    · exact h
    · exact ⟨⟨h0.1, h0.2.1, h5, h0.2.2.2⟩, fun hm => ⟨(h.chain hm).1, by simp⟩⟩
    · rename_i x a hx
      have hne : id ≠ x := fun e => h0.2.2.1 (List.mem_map.2 ⟨_, List.mem_of_getElem? hx, e.symm⟩)
      exact ⟨⟨h0.1, h0.2.1, h5, by simpa [hne] using h0.2.2.2⟩, h.chain⟩
    · exact h
  | write i ok =>
    have h0 := h.free
    simp only [step, onWrite]
    split
    · exact h
    · rename_i x hx
      have h3 := List.mem_of_getElem? hx
      have h2 : id ∈ s.writes.eraseIdx i → id ∈ s.writes := List.mem_of_mem_eraseIdx
      split
      · refine ⟨h0, fun hm => h.chain ?_⟩
        simp only [mem_insertNew] at hm
        grind
      · refine ⟨h0, fun hm => ?_⟩
        have h4 := h.chain (by simp only at hm; grind)
        exact ⟨h4.1, by simp⟩
  | save ok =>
    simp only [step, onSave]
    split
    · exact h
    · rename_i x xs hx
      refine ⟨h.free, fun hm => ?_⟩
      have h4 := h.chain hm
      have hsub : (old { s with saves := xs, image := if ok then some x else s.image }).Sublist (old s) := by
        cases ok
        · simp [old, hx]
        · simp only [old, hx, if_true, Option.toList_some, List.map_cons, List.map_nil, List.singleton_append]
          exact List.sublist_append_right ..
      exact ⟨h4.1.sublist hsub, fun hr y hy hid => h4.2 hr y (hsub.subset hy) hid⟩
  | unlink i ok =>
    have h0 := h.free
    simp only [step, onUnlink]
    split
    · exact h
    · rename_i x hx
      refine ⟨⟨h0.1, h0.2.1, h0.2.2.1, fun hm => h0.2.2.2 (List.mem_of_mem_eraseIdx hm)⟩, fun hm => h.chain ?_⟩
      cases ok
      · exact hm
      · simp only [if_true, List.mem_filter] at hm
        grind
  | restart =>
    constructor
    · simp [step, restart, start]
    · intro hm
      have hf : id ∈ s.files := by
        rcases hm with h | h
        · exact h
        · simp [step, restart, start] at h
      simp only [step, old_load]
      cases hi : s.image with
      | none => simp
      | some x =>
        refine ⟨by simp, ?_⟩
        intro _ y hy hid
        have hy' : y = x.ids := by simpa using hy
        subst hy'
        left
        simp only [restart, hi, mem_load, List.mem_filter]
        exact ⟨hid, by simpa using hf⟩

theorem kept_run {id : Nat} {s : State} (es : List Ev) (f : Fresh s) (he : .erase id ∉ es) (h : Kept id s) :
    Kept id (run s es) := by
  induction es generalizing s with
  | nil => exact h
  | cons e es ih =>
    exact ih (fresh_step e f) (fun hm => he (List.mem_cons_of_mem _ hm)) (kept_step e f (fun e' => he (by simp [e'])) h)

/-- What is both on disk and listed stays so. -/
structure Listed (id : Nat) (s : State) : Prop where
  file : id ∈ s.files
  image : ∃ x, s.image = some x ∧ id ∈ x.ids

theorem listed_step {id : Nat} {s : State} (e : Ev) (k : Kept id s) (h : Listed id s) : Listed id (step s e) := by
  cases e with
  | slice l n r i =>
    simp only [step]
    split
    · have h1 : (onSlice s l n r i).image = s.image := by
        simp only [onSlice, push]
        have : (makeRoom { s with stats := fun k => if k = l then s.stats k + n else s.stats k } r i).image = s.image := by
          unfold makeRoom
          split
          · rfl
          · split
            · simp only [create, flush, decommission]; split <;> rfl
            · rfl
        split <;> exact this
      exact ⟨by rw [(files_onSlice s l n r i).1]; exact h.file, by rw [h1]; exact h.image⟩
    · exact h
  | exit =>
    simp only [step]
    split
    · exact ⟨by show id ∈ (decommission s).files; rw [(files_decommission s).1]; exact h.file, by
        show ∃ x, (decommission s).image = some x ∧ _
        have : (decommission s).image = s.image := by unfold decommission; split <;> rfl
        rw [this]; exact h.image⟩
    · exact h
  | ack i => simp only [step, onAck]; repeat' split
             all_goals exact ⟨h.file, h.image⟩
  | erase i => simp only [step, onErase]; repeat' split
               all_goals exact ⟨h.file, h.image⟩
  | metaErased i => simp only [step, onMetaErased]; repeat' split
                    all_goals exact ⟨h.file, h.image⟩
  | map i => simp only [step, onMap]; repeat' split
             all_goals exact ⟨h.file, h.image⟩
  | mapped i => simp only [step, onMapped]; repeat' split
                all_goals exact ⟨h.file, h.image⟩
  | write i ok =>
    simp only [step, onWrite]
    repeat' split
    · exact h
    · exact ⟨mem_insertNew.2 (.inr h.file), h.image⟩
    · exact ⟨h.file, h.image⟩
  | save ok =>
    simp only [step, onSave]
    split
    · exact h
    · rename_i x xs hx
      refine ⟨h.file, ?_⟩
      cases ok
      · exact h.image
      · obtain ⟨y, hy, hid⟩ := h.image
        have h1 := (k.chain (.inl h.file)).1
        simp only [old, hy, hx, Option.toList_some, List.map_cons, List.map_nil, List.singleton_append] at h1
        exact ⟨x, rfl, (List.pairwise_cons.1 h1).1 x.ids (by simp) hid⟩
  | unlink i ok =>
    simp only [step, onUnlink]
    split
    · exact h
    · rename_i x hx
      have hne : id ≠ x := fun e => k.free.2.2.2 (e ▸ List.mem_of_getElem? hx)
      refine ⟨?_, h.image⟩
      cases ok
      · exact h.file
      · simp only [if_true, List.mem_filter]
        exact ⟨h.file, by simpa using hne⟩
  | restart => exact ⟨h.file, h.image⟩

theorem listed_run {id : Nat} {s : State} (es : List Ev) (f : Fresh s) (he : .erase id ∉ es) (k : Kept id s) (h : Listed id s) :
    Listed id (run s es) := by
  induction es generalizing s with
  | nil => exact h
  | cons e es ih =>
    exact ih (fresh_step e f) (fun hm => he (List.mem_cons_of_mem _ hm)) (kept_step e f (fun e' => he (by simp [e'])) k)
      (listed_step e k h)

/-! ## What is known is saved -/

def Saved (s : State) : Prop :=
  s.running = true → ∀ id, id ∈ s.persisted ∨ id ∈ s.unpersisted → ∃ x, (old s).getLast? = some x ∧ id ∈ x

theorem saved_flush (s : State) : Saved (flush s) := by
  intro _ id hid
  refine ⟨_, by rw [old_flush]; simp; rfl, ?_⟩
  simpa [flush] using hid

theorem saved_step {s : State} (e : Ev) (he : e ≠ .save false) (h : Saved s)
    (hw : ∀ id ∈ s.written, s.running = true → id ∈ s.unpersisted) : Saved (step s e) := by
  cases e with
  | slice l n r i =>
    simp only [step]
    split
    · have h1 : Saved (makeRoom { s with stats := fun k => if k = l then s.stats k + n else s.stats k } r i) := by
        unfold makeRoom
        split
        · exact h
        · split
          · intro hr id hid
            exact saved_flush (decommission _) hr id hid
          · exact h
      show Saved (push _ l n)
      unfold push
      split <;> exact h1
    · exact h
  | exit =>
    simp only [step]
    split
    · intro hr; simp [onExit] at hr
    · exact h
  | ack i =>
    simp only [step, onAck]
    repeat' split
    · exact h
    · rename_i x hx
      intro hr id hid
      have h1 := hw x (List.mem_of_getElem? hx) hr
      refine h hr id ?_
      simp only [mem_insertNew, List.mem_filter] at hid
      grind
    · exact h
  | erase i => simp only [step, onErase]; repeat' split
               all_goals exact h
  | metaErased i =>
    simp only [step, onMetaErased]
    repeat' split
    · exact h
    · intro hr id hid
      refine h hr id ?_
      simp only [List.mem_filter] at hid
      grind
    · exact h
  | map i => simp only [step, onMap]; repeat' split
             all_goals exact h
  | mapped i =>
    simp only [step, onMapped]; repeat' split
    · exact h
    · intro hr; simp at hr
    · exact h
    · exact h
  | write i ok =>
    simp only [step, onWrite]; repeat' split
    · exact h
    · exact h
    · intro hr; simp at hr
  | save ok =>
    cases ok
    · exact absurd rfl he
    · simp only [step, onSave]
      split
      · exact h
      · rename_i x xs hx
        intro hr id hid
        have h1 := h hr id hid
        rw [old, hx] at h1
        simp only [old, if_true, Option.toList_some, List.map_cons, List.map_nil, List.singleton_append] at h1 ⊢
        rw [List.getLast?_append] at h1
        simpa using h1
  | unlink i ok => simp only [step, onUnlink]; repeat' split
                   all_goals exact h
  | restart =>
    intro _ id hid
    simp only [step, old_load]
    cases hi : s.image with
    | none => simp [step, restart, start, hi] at hid
    | some x =>
      simp only [step, restart, start, hi, mem_load, List.mem_filter] at hid
      exact ⟨x.ids, by simp, by simpa using (hid.resolve_right (by simp)).1⟩

theorem written_decommission {s : State} (h : ∀ id, id ∈ s.written → id ∈ s.unpersisted) :
    ∀ id, id ∈ (decommission s).written → id ∈ (decommission s).unpersisted := by
  unfold decommission
  split
  · exact h
  · intro id hid; exact List.mem_cons_of_mem _ (h id hid)

/-- Partitions whose writing is still to be confirmed are held in memory. -/
structure Held (s : State) : Prop where
  nodup : s.written.Nodup
  writes : ∀ id ∈ s.writes, id ∉ s.written
  held : s.running = true → ∀ id, id ∈ s.written ∨ id ∈ s.writes → id ∈ s.unpersisted

theorem held_start : Held start := by constructor <;> simp [start]

theorem held_decommission {s : State} (f : Fresh s) (h : Held s) : Held (decommission s) := by
  unfold decommission
  split
  · exact h
  · rename_i a ha
    have h1 : ∀ id, Seen s id → id ≠ a := fun id hid e => (f.seen id hid).2 (e ▸ ha)
    refine ⟨h.nodup, ?_, ?_⟩
    · intro id hid
      rcases List.mem_cons.1 hid with e | hid
      · subst e; intro hm; exact h1 id (by simp [Seen, hm]) rfl
      · exact h.writes id hid
    · intro hr id hid
      have := h.held hr id
      simp only [List.mem_cons] at hid ⊢
      grind

theorem held_step {s : State} (e : Ev) (f : Fresh s) (d : Disk s) (h : Held s) : Held (step s e) := by
  cases e with
  | slice l n r i =>
    simp only [step]
    split
    · have h1 : Held (makeRoom { s with stats := fun k => if k = l then s.stats k + n else s.stats k } r i) := by
        unfold makeRoom
        split
        · exact ⟨h.nodup, h.writes, h.held⟩
        · split
          · have := held_decommission (s := { s with stats := fun k => if k = l then s.stats k + n else s.stats k })
              ⟨f.active, f.seen⟩ ⟨h.nodup, h.writes, h.held⟩
            exact ⟨this.nodup, this.writes, this.held⟩
          · exact ⟨h.nodup, h.writes, h.held⟩
      show Held (push _ l n)
      unfold push
      split
      · exact h1
      · exact ⟨h1.nodup, h1.writes, h1.held⟩
    · exact h
  | exit =>
    simp only [step]
    split
    · have := held_decommission f h
      exact ⟨this.nodup, this.writes, by simp [onExit]⟩
    · exact h
  | ack i =>
    simp only [step, onAck]
    repeat' split
    · exact h
    · rename_i x hx
      have h2 : ∀ id, id ∈ s.written.eraseIdx i → id ∈ s.written := fun id => List.mem_of_mem_eraseIdx
      have h3 := not_mem_eraseIdx h.nodup hx
      have h4 := List.mem_of_getElem? hx
      refine ⟨h.nodup.sublist (List.eraseIdx_sublist ..), fun id hid hm => h.writes id hid (h2 _ hm), ?_⟩
      intro hr id hid
      have h5 := h.held hr id
      have h6 := h.writes id
      simp only [List.mem_filter] at hid ⊢
      grind
    · exact h
  | erase i => simp only [step, onErase]; repeat' split
               all_goals exact ⟨h.nodup, h.writes, h.held⟩
  | metaErased i => simp only [step, onMetaErased]; repeat' split
                    all_goals exact ⟨h.nodup, h.writes, h.held⟩
  | map i => simp only [step, onMap]; repeat' split
             all_goals exact ⟨h.nodup, h.writes, h.held⟩
  | mapped i =>
    simp only [step, onMapped]; repeat' split
    · exact h
    · exact ⟨h.nodup, h.writes, by simp⟩
    · exact ⟨h.nodup, h.writes, h.held⟩
    · exact h
  | write i ok =>
    simp only [step, onWrite]
    split
    · exact h
    · rename_i x hx
      have h2 : ∀ id, id ∈ s.writes.eraseIdx i → id ∈ s.writes := fun id => List.mem_of_mem_eraseIdx
      have h3 := not_mem_eraseIdx d.nodup hx
      have h4 := List.mem_of_getElem? hx
      split
      · refine ⟨List.nodup_cons.2 ⟨h.writes x h4, h.nodup⟩, ?_, ?_⟩
        · intro id hid
          have := h.writes id (h2 _ hid)
          simp only [List.mem_cons]
          grind
        · intro hr id hid
          refine h.held hr id ?_
          simp only [List.mem_cons] at hid
          grind
      · exact ⟨h.nodup, fun id hid => h.writes id (h2 _ hid), by simp⟩
  | save ok => simp only [step, onSave]; split
               · exact h
               · exact ⟨h.nodup, h.writes, h.held⟩
  | unlink i ok => simp only [step, onUnlink]; repeat' split
                   all_goals exact ⟨h.nodup, h.writes, h.held⟩
  | restart => constructor <;> simp [step, restart, start]

theorem saved_run {s : State} (es : List Ev) (f : Fresh s) (d : Disk s) (hh : Held s) (he : .save false ∉ es) (h : Saved s) :
    Saved (run s es) := by
  induction es generalizing s with
  | nil => exact h
  | cons e es ih =>
    exact ih (fresh_step e f) (disk_step e f d) (held_step e f d hh) (fun hm => he (List.mem_cons_of_mem _ hm))
      (saved_step e (fun e' => he (by simp [e'])) h (fun id hid hr => hh.held hr id (.inl hid)))

end Verif.Recovery
