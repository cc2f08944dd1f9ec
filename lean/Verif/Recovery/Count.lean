import Verif.Recovery.Inv
import Verif.Recovery.Spec

namespace Verif.Recovery

open Spec

/-! ## Sums -/

theorem total_perm (c : Nat → Nat → Nat) {a b : List Nat} (h : a.Perm b) (l : Nat) : total c a l = total c b l := by
  unfold total
  induction h with
  | nil => rfl
  | cons x _ ih => simp [ih]
  | swap x y _ => simp; omega
  | trans _ _ h1 h2 => omega

theorem total_append (c : Nat → Nat → Nat) (a b : List Nat) (l : Nat) : total c (a ++ b) l = total c a l + total c b l := by
  simp [total]

theorem total_cons (c : Nat → Nat → Nat) (x : Nat) (b : List Nat) (l : Nat) : total c (x :: b) l = c x l + total c b l := by
  simp [total]

theorem total_nil (c : Nat → Nat → Nat) (l : Nat) : total c [] l = 0 := rfl

def bump (c : Nat → Nat → Nat) (a l n : Nat) : Nat → Nat → Nat := fun i k => if i = a ∧ k = l then c i k + n else c i k

theorem total_bump_not_mem (c : Nat → Nat → Nat) {a : Nat} (l n k : Nat) {ids : List Nat} (h : a ∉ ids) :
    total (bump c a l n) ids k = total c ids k := by
  induction ids with
  | nil => rfl
  | cons x xs ih =>
    have h1 : x ≠ a := fun e => h (by simp [e])
    rw [total_cons, total_cons, ih (fun hm => h (List.mem_cons_of_mem _ hm))]
    simp [bump, h1]

theorem total_bump_mem (c : Nat → Nat → Nat) {a : Nat} (l n k : Nat) {ids : List Nat} (hn : ids.Nodup) (h : a ∈ ids) :
    total (bump c a l n) ids k = total c ids k + (if k = l then n else 0) := by
  induction ids with
  | nil => simp at h
  | cons x xs ih =>
    obtain ⟨h1, h2⟩ := List.nodup_cons.1 hn
    rw [total_cons, total_cons]
    by_cases e : x = a
    · subst e
      rw [total_bump_not_mem c l n k h1]
      simp only [bump]
      grind
    · rw [ih h2 (by simpa [Ne.symm e] using h)]
      have : bump c a l n x k = c x k := by simp [bump, e]
      omega

theorem perm_filter {x : Nat} {xs : List Nat} (hn : xs.Nodup) (h : x ∈ xs) : xs.Perm (x :: xs.filter (· != x)) := by
  induction xs with
  | nil => simp at h
  | cons y ys ih =>
    obtain ⟨h1, h2⟩ := List.nodup_cons.1 hn
    by_cases e : y = x
    · subst e
      have : ys.filter (· != y) = ys := List.filter_eq_self.2 (fun z hz => by
        have : z ≠ y := fun e => h1 (e ▸ hz)
        simpa using this)
      simp [this]
    · have h3 := ih h2 (by simpa [Ne.symm e] using h)
      have : (y :: ys).filter (· != x) = y :: ys.filter (· != x) := by simp [e]
      rw [this]
      exact (h3.cons y).trans (List.Perm.swap ..)

theorem perm_eraseIdx {α : Type} {x : α} {xs : List α} {i : Nat} (h : xs[i]? = some x) : xs.Perm (x :: xs.eraseIdx i) := by
  induction xs generalizing i with
  | nil => simp at h
  | cons y ys ih =>
    cases i with
    | zero => simp at h; subst h; simp
    | succ i =>
      simp at h
      rw [List.eraseIdx_cons_succ]
      exact ((ih h).cons y).trans (List.Perm.swap ..)

theorem load_self {xs : List Nat} (h : xs.Nodup) : xs.foldr insertNew [] = xs := by
  induction xs with
  | nil => rfl
  | cons x xs ih =>
    obtain ⟨h1, h2⟩ := List.nodup_cons.1 h
    simp only [List.foldr_cons, ih h2, insertNew, h1, if_false]

/-! ## Only partitions on disk are known, if only confirmed ones are erased -/

def InErasure (s : State) (id : Nat) : Prop :=
  id ∈ s.mapping.map (·.1) ∨ id ∈ s.mapped.map (·.1) ∨ id ∈ s.unlinking

structure OnDisk (s : State) : Prop where
  done : ∀ id, id ∈ s.asked.map (·.1) ∨ InErasure s id ∨ id ∈ s.persisted → id ∉ s.writes ∧ id ∉ s.written
  off : ∀ id, InErasure s id → id ∉ s.persisted
  files : ∀ id, id ∈ s.written ∨ id ∈ s.persisted → id ∈ s.files

theorem onDisk_start : OnDisk start := by
  constructor <;> simp [start, InErasure]

theorem onDisk_decommission {s : State} (f : Fresh s) (h : OnDisk s) : OnDisk (decommission s) := by
  unfold decommission
  split
  · exact h
  · rename_i a ha
    have h1 : ∀ id, Seen s id → id ≠ a := fun id hid e => (f.seen id hid).2 (e ▸ ha)
    refine ⟨?_, h.off, h.files⟩
    intro id hid
    have h2 := h.done id hid
    have h3 : Seen s id := by
      simp only [InErasure] at hid
      simp only [Seen]
      grind
    have h4 := h1 id h3
    simp only [List.mem_cons]
    grind

theorem mem_map_eraseIdx {α : Type} {xs : List (Nat × α)} {i id : Nat} (h : id ∈ (xs.eraseIdx i).map (·.1)) :
    id ∈ xs.map (·.1) := by
  obtain ⟨y, hy, e⟩ := List.mem_map.1 h
  exact List.mem_map.2 ⟨y, List.mem_of_mem_eraseIdx hy, e⟩

theorem onDisk_step {s : State} (e : Ev) (f : Fresh s) (d : Disk s) (hh : Held s)
    (he : ∀ id, e = .erase id → id ∈ s.persisted) (h : OnDisk s) : OnDisk (step s e) := by
  cases e with
  | slice l n r i =>
    simp only [step]
    split
    · have h1 : OnDisk (makeRoom { s with stats := fun k => if k = l then s.stats k + n else s.stats k } r i) := by
        unfold makeRoom
        split
        · exact ⟨h.done, h.off, h.files⟩
        · split
          · have := onDisk_decommission (s := { s with stats := fun k => if k = l then s.stats k + n else s.stats k })
              ⟨f.active, f.seen⟩ ⟨h.done, h.off, h.files⟩
            exact ⟨this.done, this.off, this.files⟩
          · exact ⟨h.done, h.off, h.files⟩
      show OnDisk (push _ l n)
      unfold push
      split
      · exact h1
      · exact ⟨h1.done, h1.off, h1.files⟩
    · exact h
  | exit =>
    simp only [step]
    split
    · have := onDisk_decommission f h
      exact ⟨this.done, this.off, this.files⟩
    · exact h
  | ack i =>
    simp only [step, onAck]
    repeat' split
    · exact h
    · rename_i x hx
      have h2 : ∀ id, id ∈ s.written.eraseIdx i → id ∈ s.written := fun id => List.mem_of_mem_eraseIdx
      have h3 := not_mem_eraseIdx hh.nodup hx
      have h4 := List.mem_of_getElem? hx
      constructor
      · intro id hid
        have h5 := h.done id
        have h6 := hh.writes id
        simp only [InErasure, mem_insertNew] at hid h5
        grind
      · intro id hid
        have h5 := h.done id
        have h6 := h.off id hid
        simp only [InErasure, mem_insertNew] at hid h5 ⊢
        grind
      · intro id hid
        have := h.files id
        simp only [mem_insertNew] at hid
        grind
    · exact h
  | erase i =>
    have hi := he i rfl
    simp only [step, onErase, hi, if_true]
    split
    · refine ⟨?_, h.off, h.files⟩
      intro id hid
      have h5 := h.done id
      simp only [InErasure, List.map_append, List.mem_append, List.map_cons, List.map_nil, List.mem_singleton] at hid h5
      grind
    · exact h
  | metaErased i =>
    simp only [step, onMetaErased]
    repeat' split
    · exact h
    · rename_i x hx
      have h4 : x.1 ∈ s.asked.map (·.1) := List.mem_map_of_mem (List.mem_of_getElem? hx)
      have h2 : ∀ id, id ∈ (s.asked.eraseIdx i).map (·.1) → id ∈ s.asked.map (·.1) := fun id => mem_map_eraseIdx
      constructor
      · intro id hid
        have h5 := h.done id
        simp only [InErasure, List.map_append, List.mem_append, List.map_cons, List.map_nil, List.mem_singleton,
          List.mem_filter] at hid h5
        grind
      · intro id hid
        have h5 := h.off id
        simp only [InErasure, List.map_append, List.mem_append, List.map_cons, List.map_nil, List.mem_singleton,
          List.mem_filter] at hid h5 ⊢
        grind
      · intro id hid
        have := h.files id
        simp only [List.mem_filter] at hid
        grind
    · exact h
  | map i =>
    simp only [step, onMap]
    split
    · exact h
    · rename_i x hx
      have h4 : x.1 ∈ s.mapping.map (·.1) := List.mem_map_of_mem (List.mem_of_getElem? hx)
      have h2 : ∀ id, id ∈ (s.mapping.eraseIdx i).map (·.1) → id ∈ s.mapping.map (·.1) := fun id => mem_map_eraseIdx
      refine ⟨?_, ?_, h.files⟩
      · intro id hid
        have h5 := h.done id
        simp only [InErasure, List.map_append, List.mem_append, List.map_cons, List.map_nil, List.mem_singleton] at hid h5
        grind
      · intro id hid
        have h5 := h.off id
        simp only [InErasure, List.map_append, List.mem_append, List.map_cons, List.map_nil, List.mem_singleton] at hid h5 ⊢
        grind
  | mapped i =>
    have h2 : ∀ id, id ∈ (s.mapped.eraseIdx i).map (·.1) → id ∈ s.mapped.map (·.1) := fun id => mem_map_eraseIdx
    simp only [step, onMapped]
    repeat' split
    · exact h
    · refine ⟨?_, ?_, h.files⟩
      · intro id hid
        have h5 := h.done id
        simp only [InErasure] at hid h5
        grind
      · intro id hid
        have h5 := h.off id
        simp only [InErasure] at hid h5
        grind
    · rename_i x a hx
      have h4 : x ∈ s.mapped.map (·.1) := List.mem_map.2 ⟨_, List.mem_of_getElem? hx, rfl⟩
      refine ⟨?_, ?_, h.files⟩
      · intro id hid
        have h5 := h.done id
        simp only [InErasure, List.mem_append, List.mem_singleton] at hid h5
        grind
      · intro id hid
        have h5 := h.off id
        simp only [InErasure, List.mem_append, List.mem_singleton] at hid h5
        grind
    · exact h
  | write i ok =>
    simp only [step, onWrite]
    split
    · exact h
    · rename_i x hx
      have h2 : ∀ id, id ∈ s.writes.eraseIdx i → id ∈ s.writes := fun id => List.mem_of_mem_eraseIdx
      have h4 := List.mem_of_getElem? hx
      split
      · refine ⟨?_, h.off, ?_⟩
        · intro id hid
          have h5 := h.done id hid
          simp only [List.mem_cons]
          grind
        · intro id hid
          have := h.files id
          simp only [List.mem_cons, mem_insertNew] at hid ⊢
          grind
      · refine ⟨?_, h.off, h.files⟩
        intro id hid
        have h5 := h.done id hid
        exact ⟨fun hm => h5.1 (h2 _ hm), h5.2⟩
  | save ok => simp only [step, onSave]; split
               · exact h
               · exact ⟨h.done, h.off, h.files⟩
  | unlink i ok =>
    simp only [step, onUnlink]
    split
    · exact h
    · rename_i x hx
      have h2 : ∀ id, id ∈ s.unlinking.eraseIdx i → id ∈ s.unlinking := fun id => List.mem_of_mem_eraseIdx
      have h4 := List.mem_of_getElem? hx
      refine ⟨?_, ?_, ?_⟩
      · intro id hid
        have h5 := h.done id
        simp only [InErasure] at hid h5
        grind
      · intro id hid
        have h5 := h.off id
        simp only [InErasure] at hid h5
        grind
      · intro id hid
        have h5 := h.files id hid
        have h6 := h.done id
        have h7 := h.off id
        simp only [InErasure] at h6 h7
        cases ok
        · exact h5
        · simp only [if_true, List.mem_filter]
          refine ⟨h5, ?_⟩
          grind
  | restart =>
    constructor
    · simp [step, restart, start]
    · simp [step, restart, start, InErasure]
    · intro id hid
      simp only [step, restart, start] at hid ⊢
      cases hi : s.image with
      | none => simp [hi] at hid
      | some x => simp only [hi, mem_load, List.mem_filter] at hid; simpa using (hid.resolve_left (by simp)).2

theorem onDisk_run {s : State} (es : List Ev) (f : Fresh s) (d : Disk s) (hh : Held s) (he : Confirmed s es) (h : OnDisk s) :
    OnDisk (run s es) := by
  induction es generalizing s with
  | nil => exact h
  | cons e es ih =>
    exact ih (fresh_step e f) (disk_step e f d) (held_step e f d hh) he.2 (onDisk_step e f d hh he.1 h)

end Verif.Recovery
