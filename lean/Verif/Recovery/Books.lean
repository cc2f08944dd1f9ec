import Verif.Recovery.Count

namespace Verif.Recovery

open Spec

/-! ## The counts, when all is regular -/

/-- The newest list of partitions saved or being saved. -/
def lastImage (s : State) : Option Image := (s.image.toList ++ s.saves).getLast?

/-- The partitions known (`K`) and the counts (`S`), or, once the index has stopped, those being saved. -/
def View (s : State) (K : List Nat) (S : Nat → Nat) : Prop :=
  (s.running = true → K = known s ∧ S = s.stats) ∧
  (s.running = false → ∃ x, lastImage s = some x ∧ K = x.ids ∧ S = x.stats)

/-- Partitions being erased whose events are still counted. -/
def counted (s : State) : List Nat := s.mapping.map (·.1) ++ s.mapped.map (·.1)

/-- `N`: what was ingested and sent to a partition; `d`: what is counted but not sent yet. -/
structure Core (N d : Nat → Nat) (s : State) (K : List Nat) (S : Nat → Nat) : Prop where
  zero : ∀ id, id ∉ s.used → ∀ l, s.contents id l = 0
  nodup : (K ++ counted s ++ s.unlinking ++ s.erased).Nodup
  books : ∀ l, S l = total s.contents (K ++ counted s) l + d l
  cons : ∀ l, N l = total s.contents (K ++ counted s ++ s.unlinking ++ s.erased) l
  known : ∀ id ∈ K, (s.running = true ∧ s.active = some id) ∨ id ∈ s.writes ∨ id ∈ s.files
  pipe : ∀ id ∈ counted s ++ s.unlinking, id ∈ s.files
  asked : s.running = true → (s.asked.map (·.1)).Nodup ∧ ∀ x ∈ s.asked, x.2 = true ∧ x.1 ∈ s.persisted
  mapping : ∀ x ∈ s.mapping, x.2 = true
  mapped : ∀ x ∈ s.mapped, x.2.1 = true ∧ x.2.2 = true
  good : s.bad = false

def Good (N : Nat → Nat) (s : State) : Prop := ∃ K S, View s K S ∧ Core N (fun _ => 0) s K S

theorem good_start : Good (fun _ => 0) start := by
  refine ⟨[], fun _ => 0, ⟨by simp [start, known], by simp [start]⟩, ?_⟩
  constructor <;> simp [start, counted, total]

theorem known_decommission {s : State} : (known (decommission s)).Perm (known s) ∧
    (decommission s).active = none ∧ counted (decommission s) = counted s := by
  unfold decommission
  split
  · rename_i h; exact ⟨.refl _, h, rfl⟩
  · rename_i a ha
    refine ⟨?_, rfl, rfl⟩
    simp only [known, ha, Option.toList_some, Option.toList_none, List.nil_append, List.singleton_append]
    exact List.perm_middle

theorem core_perm {N d : Nat → Nat} {s : State} {K K' : List Nat} {S : Nat → Nat} (p : K'.Perm K) (h : Core N d s K S) :
    Core N d s K' S := by
  have p1 : (K' ++ counted s).Perm (K ++ counted s) := p.append_right _
  have p2 : (K' ++ counted s ++ s.unlinking ++ s.erased).Perm (K ++ counted s ++ s.unlinking ++ s.erased) :=
    (p1.append_right _).append_right _
  exact ⟨h.zero, p2.nodup_iff.2 h.nodup, fun l => by rw [total_perm _ p1]; exact h.books l,
    fun l => by rw [total_perm _ p2]; exact h.cons l, fun id hid => h.known id (p.subset hid), h.pipe, h.asked, h.mapping, h.mapped,
    h.good⟩

theorem core_decommission {N d : Nat → Nat} {s : State} {S : Nat → Nat} (h : Core N d s (known s) S) :
    Core N d (decommission s) (known (decommission s)) S := by
  refine core_perm known_decommission.1 ?_
  unfold decommission
  split
  · exact h
  · rename_i a ha
    refine ⟨h.zero, h.nodup, h.books, h.cons, ?_, h.pipe, h.asked, h.mapping, h.mapped, h.good⟩
    intro id hid
    have := h.known id hid
    simp only [List.mem_cons]
    grind

theorem core_create {N d : Nat → Nat} {s : State} {S : Nat → Nat} {id : Nat} (f : Fresh s) (hr : s.running = true) (hid : id ∉ s.used)
    (hn : s.active = none) (h : Core N d s (known s) S) : Core N d (create s id) (known (create s id)) S := by
  have hk : known (create s id) = id :: known s := by simp [known, create, hn]
  have hz : ∀ l, s.contents id l = 0 := h.zero id hid
  have hnew : ∀ i, Seen s i → i ≠ id := fun i hi e => hid (e ▸ (f.seen i hi).1)
  constructor
  · intro i hi l
    exact h.zero i (fun hm => hi (List.mem_cons_of_mem _ hm)) l
  · rw [hk]
    simp only [List.cons_append, List.nodup_cons]
    refine ⟨?_, h.nodup⟩
    intro hm
    refine hnew id ?_ rfl
    simp only [List.mem_append, known, counted, create, hn, Option.toList_none, List.not_mem_nil, false_or] at hm
    simp only [Seen]
    grind
  · intro l
    rw [hk, List.cons_append, total_cons]
    show S l = s.contents id l + total s.contents (known s ++ counted s) l + d l
    rw [hz l, h.books l]; omega
  · intro l
    rw [hk, List.cons_append, List.cons_append, List.cons_append, total_cons]
    show N l = s.contents id l + total s.contents (known s ++ counted s ++ s.unlinking ++ s.erased) l
    rw [hz l, h.cons l]; omega
  · intro i hi
    rw [hk] at hi
    rcases List.mem_cons.1 hi with e | hi
    · subst e; exact .inl ⟨hr, rfl⟩
    · have := h.known i hi
      rw [hn] at this
      simp at this
      exact .inr this
  · exact h.pipe
  · exact h.asked
  · exact h.mapping
  · exact h.mapped
  · exact h.good

theorem core_flush {N d : Nat → Nat} {s : State} {K : List Nat} {S : Nat → Nat} (h : Core N d s K S) : Core N d (flush s) K S :=
  ⟨h.zero, h.nodup, h.books, h.cons, h.known, h.pipe, h.asked, h.mapping, h.mapped, h.good⟩

theorem makeRoom_active {s : State} {r : Bool} {id : Nat} : (makeRoom s r id).active ≠ none ∧ (makeRoom s r id).running = s.running ∧
    (makeRoom s r id).stats = s.stats := by
  unfold makeRoom
  split
  · simp [create]
  · rename_i a ha
    split
    · refine ⟨by simp [create], ?_, ?_⟩
      · show (decommission s).running = _; rw [running_decommission]
      · simp only [create, flush, decommission]; split <;> rfl
    · simp [ha]

theorem fresh_makeRoom {s : State} {r : Bool} {id : Nat} (h : Fresh s) (hid : id ∉ s.used) : Fresh (makeRoom s r id) := by
  unfold makeRoom
  split
  · exact fresh_create h hid
  · split
    · exact fresh_create (fresh_flush (fresh_decommission h)) (by
        show id ∉ (decommission _).used
        rw [used_decommission]; exact hid)
    · exact h

theorem core_makeRoom {N d : Nat → Nat} {s : State} {S : Nat → Nat} {r : Bool} {id : Nat} (f : Fresh s) (hr : s.running = true)
    (hid : id ∉ s.used) (h : Core N d s (known s) S) : Core N d (makeRoom s r id) (known (makeRoom s r id)) S := by
  unfold makeRoom
  split
  · rename_i hn
    exact core_create f hr hid hn h
  · split
    · have h1 := core_decommission h
      have h2 := core_flush h1
      have hn : (flush (decommission s)).active = none := known_decommission.2.1
      have hr' : (flush (decommission s)).running = true := by
        show (decommission s).running = true
        rw [running_decommission]; exact hr
      have hu : id ∉ (flush (decommission s)).used := by
        show id ∉ (decommission s).used
        rw [used_decommission]; exact hid
      exact core_create (fresh_flush (fresh_decommission f)) hr' hu hn h2
    · exact h

theorem core_push {N d : Nat → Nat} {s : State} {S : Nat → Nat} {l n a : Nat} (f : Fresh s) (ha : s.active = some a)
    (hd : d = fun k => if k = l then n else 0) (h : Core N d s (known s) S) :
    Core (fun k => N k + if k = l then n else 0) (fun _ => 0) (push s l n) (known (push s l n)) S := by
  have hp : push s l n = { s with contents := bump s.contents a l n } := by
    simp only [push]
    split
    · rename_i hn; rw [ha] at hn; cases hn
    · rename_i b hb; rw [ha] at hb; cases hb; rfl
  have hk : known (push s l n) = known s := by rw [hp]; rfl
  have hc : counted (push s l n) = counted s := by rw [hp]; rfl
  have hmem : a ∈ known s := by simp [known, ha]
  rw [hk]
  constructor
  · intro id hid k
    rw [hp] at hid ⊢
    have h1 : id ≠ a := fun e => hid (e ▸ f.active a ha)
    simp only [bump, h1, false_and, if_false]
    exact h.zero id hid k
  · rw [hc, hp]; exact h.nodup
  · intro k
    have h1 := h.books k
    have hn : (known s ++ counted s).Nodup :=
      h.nodup.sublist ((List.sublist_append_left _ _).trans (List.sublist_append_left _ _))
    rw [hc, hp]
    show S k = total (bump s.contents a l n) (known s ++ counted s) k + 0
    rw [total_bump_mem s.contents l n k hn (List.mem_append_left _ hmem), h1, hd]
    rfl
  · intro k
    have h1 := h.cons k
    rw [hc, hp]
    show N k + _ = total (bump s.contents a l n) (known s ++ counted s ++ s.unlinking ++ s.erased) k
    rw [total_bump_mem s.contents l n k h.nodup (by simp [hmem]), h1]
  · intro id hid
    rw [hp]; exact h.known id hid
  · rw [hc, hp]; exact h.pipe
  · rw [hp]; exact h.asked
  · rw [hp]; exact h.mapping
  · rw [hp]; exact h.mapped
  · rw [hp]; exact h.good

theorem good_slice {N : Nat → Nat} {s : State} {l n id : Nat} {r : Bool} (f : Fresh s) (hr : s.running = true) (hid : id ∉ s.used)
    (h : Good N s) : Good (fun k => N k + if k = l then n else 0) (onSlice s l n r id) := by
  obtain ⟨K, S, v, c⟩ := h
  obtain ⟨rfl, rfl⟩ := v.1 hr
  have c1 : Core N (fun k => if k = l then n else 0) { s with stats := fun k => if k = l then s.stats k + n else s.stats k }
      (known s) (fun k => if k = l then s.stats k + n else s.stats k) := by
    refine ⟨c.zero, c.nodup, ?_, c.cons, c.known, c.pipe, c.asked, c.mapping, c.mapped, c.good⟩
    intro k
    have h1 := c.books k
    show (if k = l then s.stats k + n else s.stats k) = total s.contents (known s ++ counted s) k + if k = l then n else 0
    split <;> omega
  have f1 : Fresh { s with stats := fun k => if k = l then s.stats k + n else s.stats k } := ⟨f.active, f.seen⟩
  have c2 := core_makeRoom (r := r) (id := id) f1 hr hid c1
  have f2 := fresh_makeRoom (r := r) (id := id) f1 hid
  have m := makeRoom_active (s := { s with stats := fun k => if k = l then s.stats k + n else s.stats k }) (r := r) (id := id)
  cases ha : (makeRoom { s with stats := fun k => if k = l then s.stats k + n else s.stats k } r id).active with
  | none => exact absurd ha m.1
  | some a =>
    have c3 := core_push f2 ha rfl c2
    refine ⟨_, _, ⟨?_, ?_⟩, c3⟩
    · intro _
      refine ⟨rfl, ?_⟩
      have : (onSlice s l n r id).stats = (makeRoom { s with stats := fun k => if k = l then s.stats k + n else s.stats k } r id).stats := by
        simp only [onSlice, push]; split <;> rfl
      rw [this, m.2.2]
    · intro hf
      have : (onSlice s l n r id).running = s.running := by
        simp only [onSlice, push]; split <;> exact m.2.1
      rw [this, hr] at hf; cases hf

theorem good_exit {N : Nat → Nat} {s : State} (hr : s.running = true) (h : Good N s) : Good N (onExit s) := by
  obtain ⟨K, S, v, c⟩ := h
  obtain ⟨rfl, rfl⟩ := v.1 hr
  have c1 := core_flush (core_decommission c)
  have hk : known (decommission s) = (decommission s).persisted ++ (decommission s).unpersisted := by
    simp [known, known_decommission.2.1]
  have hs : (decommission s).stats = s.stats := by unfold decommission; split <;> rfl
  refine ⟨known (decommission s), s.stats, ⟨by simp [onExit], ?_⟩, ?_⟩
  · intro _
    refine ⟨⟨(decommission s).persisted ++ (decommission s).unpersisted, (decommission s).stats⟩, ?_, hk, hs.symm⟩
    have : (onExit s).image.toList ++ (onExit s).saves = ((decommission s).image.toList ++ (decommission s).saves) ++
        [⟨(decommission s).persisted ++ (decommission s).unpersisted, (decommission s).stats⟩] := by
      simp [onExit, flush]
    rw [lastImage, this, List.getLast?_concat]
  · refine ⟨c1.zero, c1.nodup, c1.books, c1.cons, ?_, c1.pipe, by simp [onExit], c1.mapping, c1.mapped, c1.good⟩
    intro id hid
    have h1 := c1.known id hid
    have h2 : (flush (decommission s)).active = none := known_decommission.2.1
    rw [h2] at h1
    simp at h1
    exact .inr h1

theorem lastImage_congr {s t : State} (h1 : t.image = s.image) (h2 : t.saves = s.saves) : lastImage t = lastImage s := by
  simp [lastImage, h1, h2]

/-- A step that changes neither what is known nor the counts. -/
theorem view_congr {s t : State} {K : List Nat} {S : Nat → Nat} (hr : t.running = s.running) (hk : known t = known s)
    (hs : t.stats = s.stats) (hl : lastImage t = lastImage s) (v : View s K S) : View t K S := by
  constructor
  · intro h; rw [hk, hs]; exact v.1 (hr ▸ h)
  · intro h; rw [hl]; exact v.2 (hr ▸ h)

theorem good_ack {N : Nat → Nat} {s : State} {i : Nat} (hr : s.running = true) (hh : Held s) (h : Good N s) : Good N (onAck s i) := by
  unfold onAck
  split
  · exact h
  · rename_i x hx
    obtain ⟨K, S, v, c⟩ := h
    obtain ⟨rfl, rfl⟩ := v.1 hr
    have hm := hh.held hr x (.inl (List.mem_of_getElem? hx))
    have hn : (s.active.toList ++ (s.persisted ++ s.unpersisted)).Nodup := c.nodup.sublist
      ((List.sublist_append_left _ _).trans ((List.sublist_append_left _ _).trans (List.sublist_append_left _ _)))
    have hn1 := (List.nodup_append.1 hn).2.1
    have hn2 := List.nodup_append.1 hn1
    have hx1 : x ∉ s.persisted := fun hm' => hn2.2.2 x hm' x hm rfl
    have hins : insertNew x s.persisted = x :: s.persisted := by simp [insertNew, hx1]
    have hp : (s.active.toList ++ (insertNew x s.persisted ++ s.unpersisted.filter (· != x))).Perm
        (s.active.toList ++ (s.persisted ++ s.unpersisted)) := by
      rw [hins]
      refine List.Perm.append_left _ ?_
      refine List.Perm.symm ?_
      exact ((perm_filter hn2.2.1 hm).append_left s.persisted).trans List.perm_middle
    refine ⟨_, _, ⟨fun _ => ⟨rfl, rfl⟩, fun hf => by rw [show s.running = false from hf] at hr; cases hr⟩, ?_⟩
    refine core_perm (K := known s) hp ?_
    refine ⟨c.zero, c.nodup, c.books, c.cons, c.known, c.pipe, ?_, c.mapping, c.mapped, c.good⟩
    intro hr
    refine ⟨(c.asked hr).1, fun y hy => ⟨((c.asked hr).2 y hy).1, mem_insertNew.2 (.inr ((c.asked hr).2 y hy).2)⟩⟩

theorem good_write {N : Nat → Nat} {s : State} {i : Nat} (h : Good N s) : Good N (onWrite s i true) := by
  unfold onWrite
  split
  · exact h
  · rename_i x hx
    obtain ⟨K, S, v, c⟩ := h
    refine ⟨K, S, view_congr (s := s) rfl rfl rfl rfl v, ?_⟩
    refine ⟨c.zero, c.nodup, c.books, c.cons, ?_, ?_, c.asked, c.mapping, c.mapped, c.good⟩
    · intro id hid
      have h1 := c.known id hid
      by_cases e : id = x
      · exact .inr (.inr (mem_insertNew.2 (.inl e)))
      · rcases h1 with h1 | h1 | h1
        · exact .inl h1
        · exact .inr (.inl (mem_eraseIdx_of_ne hx h1 e))
        · exact .inr (.inr (mem_insertNew.2 (.inr h1)))
    · intro id hid
      exact mem_insertNew.2 (.inr (c.pipe id hid))

theorem good_save {N : Nat → Nat} {s : State} (h : Good N s) : Good N (onSave s true) := by
  unfold onSave
  split
  · exact h
  · rename_i x xs hx
    obtain ⟨K, S, v, c⟩ := h
    refine ⟨K, S, view_congr (s := s) rfl rfl rfl ?_ v, ?_⟩
    · simp only [lastImage, if_true, Option.toList_some, hx, List.singleton_append]
      cases s.image <;> simp [List.getLast?_cons_cons]
    · exact ⟨c.zero, c.nodup, c.books, c.cons, c.known, c.pipe, c.asked, c.mapping, c.mapped, c.good⟩

theorem good_erase {N : Nat → Nat} {s : State} {id : Nat} (hp : id ∈ s.persisted) (ha : id ∉ s.asked.map (·.1))
    (h : Good N s) : Good N (onErase s id) := by
  obtain ⟨K, S, v, c⟩ := h
  simp only [onErase, hp, if_true]
  refine ⟨K, S, view_congr (s := s) rfl rfl rfl rfl v, ?_⟩
  refine ⟨c.zero, c.nodup, c.books, c.cons, c.known, c.pipe, ?_, c.mapping, c.mapped, c.good⟩
  intro hr
  have h1 := c.asked hr
  constructor
  · simp only [List.map_append, List.map_cons, List.map_nil]
    refine List.nodup_append.2 ⟨h1.1, by simp, ?_⟩
    intro a ha' b hb
    have : b = id := by simpa using hb
    subst this
    exact fun e => ha (e ▸ ha')
  · intro x hx
    rcases List.mem_append.1 hx with hx | hx
    · exact h1.2 x hx
    · have : x = (id, true) := by simpa using hx
      subst this
      exact ⟨rfl, hp⟩

theorem good_metaErased {N : Nat → Nat} {s : State} {i : Nat} (hr : s.running = true) (o : OnDisk s) (h : Good N s) :
    Good N (onMetaErased s i) := by
  unfold onMetaErased
  split
  · exact h
  · rename_i x hx
    obtain ⟨K, S, v, c⟩ := h
    obtain ⟨rfl, rfl⟩ := v.1 hr
    have hxa := List.mem_of_getElem? hx
    have h1 := (c.asked hr).2 x hxa
    have hn : (s.active.toList ++ (s.persisted ++ s.unpersisted)).Nodup := c.nodup.sublist
      ((List.sublist_append_left _ _).trans ((List.sublist_append_left _ _).trans (List.sublist_append_left _ _)))
    have hn1 := (List.nodup_append.1 hn).2.1
    have hn2 := List.nodup_append.1 hn1
    have p0 := perm_filter hn2.1 h1.2
    have p1 : (known s).Perm (x.1 :: (s.active.toList ++ (s.persisted.filter (· != x.1) ++ s.unpersisted))) := by
      have : (s.active.toList ++ (s.persisted ++ s.unpersisted)).Perm
          (s.active.toList ++ (x.1 :: (s.persisted.filter (· != x.1) ++ s.unpersisted))) :=
        (p0.append_right s.unpersisted).append_left _
      exact this.trans List.perm_middle
    -- the partition moves from the known ones to those being erased
    have p2 : (s.active.toList ++ (s.persisted.filter (· != x.1) ++ s.unpersisted) ++
        (s.mapping.map (·.1) ++ [x.1] ++ s.mapped.map (·.1))).Perm (known s ++ counted s) := by
      refine List.Perm.symm ((p1.append_right (counted s)).trans ?_)
      have h5 := List.perm_middle (a := x.1)
        (l₁ := s.active.toList ++ (s.persisted.filter (· != x.1) ++ s.unpersisted) ++ s.mapping.map (·.1)) (l₂ := s.mapped.map (·.1))
      simpa [counted] using h5.symm
    have hcnt : counted { s with asked := s.asked.eraseIdx i, persisted := s.persisted.filter (· != x.1), mapping := s.mapping ++ [x] } =
        s.mapping.map (·.1) ++ [x.1] ++ s.mapped.map (·.1) := by simp [counted]
    refine ⟨_, _, ⟨fun _ => ⟨rfl, rfl⟩, fun hf => by rw [show s.running = false from hf] at hr; cases hr⟩, ?_⟩
    constructor
    · exact c.zero
    · rw [hcnt]
      exact ((p2.append_right _).append_right _).nodup_iff.2 c.nodup
    · intro l
      rw [hcnt]
      show s.stats l = total s.contents _ l + 0
      rw [c.books l]
      exact congrArg (· + 0) (total_perm _ p2.symm l)
    · intro l
      rw [hcnt, c.cons l]
      exact total_perm _ ((p2.append_right _).append_right _).symm l
    · intro id hid
      refine c.known id ?_
      simp only [known, List.mem_append, List.mem_filter] at hid ⊢
      grind
    · rw [hcnt]
      intro id hid
      have h2 := c.pipe id
      have h3 := o.files x.1 (.inr h1.2)
      simp only [counted, List.mem_append, List.mem_singleton] at hid h2
      grind
    · intro hr
      have h3 := c.asked hr
      have hpe : (s.asked.map (·.1)).Perm (x.1 :: (s.asked.eraseIdx i).map (·.1)) := by
        have := (perm_eraseIdx hx).map (·.1)
        simpa using this
      have hnd := List.nodup_cons.1 (hpe.nodup_iff.1 h3.1)
      refine ⟨hnd.2, fun y hy => ?_⟩
      have h4 := h3.2 y (List.mem_of_mem_eraseIdx hy)
      refine ⟨h4.1, ?_⟩
      simp only [List.mem_filter]
      refine ⟨h4.2, ?_⟩
      have : y.1 ≠ x.1 := fun e => hnd.1 (e ▸ List.mem_map_of_mem hy)
      simpa using this
    · intro y hy
      rcases List.mem_append.1 hy with hy | hy
      · exact c.mapping y hy
      · have : y = x := by simpa using hy
        rw [this]; exact h1.1
    · exact c.mapped
    · exact c.good

theorem core_counted {N d : Nat → Nat} {s t : State} {K : List Nat} {S : Nat → Nat} (h : Core N d s K S)
    (hp : (counted t).Perm (counted s)) (e1 : t.used = s.used) (e2 : t.contents = s.contents) (e3 : t.unlinking = s.unlinking)
    (e4 : t.erased = s.erased) (e5 : t.running = s.running) (e6 : t.active = s.active) (e7 : t.writes = s.writes)
    (e8 : t.files = s.files) (e9 : t.asked = s.asked) (e10 : t.persisted = s.persisted) (e11 : t.bad = s.bad)
    (hm1 : ∀ x ∈ t.mapping, x.2 = true) (hm2 : ∀ x ∈ t.mapped, x.2.1 = true ∧ x.2.2 = true) : Core N d t K S := by
  have p1 : (K ++ counted t).Perm (K ++ counted s) := hp.append_left _
  have p2 : (K ++ counted t ++ s.unlinking ++ s.erased).Perm (K ++ counted s ++ s.unlinking ++ s.erased) :=
    (p1.append_right _).append_right _
  constructor
  · rw [e1, e2]; exact h.zero
  · rw [e3, e4]; exact p2.nodup_iff.2 h.nodup
  · intro l; rw [e2, total_perm _ p1]; exact h.books l
  · intro l; rw [e2, e3, e4, total_perm _ p2]; exact h.cons l
  · rw [e5, e6, e7, e8]; exact h.known
  · intro id hid
    rw [e8]
    refine h.pipe id ?_
    rw [e3] at hid
    rcases List.mem_append.1 hid with hid | hid
    · exact List.mem_append_left _ (hp.subset hid)
    · exact List.mem_append_right _ hid
  · rw [e5, e9, e10]; exact h.asked
  · exact hm1
  · exact hm2
  · rw [e11]; exact h.good

theorem good_map {N : Nat → Nat} {s : State} {i : Nat} (h : Good N s) : Good N (onMap s i) := by
  unfold onMap
  split
  · exact h
  · rename_i x hx
    obtain ⟨K, S, v, c⟩ := h
    refine ⟨K, S, view_congr (s := s) rfl rfl rfl rfl v, ?_⟩
    have hxm := List.mem_of_getElem? hx
    have hpe : (s.mapping.map (·.1)).Perm (x.1 :: (s.mapping.eraseIdx i).map (·.1)) := by
      have := (perm_eraseIdx hx).map (·.1)
      simpa using this
    have hf : x.1 ∈ s.files := c.pipe x.1 (by simp only [counted, List.mem_append]; exact .inl (.inl (List.mem_map_of_mem hxm)))
    refine core_counted c ?_ rfl rfl rfl rfl rfl rfl rfl rfl rfl rfl rfl ?_ ?_
    · simp only [counted, List.map_append, List.map_cons, List.map_nil]
      refine List.Perm.symm ((hpe.append_right _).trans ?_)
      rw [← List.append_assoc]
      exact (List.perm_append_singleton _ _).symm
    · intro y hy; exact c.mapping y (List.mem_of_mem_eraseIdx hy)
    · intro y hy
      rcases List.mem_append.1 hy with hy | hy
      · exact c.mapped y hy
      · have : y = (x.1, x.2, decide (x.1 ∈ s.files)) := by simpa using hy
        subst this
        exact ⟨c.mapping x hxm, by simpa using hf⟩

theorem good_mapped {N : Nat → Nat} {s : State} {i : Nat} (hr : s.running = true) (h : Good N s) : Good N (onMapped s i) := by
  obtain ⟨K, S, v, c⟩ := h
  obtain ⟨rfl, rfl⟩ := v.1 hr
  unfold onMapped
  split
  · exact ⟨_, _, v, c⟩
  · rename_i a b hx
    have := (c.mapped _ (List.mem_of_getElem? hx)).2
    cases this
  · rename_i id adjust hx
    have hxm := List.mem_of_getElem? hx
    have hadj : adjust = true := (c.mapped _ hxm).1
    subst hadj
    have hpe : (s.mapped.map (·.1)).Perm (id :: (s.mapped.eraseIdx i).map (·.1)) := by
      have := (perm_eraseIdx hx).map (·.1)
      simpa using this
    have pc : (counted s).Perm (id :: (s.mapping.map (·.1) ++ (s.mapped.eraseIdx i).map (·.1))) := by
      simp only [counted]
      exact (hpe.append_left _).trans List.perm_middle
    have p1 : (known s ++ counted s).Perm (id :: (known s ++ (s.mapping.map (·.1) ++ (s.mapped.eraseIdx i).map (·.1)))) :=
      (pc.append_left _).trans List.perm_middle
    have p2 : (known s ++ (s.mapping.map (·.1) ++ (s.mapped.eraseIdx i).map (·.1)) ++ (s.unlinking ++ [id]) ++ s.erased).Perm
        (known s ++ counted s ++ s.unlinking ++ s.erased) := by
      refine List.Perm.append_right _ ?_
      refine List.Perm.symm ((p1.append_right s.unlinking).trans ?_)
      have h5 := List.perm_append_singleton id
        (known s ++ (s.mapping.map (·.1) ++ (s.mapped.eraseIdx i).map (·.1)) ++ s.unlinking)
      simpa using h5.symm
    refine ⟨known s, fun l => s.stats l - s.contents id l, ⟨fun _ => ⟨rfl, ?_⟩, fun hf => by
      rw [show s.running = false from hf] at hr; cases hr⟩, ?_⟩
    · funext l; simp [adjusted]
    constructor
    · exact c.zero
    · exact p2.nodup_iff.2 c.nodup
    · intro l
      have h1 := c.books l
      rw [total_perm _ p1, total_cons] at h1
      show s.stats l - s.contents id l = total s.contents (known s ++ (s.mapping.map (·.1) ++ (s.mapped.eraseIdx i).map (·.1))) l + 0
      omega
    · intro l
      rw [c.cons l]
      exact total_perm _ p2.symm l
    · exact c.known
    · intro y hy
      refine c.pipe y ?_
      have hid : id ∈ counted s := pc.symm.subset (by simp)
      have hsub : ∀ z, z ∈ s.mapping.map (·.1) ++ (s.mapped.eraseIdx i).map (·.1) → z ∈ counted s := fun z hz =>
        pc.symm.subset (List.mem_cons_of_mem _ hz)
      have hy' : y ∈ (s.mapping.map (·.1) ++ (s.mapped.eraseIdx i).map (·.1)) ++ (s.unlinking ++ [id]) := hy
      simp only [List.mem_append (s := counted s)]
      rcases List.mem_append.1 hy' with h | h
      · exact .inl (hsub y h)
      · rcases List.mem_append.1 h with h | h
        · exact .inr h
        · have : y = id := by simpa using h
          exact .inl (this ▸ hid)
    · exact c.asked
    · exact c.mapping
    · intro y hy; exact c.mapped y (List.mem_of_mem_eraseIdx hy)
    · exact c.good

theorem good_unlink {N : Nat → Nat} {s : State} {i : Nat} (h : Good N s) : Good N (onUnlink s i true) := by
  obtain ⟨K, S, v, c⟩ := h
  unfold onUnlink
  split
  · exact ⟨_, _, v, c⟩
  · rename_i x hx
    simp only [if_true]
    have hpe := perm_eraseIdx hx
    have hxm := List.mem_of_getElem? hx
    have hsub : (K ++ counted s ++ s.unlinking).Nodup := c.nodup.sublist (List.sublist_append_left _ _)
    have p1 : (K ++ counted s ++ s.unlinking).Perm (x :: (K ++ counted s ++ s.unlinking.eraseIdx i)) :=
      (hpe.append_left _).trans List.perm_middle
    have hx1 := (List.nodup_cons.1 (p1.nodup_iff.1 hsub)).1
    have p2 : (K ++ counted s ++ s.unlinking.eraseIdx i ++ (x :: s.erased)).Perm (K ++ counted s ++ s.unlinking ++ s.erased) := by
      refine List.Perm.symm ((p1.append_right _).trans ?_)
      exact List.perm_middle.symm
    have hne : ∀ y, y ∈ K ++ counted s ++ s.unlinking.eraseIdx i → (y != x) = true := by
      intro y hy
      have : y ≠ x := fun e => hx1 (e ▸ hy)
      simpa using this
    refine ⟨K, S, view_congr (s := s) rfl rfl rfl rfl v, ?_⟩
    constructor
    · exact c.zero
    · exact p2.nodup_iff.2 c.nodup
    · exact c.books
    · intro l
      rw [c.cons l]
      exact total_perm _ p2.symm l
    · intro id hid
      rcases c.known id hid with h | h | h
      · exact .inl h
      · exact .inr (.inl h)
      · exact .inr (.inr (List.mem_filter.2 ⟨h, hne id (by simp [hid])⟩))
    · intro id hid
      have hid' : id ∈ counted s ++ s.unlinking.eraseIdx i := hid
      refine List.mem_filter.2 ⟨c.pipe id ?_, hne id ?_⟩
      · rcases List.mem_append.1 hid' with h | h
        · exact List.mem_append_left _ h
        · exact List.mem_append_right _ (List.mem_of_mem_eraseIdx h)
      · rw [List.append_assoc]; exact List.mem_append_right _ hid'
    · exact c.asked
    · exact c.mapping
    · exact c.mapped
    · exact c.good

theorem good_restart {N : Nat → Nat} {s : State} (hr : s.running = false) (hw : s.writes = []) (hsv : s.saves = [])
    (h1 : s.mapping = []) (h2 : s.mapped = []) (h3 : s.unlinking = []) (h : Good N s) : Good N (restart s) := by
  obtain ⟨K, S, v, c⟩ := h
  obtain ⟨x, hx, rfl, rfl⟩ := v.2 hr
  have hi : s.image = some x := by
    rw [lastImage, hsv, List.append_nil] at hx
    cases hs : s.image with
    | none => simp [hs] at hx
    | some y => simpa [hs] using hx
  have hc : counted s = [] := by simp [counted, h1, h2]
  have hn : x.ids.Nodup := c.nodup.sublist
    ((List.sublist_append_left _ _).trans ((List.sublist_append_left _ _).trans (List.sublist_append_left _ _)))
  have hf : x.ids.filter (fun i => decide (i ∈ s.files)) = x.ids := by
    refine List.filter_eq_self.2 (fun id hid => ?_)
    rcases c.known id hid with h | h | h
    · rw [hr] at h; cases h.1
    · rw [hw] at h; cases h
    · simpa using h
  have hp : (restart s).persisted = x.ids := by
    simp only [restart, hi]
    rw [hf, load_self hn]
  have hst : (restart s).stats = x.stats := by simp only [restart, hi]
  have hk : known (restart s) = x.ids := by
    rw [known, hp]; simp [restart, start]
  refine ⟨x.ids, x.stats, ⟨fun _ => ⟨hk.symm, hst.symm⟩, by simp [restart, start]⟩, ?_⟩
  constructor
  · exact c.zero
  · have := c.nodup
    rw [hc, h3] at this
    simpa [counted, restart, start] using this
  · intro l
    have := c.books l
    rw [hc] at this
    simpa [counted, restart, start] using this
  · intro l
    have := c.cons l
    rw [hc, h3] at this
    simpa [counted, restart, start] using this
  · intro id hid
    rcases c.known id hid with h | h | h
    · rw [hr] at h; cases h.1
    · rw [hw] at h; cases h
    · exact .inr (.inr h)
  · simp [counted, restart, start]
  · simp [restart, start]
  · simp [restart, start]
  · simp [restart, start]
  · exact c.good

theorem ingested_cons (e : Ev) (es : List Ev) (l : Nat) : ingested (e :: es) l = ingested [e] l + ingested es l := by
  simp [ingested]

theorem ingested_append (a b : List Ev) (l : Nat) : ingested (a ++ b) l = ingested a l + ingested b l := by
  simp [ingested]

theorem good_congr {N M : Nat → Nat} {s : State} (e : ∀ l, N l = M l) (h : Good N s) : Good M s := by
  have : N = M := funext e
  rw [← this]; exact h

theorem good_step {N : Nat → Nat} {s : State} (e : Ev) (f : Fresh s) (hh : Held s) (o : OnDisk s) (he : Regular s e)
    (h : Good N s) : Good (fun l => N l + ingested [e] l) (step s e) := by
  cases e with
  | slice l n r i =>
    have hc : s.running = true ∧ i ∉ s.used := he
    simp only [step, hc, not_false_eq_true, and_self, if_true]
    refine good_congr ?_ (good_slice (l := l) (n := n) (r := r) f hc.1 hc.2 h)
    intro k
    simp only [ingested, List.map_cons, List.map_nil, List.sum_cons, List.sum_nil]
    by_cases e : k = l
    · subst e; simp
    · simp [e, Ne.symm e]
  | exit =>
    refine good_congr (N := N) (fun k => by simp [ingested]) ?_
    simp only [step]
    split
    · exact good_exit (by assumption) h
    · exact h
  | ack i =>
    refine good_congr (N := N) (fun k => by simp [ingested]) ?_
    simp only [step]
    split
    · exact good_ack (by assumption) hh h
    · exact h
  | erase i =>
    refine good_congr (N := N) (fun k => by simp [ingested]) ?_
    have hc : s.running = true ∧ i ∈ s.persisted ∧ i ∉ s.asked.map (·.1) := he
    simp only [step, hc.1, if_true]
    exact good_erase hc.2.1 hc.2.2 h
  | metaErased i =>
    refine good_congr (N := N) (fun k => by simp [ingested]) ?_
    simp only [step]
    split
    · exact good_metaErased (by assumption) o h
    · exact h
  | map i => exact good_congr (N := N) (fun k => by simp [ingested]) (good_map h)
  | mapped i =>
    refine good_congr (N := N) (fun k => by simp [ingested]) ?_
    simp only [step]
    split
    · exact good_mapped (by assumption) h
    · exact h
  | write i ok =>
    have hc : ok = true := he
    subst hc
    exact good_congr (N := N) (fun k => by simp [ingested]) (good_write h)
  | save ok =>
    have hc : ok = true := he
    subst hc
    exact good_congr (N := N) (fun k => by simp [ingested]) (good_save h)
  | unlink i ok =>
    have hc : ok = true := he
    subst hc
    exact good_congr (N := N) (fun k => by simp [ingested]) (good_unlink h)
  | restart =>
    obtain ⟨h1, h2, h3, h4, h5, h6⟩ : s.running = false ∧ s.writes = [] ∧ s.saves = [] ∧ s.mapping = [] ∧ s.mapped = [] ∧
      s.unlinking = [] := he
    exact good_congr (N := N) (fun k => by simp [ingested]) (good_restart h1 h2 h3 h4 h5 h6 h)

theorem good_run {N : Nat → Nat} {s : State} (es : List Ev) (f : Fresh s) (d : Disk s) (hh : Held s) (o : OnDisk s)
    (he : RegularRun s es) (h : Good N s) : Good (fun l => N l + ingested es l) (run s es) ∧ OnDisk (run s es) := by
  induction es generalizing s N with
  | nil => exact ⟨good_congr (fun l => by simp [ingested]) h, o⟩
  | cons e es ih =>
    have hc : ∀ id, e = .erase id → id ∈ s.persisted := by
      intro id e'; subst e'; exact he.1.2.1
    have := ih (fresh_step e f) (disk_step e f d) (held_step e f d hh) (onDisk_step e f d hh hc o) he.2
      (good_step e f hh o he.1 h)
    exact ⟨good_congr (fun l => by rw [ingested_cons e es l]; omega) this.1, this.2⟩

end Verif.Recovery
