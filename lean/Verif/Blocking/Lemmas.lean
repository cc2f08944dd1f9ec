import Verif.Blocking.Model
/-! # Lemmas about blocking imports -/
namespace Verif.Blocking

/-- What holds for every slice. -/
def SliceOk (parts : Nat) (x : Slice) : Prop :=
  (x.ackIndex = true → x.handled = true) ∧ (x.ackPart = true → x.pos = .indexed) ∧ (x.left = true → x.part < parts)

/-- What holds all the time. -/
structure Inv (s : State) : Prop where
  slices : ∀ x ∈ s.slices, SliceOk s.parts x
  none : s.active = none → s.parts = 0
  some : ∀ p, s.active = some p → p + 1 = s.parts
  waiting : s.sub = .waiting → s.indexClean = false
  mail : ∀ p, s.sub = .mail p → p < s.parts
  listening : ∀ p, s.sub = .listening p → p < s.parts ∧ s.partClean p = false

theorem mem_set {α : Type} {l : List α} {i : Nat} {y z : α} (h : z ∈ l.set i y) : z = y ∨ z ∈ l :=
  (List.mem_or_eq_of_mem_set h).symm

theorem all_false_iff {α : Type} (l : List α) (f : α → Bool) : l.all f = false ↔ ∃ x ∈ l, f x = false := by
  simp [List.all_eq_false]

theorem handled_left {x : Slice} (h : x.handled = true) : x.left = true := by
  unfold Slice.handled at h
  unfold Slice.left
  rcases of_decide_eq_true h with h | h <;> rw [h]

theorem sliceOk_mono {m n : Nat} (h : m ≤ n) {x : Slice} (hx : SliceOk m x) : SliceOk n x :=
  ⟨hx.1, hx.2.1, fun hl => Nat.lt_of_lt_of_le (hx.2.2 hl) h⟩

/-- A change of a slice that does not make the index clean. -/
theorem indexClean_set {s : State} {i : Nat} {x y : Slice} (hx : s.slices[i]? = some x)
    (hxy : (!x.left || x.ackIndex) = false → (!y.left || y.ackIndex) = false) (h : s.indexClean = false) :
    (s.slices.set i y).all (fun x => !x.left || x.ackIndex) = false := by
  unfold State.indexClean at h
  rw [all_false_iff] at h ⊢
  obtain ⟨z, hz, hf⟩ := h
  obtain ⟨j, hj⟩ := List.mem_iff_getElem?.mp hz
  by_cases hji : i = j
  · subst hji
    rw [hx] at hj
    cases hj
    refine ⟨y, ?_, hxy hf⟩
    exact List.mem_iff_getElem?.mpr ⟨i, by rw [List.getElem?_set_self (by exact (List.getElem?_eq_some_iff.mp hx).1)]⟩
  · refine ⟨z, ?_, hf⟩
    exact List.mem_iff_getElem?.mpr ⟨j, by rw [List.getElem?_set_ne hji, hj]⟩

/-- The same for a partition. -/
theorem partClean_set {s : State} {p i : Nat} {x y : Slice} (hx : s.slices[i]? = some x)
    (hxy : (!(x.handled && x.part == p) || x.ackPart) = false → (!(y.handled && y.part == p) || y.ackPart) = false)
    (h : s.partClean p = false) : (s.slices.set i y).all (fun x => !(x.handled && x.part == p) || x.ackPart) = false := by
  unfold State.partClean at h
  rw [all_false_iff] at h ⊢
  obtain ⟨z, hz, hf⟩ := h
  obtain ⟨j, hj⟩ := List.mem_iff_getElem?.mp hz
  by_cases hji : i = j
  · subst hji
    rw [hx] at hj
    cases hj
    refine ⟨y, ?_, hxy hf⟩
    exact List.mem_iff_getElem?.mpr ⟨i, by rw [List.getElem?_set_self (by exact (List.getElem?_eq_some_iff.mp hx).1)]⟩
  · refine ⟨z, ?_, hf⟩
    exact List.mem_iff_getElem?.mpr ⟨j, by rw [List.getElem?_set_ne hji, hj]⟩

/-- A slice changes, and nothing becomes clean by that; the number of partitions may grow. -/
theorem inv_set {s : State} (h : Inv s) {i : Nat} {x y : Slice} (hx : s.slices[i]? = some x) (parts : Nat) (act : Option Nat) (room : Nat)
    (hp : s.parts ≤ parts) (hn : act = none → parts = 0) (hs : ∀ p, act = some p → p + 1 = parts) (hy : SliceOk parts y)
    (h1 : (!x.left || x.ackIndex) = false → (!y.left || y.ackIndex) = false)
    (h2 : ∀ p, p < s.parts → (!(x.handled && x.part == p) || x.ackPart) = false → (!(y.handled && y.part == p) || y.ackPart) = false) :
    Inv { s with slices := s.slices.set i y, active := act, room := room, parts := parts } where
  slices z hz := by
    rcases mem_set hz with rfl | hz
    · exact hy
    · exact sliceOk_mono hp (h.slices z hz)
  none := hn
  some := hs
  waiting hw := indexClean_set hx h1 (h.waiting hw)
  mail p hm := Nat.lt_of_lt_of_le (h.mail p hm) hp
  listening p hl := ⟨Nat.lt_of_lt_of_le (h.listening p hl).1 hp, partClean_set hx (h2 p (h.listening p hl).1) (h.listening p hl).2⟩

theorem mem_of_getElem? {α : Type} {l : List α} {i : Nat} {x : α} (h : l[i]? = some x) : x ∈ l := List.mem_iff_getElem?.mpr ⟨i, h⟩

theorem inv_checkIndex {s : State} (h1 : ∀ x ∈ s.slices, SliceOk s.parts x) (h2 : s.active = none → s.parts = 0)
    (h3 : ∀ p, s.active = some p → p + 1 = s.parts) (h4 : ∀ p, s.sub = .mail p → p < s.parts)
    (h5 : ∀ p, s.sub = .listening p → p < s.parts ∧ s.partClean p = false) : Inv s.checkIndex := by
  unfold State.checkIndex
  split
  · rename_i hc
    refine ⟨h1, h2, h3, ?_, ?_, ?_⟩
    · intro hw
      simp only at hw
      split at hw <;> cases hw
    · intro p hm
      simp only at hm
      split at hm
      · rename_i q hq
        have := h3 q hq
        injection hm with hm
        subst hm
        show q < s.parts
        omega
      · cases hm
    · intro p hl
      simp only at hl
      split at hl <;> cases hl
  · rename_i hc
    refine ⟨h1, h2, h3, ?_, h4, h5⟩
    intro hw
    cases hcl : s.indexClean
    · rfl
    · exact absurd ⟨hw, hcl⟩ hc

theorem inv_checkPart {s : State} (q : Nat) (h1 : ∀ x ∈ s.slices, SliceOk s.parts x) (h2 : s.active = none → s.parts = 0)
    (h3 : ∀ p, s.active = some p → p + 1 = s.parts) (h4 : s.sub = .waiting → s.indexClean = false) (h5 : ∀ p, s.sub = .mail p → p < s.parts)
    (h6 : ∀ p, s.sub = .listening p → p < s.parts ∧ (p ≠ q → s.partClean p = false)) : Inv (s.checkPart q) := by
  unfold State.checkPart
  split
  · exact ⟨h1, h2, h3, (fun h => by cases h), (fun p h => by cases h), (fun p h => by cases h)⟩
  · rename_i hc
    refine ⟨h1, h2, h3, h4, h5, ?_⟩
    intro p hl
    refine ⟨(h6 p hl).1, ?_⟩
    by_cases hpq : p = q
    · subst hpq
      cases hcl : s.partClean p
      · rfl
      · exact absurd ⟨hl, hcl⟩ hc
    · exact (h6 p hl).2 hpq

theorem inv_toPartition {cap : Nat} {s : State} (h : Inv s) {i : Nat} {x : Slice} (hx : s.slices[i]? = some x) {n : Nat} (hp : x.pos = .hop n) :
    Inv (s.toPartition cap i x) := by
  have hok := h.slices x (mem_of_getElem? hx)
  have hl : x.left = false := by unfold Slice.left; rw [hp]
  have hh : x.handled = false := by unfold Slice.handled; rw [hp]; rfl
  have ha : x.ackIndex = false := by
    cases ha : x.ackIndex
    · rfl
    · rw [hok.1 ha] at hh; cases hh
  have hb : x.ackPart = false := by
    cases hb : x.ackPart
    · rfl
    · rw [hok.2.1 hb] at hp; cases hp
  have key : ∀ (part parts : Nat) (act : Option Nat) (room : Nat), s.parts ≤ parts → part < parts → (act = none → parts = 0) →
      (∀ p, act = some p → p + 1 = parts) →
      Inv { s with slices := s.slices.set i { x with pos := .partition, part := part }, active := act, room := room, parts := parts } := by
    intro part parts act room h1 h2 h3 h4
    refine inv_set h hx parts act room h1 h3 h4 ?_ ?_ ?_
    · refine ⟨?_, ?_, fun _ => h2⟩
      · intro h'; rw [show x.ackIndex = true from h'] at ha; cases ha
      · intro h'; rw [show x.ackPart = true from h'] at hb; cases hb
    · intro h'; rw [hl] at h'; simp at h'
    · intro p _ h'; rw [hh] at h'; simp at h'
  unfold State.toPartition
  split
  · rename_i p hact
    have := h.some p hact
    split
    · exact key s.parts (s.parts + 1) (.some s.parts) _ (by omega) (by omega) (by simp) (by simp)
    · exact key p s.parts s.active _ (by omega) (by omega) h.none h.some
  · exact key s.parts (s.parts + 1) (.some s.parts) _ (by omega) (by omega) (by simp) (by simp)

theorem inv_move {cap : Nat} {s : State} (h : Inv s) {i : Nat} {x : Slice} (hx : s.slices[i]? = some x) : Inv (s.move cap i x) := by
  have hok := h.slices x (mem_of_getElem? hx)
  unfold State.move
  split
  · rename_i n hp
    split
    · have hl : x.left = false := by unfold Slice.left; rw [hp]
      have hh : x.handled = false := by unfold Slice.handled; rw [hp]; rfl
      refine inv_set h hx s.parts s.active s.room (Nat.le_refl _) h.none h.some ?_ ?_ ?_
      · refine ⟨?_, ?_, ?_⟩
        · intro h'; have := hok.1 h'; rw [hh] at this; cases this
        · intro h'; have := hok.2.1 h'; rw [hp] at this; cases this
        · intro h'; cases h'
      · intro h'; rw [hl] at h'; simp at h'
      · intro p _ h'; rw [hh] at h'; simp at h'
    · exact inv_toPartition h hx hp
  · rename_i hp
    have hl : x.left = true := by unfold Slice.left; rw [hp]
    have hh : x.handled = false := by unfold Slice.handled; rw [hp]; rfl
    refine inv_set h hx s.parts s.active s.room (Nat.le_refl _) h.none h.some ?_ ?_ ?_
    · refine ⟨fun _ => rfl, ?_, fun _ => hok.2.2 hl⟩
      intro h'; have := hok.2.1 h'; rw [hp] at this; cases this
    · intro h'; rw [hl] at h'; exact h'
    · intro p _ h'; rw [hh] at h'; simp at h'
  · rename_i hp
    have hl : x.left = true := by unfold Slice.left; rw [hp]
    have hh : x.handled = true := by unfold Slice.handled; rw [hp]; rfl
    refine inv_set h hx s.parts s.active s.room (Nat.le_refl _) h.none h.some ?_ ?_ ?_
    · exact ⟨fun _ => rfl, fun _ => rfl, fun _ => hok.2.2 hl⟩
    · intro h'; rw [hl] at h'; exact h'
    · intro p _ h'; rw [hh] at h'; exact h'
  · exact h

theorem inv_step {cap : Nat} {s : State} (h : Inv s) (e : Event) : Inv (step cap s e) := by
  cases e with
  | push own rows =>
    unfold step
    simp only
    split
    · exact h
    · refine ⟨?_, h.none, h.some, ?_, h.mail, ?_⟩
      · intro x hx
        rcases List.mem_append.mp hx with hx | hx
        · exact h.slices x hx
        · rw [List.mem_singleton] at hx
          subst hx
          exact ⟨(fun h => by cases h), (fun h => by cases h), (fun h => by cases h)⟩
      · intro hw
        have := h.waiting hw
        unfold State.indexClean at this ⊢
        simp only [List.all_append, this, Bool.false_and]
      · intro p hl
        have := h.listening p hl
        refine ⟨this.1, ?_⟩
        have := this.2
        unfold State.partClean at this ⊢
        simp only [List.all_append, this, Bool.false_and]
  | move i =>
    unfold step
    simp only
    split
    · rename_i x hx
      exact inv_move h hx
    · exact h
  | store i =>
    unfold step
    simp only
    split
    · rename_i x hx
      split
      · exact inv_set h hx s.parts s.active s.room (Nat.le_refl _) h.none h.some (h.slices x (mem_of_getElem? hx)) (fun h => h) (fun _ _ h => h)
      · exact h
    · exact h
  | ackIndex i =>
    unfold step
    simp only
    split
    · rename_i x hx
      split
      · rename_i hh
        have hok := h.slices x (mem_of_getElem? hx)
        apply inv_checkIndex
        · intro z hz
          rcases mem_set hz with rfl | hz
          · exact ⟨fun _ => hh, hok.2.1, hok.2.2⟩
          · exact h.slices z hz
        · exact h.none
        · exact h.some
        · exact h.mail
        · intro p hl
          have := h.listening p hl
          exact ⟨this.1, partClean_set hx (fun h => h) this.2⟩
      · exact h
    · exact h
  | ackPart i =>
    unfold step
    simp only
    split
    · rename_i x hx
      split
      · rename_i hh
        have hok := h.slices x (mem_of_getElem? hx)
        apply inv_checkPart
        · intro z hz
          rcases mem_set hz with rfl | hz
          · exact ⟨hok.1, fun _ => hh, hok.2.2⟩
          · exact h.slices z hz
        · exact h.none
        · exact h.some
        · intro hw
          exact indexClean_set hx (fun h => h) (h.waiting hw)
        · exact h.mail
        · intro p hl
          have := h.listening p hl
          refine ⟨this.1, fun hne => partClean_set hx ?_ this.2⟩
          intro h'
          have : (x.part == p) = false := by simp; exact fun h => hne h.symm
          rw [this] at h'
          simp at h'
      · exact h
    · exact h
  | ended =>
    unfold step
    simp only
    split
    · exact ⟨h.slices, h.none, h.some, (fun h => by cases h), (fun _ h => by cases h), (fun _ h => by cases h)⟩
    · exact h
  | forward =>
    unfold step
    simp only
    split
    · exact ⟨h.slices, h.none, h.some, (fun h => by cases h), (fun _ h => by cases h), (fun _ h => by cases h)⟩
    · exact h
  | subscribe =>
    unfold step
    simp only
    split
    · exact inv_checkIndex h.slices h.none h.some (fun _ h => by cases h) (fun _ h => by cases h)
    · exact h
  | listen =>
    unfold step
    simp only
    split
    · rename_i p hm
      refine inv_checkPart p h.slices h.none h.some (fun h => by cases h) (fun _ h => by cases h) ?_
      intro q hq
      injection hq with hq
      subst hq
      exact ⟨h.mail _ hm, fun h => absurd rfl h⟩
    · exact h

theorem inv_init : Inv {} :=
  ⟨(fun _ h => by cases h), (fun _ => rfl), (fun _ h => by cases h), (fun h => by cases h), (fun _ h => by cases h), (fun _ h => by cases h)⟩

theorem inv_runFrom {cap : Nat} {s : State} (h : Inv s) (es : List Event) : Inv (runFrom cap s es) := by
  induction es generalizing s with
  | nil => exact h
  | cons e es ih => exact ih (inv_step h e)

theorem inv_run (cap : Nat) (es : List Event) : Inv (run cap es) := inv_runFrom inv_init es

theorem runFrom_append (cap : Nat) (s : State) (xs ys : List Event) : runFrom cap s (xs ++ ys) = runFrom cap (runFrom cap s xs) ys :=
  List.foldl_append

theorem run_append (cap : Nat) (xs ys : List Event) : run cap (xs ++ ys) = runFrom cap (run cap xs) ys := runFrom_append ..

end Verif.Blocking
