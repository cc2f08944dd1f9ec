import Verif.Blocking.Lemmas
/-! # What is known of the slices of the client, and how long it waits -/
namespace Verif.Blocking

/-- What holds after the index has got the subscription, if all slices of the client were there. -/
structure Own (s : State) : Prop where
  left : ∀ x ∈ s.slices, x.own = true → x.left = true
  sub : s.sub ≠ .idle ∧ s.sub ≠ .importer ∧ s.sub ≠ .index
  mail : ∀ p, s.sub = .mail p ∨ s.sub = .listening p → ∀ x ∈ s.slices, x.own = true → x.handled = true ∧ x.part ≤ p
  flushed : s.sub = .flushed → ∀ x ∈ s.slices, x.own = true → x.part + 1 = s.parts → x.pos = .indexed

theorem own_set {s : State} (hi : Inv s) (h : Own s) {i : Nat} {x y : Slice} (hx : s.slices[i]? = some x) (parts : Nat) (act : Option Nat)
    (room : Nat) (hp : s.parts ≤ parts) (ho : y.own = x.own)
    (hy : x.own = true → y.left = true ∧ y.part = x.part ∧ (x.handled = true → y.handled = true) ∧ (x.pos = .indexed → y.pos = .indexed)) :
    Own { s with slices := s.slices.set i y, active := act, room := room, parts := parts } where
  left z hz hown := by
    rcases mem_set hz with rfl | hz
    · exact (hy (ho ▸ hown)).1
    · exact h.left z hz hown
  sub := h.sub
  mail p hm z hz hown := by
    rcases mem_set hz with rfl | hz
    · have hox : x.own = true := ho ▸ hown
      have h1 := h.mail p hm x (mem_of_getElem? hx) hox
      have h2 := hy hox
      exact ⟨h2.2.2.1 h1.1, h2.2.1 ▸ h1.2⟩
    · exact h.mail p hm z hz hown
  flushed hf z hz hown hpart := by
    have aux : ∀ w ∈ s.slices, w.own = true → w.part + 1 = parts → w.part + 1 = s.parts := by
      intro w hw hwo hwp
      have := (hi.slices w hw).2.2 (h.left w hw hwo)
      omega
    rcases mem_set hz with rfl | hz
    · have hox : x.own = true := ho ▸ hown
      have h2 := hy hox
      have hm := mem_of_getElem? hx
      have hpart' : z.part + 1 = parts := hpart
      rw [h2.2.1] at hpart'
      exact h2.2.2.2 (h.flushed hf x hm hox (aux x hm hox hpart'))
    · exact h.flushed hf z hz hown (aux z hz hown hpart)

theorem own_checkIndex {s : State} (hok : ∀ x ∈ s.slices, SliceOk s.parts x) (hn : s.active = none → s.parts = 0)
    (hs : ∀ p, s.active = some p → p + 1 = s.parts) (h : Own s) : Own s.checkIndex := by
  unfold State.checkIndex
  split
  · rename_i hc
    have clean : ∀ x ∈ s.slices, x.own = true → x.handled = true := by
      intro x hx ho
      have := List.all_eq_true.mp hc.2 x hx
      rw [h.left x hx ho] at this
      exact (hok x hx).1 (by simpa using this)
    refine ⟨h.left, ?_, ?_, ?_⟩
    · show _ ∧ _ ∧ _
      simp only
      split <;> exact ⟨(fun h => by cases h), (fun h => by cases h), (fun h => by cases h)⟩
    · intro p hm x hx ho
      refine ⟨clean x hx ho, ?_⟩
      have hlt := (hok x hx).2.2 (h.left x hx ho)
      simp only at hm
      split at hm
      · rename_i q hq
        have := hs q hq
        rcases hm with hm | hm
        · injection hm with hm; subst hm; omega
        · cases hm
      · rcases hm with hm | hm <;> cases hm
    · intro hf x hx ho _
      simp only at hf
      split at hf
      · cases hf
      · rename_i hnone
        have := hn hnone
        have hlt := (hok x hx).2.2 (h.left x hx ho)
        omega
  · exact h

theorem own_checkPart {s : State} (q : Nat) (hok : ∀ x ∈ s.slices, SliceOk s.parts x) (hq : s.sub = .listening q → q < s.parts)
    (h : Own s) : Own (s.checkPart q) := by
  unfold State.checkPart
  split
  · rename_i hc
    refine ⟨h.left, ⟨(fun h => by cases h), (fun h => by cases h), (fun h => by cases h)⟩, ?_, ?_⟩
    · intro p hm
      rcases hm with hm | hm <;> cases hm
    · intro _ x hx ho hp
      have hp' : x.part + 1 = s.parts := hp
      have h1 := h.mail q (.inr hc.1) x hx ho
      have h2 := hq hc.1
      have he : x.part = q := by omega
      have := List.all_eq_true.mp hc.2 x hx
      rw [h1.1, he] at this
      exact (hok x hx).2.1 (by simpa using this)
  · exact h

theorem own_toPartition {cap : Nat} {s : State} (hi : Inv s) (h : Own s) {i : Nat} {x : Slice} (hx : s.slices[i]? = some x)
    {n : Nat} (hp : x.pos = .hop n) : Own (s.toPartition cap i x) := by
  have hno : x.own = true → False := by
    intro ho
    have := h.left x (mem_of_getElem? hx) ho
    unfold Slice.left at this
    rw [hp] at this
    cases this
  unfold State.toPartition
  split
  · split
    · exact own_set hi h hx _ _ _ (by omega) rfl (fun ho => (hno ho).elim)
    · exact own_set hi h hx s.parts s.active _ (by omega) rfl (fun ho => (hno ho).elim)
  · exact own_set hi h hx _ _ _ (by omega) rfl (fun ho => (hno ho).elim)

theorem own_step {cap : Nat} {s : State} (hi : Inv s) (h : Own s) (e : Event) : Own (step cap s e) := by
  cases e with
  | push own rows =>
    unfold step
    simp only
    split
    · exact h
    · rename_i hc
      have hof : own = false := by
        cases own
        · rfl
        · exact absurd ⟨rfl, h.sub.1⟩ hc
      subst hof
      have aux : ∀ x : Slice, x ∈ s.slices ++ [{ own := false, rows := rows }] → x.own = true → x ∈ s.slices := by
        intro x hx ho
        rcases List.mem_append.mp hx with hx | hx
        · exact hx
        · rw [List.mem_singleton] at hx
          subst hx
          cases ho
      exact ⟨fun x hx ho => h.left x (aux x hx ho) ho, h.sub, fun p hm x hx ho => h.mail p hm x (aux x hx ho) ho,
        fun hf x hx ho => h.flushed hf x (aux x hx ho) ho⟩
  | move i =>
    unfold step
    simp only
    split
    · rename_i x hx
      unfold State.move
      split
      · rename_i n hp
        split
        · refine own_set hi h hx s.parts s.active s.room (Nat.le_refl _) rfl ?_
          intro ho
          have := h.left x (mem_of_getElem? hx) ho
          unfold Slice.left at this
          rw [hp] at this
          cases this
        · exact own_toPartition hi h hx hp
      · rename_i hp
        refine own_set hi h hx s.parts s.active s.room (Nat.le_refl _) rfl ?_
        intro ho
        refine ⟨rfl, rfl, fun _ => rfl, ?_⟩
        intro h'; rw [hp] at h'; cases h'
      · exact own_set hi h hx s.parts s.active s.room (Nat.le_refl _) rfl (fun ho => ⟨rfl, rfl, fun _ => rfl, fun _ => rfl⟩)
      · exact h
    · exact h
  | store i =>
    unfold step
    simp only
    split
    · rename_i x hx
      split
      · exact own_set hi h hx s.parts s.active s.room (Nat.le_refl _) rfl
          (fun ho => ⟨h.left x (mem_of_getElem? hx) ho, rfl, fun h => h, fun h => h⟩)
      · exact h
    · exact h
  | ackIndex i =>
    unfold step
    simp only
    split
    · rename_i x hx
      split
      · rename_i hh
        have hok := hi.slices x (mem_of_getElem? hx)
        refine own_checkIndex ?_ hi.none hi.some (own_set hi h hx s.parts s.active s.room (Nat.le_refl _) rfl
          (fun ho => ⟨h.left x (mem_of_getElem? hx) ho, rfl, fun h => h, fun h => h⟩))
        intro z hz
        rcases mem_set hz with rfl | hz
        · exact ⟨fun _ => hh, hok.2.1, hok.2.2⟩
        · exact hi.slices z hz
      · exact h
    · exact h
  | ackPart i =>
    unfold step
    simp only
    split
    · rename_i x hx
      split
      · rename_i hh
        have hok := hi.slices x (mem_of_getElem? hx)
        refine own_checkPart _ ?_ (fun hl => (hi.listening _ hl).1) (own_set hi h hx s.parts s.active s.room (Nat.le_refl _) rfl
          (fun ho => ⟨h.left x (mem_of_getElem? hx) ho, rfl, fun h => h, fun h => h⟩))
        intro z hz
        rcases mem_set hz with rfl | hz
        · exact ⟨hok.1, fun _ => hh, hok.2.2⟩
        · exact hi.slices z hz
      · exact h
    · exact h
  | ended =>
    unfold step
    simp only [if_neg h.sub.1]
    exact h
  | forward =>
    unfold step
    simp only [if_neg h.sub.2.1]
    exact h
  | subscribe =>
    unfold step
    simp only [if_neg h.sub.2.2]
    exact h
  | listen =>
    unfold step
    simp only
    split
    · rename_i p hm
      refine own_checkPart p hi.slices (fun _ => hi.mail p hm) ?_
      refine ⟨h.left, ⟨(fun h => by cases h), (fun h => by cases h), (fun h => by cases h)⟩, ?_, (fun h => by cases h)⟩
      intro q hq
      have : q = p := by
        rcases hq with hq | hq
        · cases hq
        · injection hq with hq; exact hq.symm
      subst this
      exact h.mail q (.inl hm)
    · exact h

theorem own_runFrom {cap : Nat} {s : State} (hi : Inv s) (h : Own s) (es : List Event) : Own (runFrom cap s es) := by
  induction es generalizing s with
  | nil => exact h
  | cons e es ih => exact ih (inv_step hi e) (own_step hi h e)

/-- The index gets the subscription. -/
theorem own_subscribe {cap : Nat} {s : State} (hi : Inv s) (hs : s.sub = .index) (hl : ∀ x ∈ s.slices, x.own = true → x.left = true) :
    Own (step cap s .subscribe) := by
  unfold step
  simp only [if_pos hs]
  refine own_checkIndex hi.slices hi.none hi.some ⟨hl, ⟨(fun h => by cases h), (fun h => by cases h), (fun h => by cases h)⟩, ?_, (fun h => by cases h)⟩
  intro p hm
  rcases hm with hm | hm <;> cases hm

/-! ### The end -/

/-- What is left to do for a slice. -/
def Slice.work (x : Slice) : Nat :=
  (match x.pos with
    | .hop n => 7 - min n 3
    | .partition => 2
    | .indexers => 1
    | .indexed => 0) + (if x.ackIndex then 0 else 1) + (if x.ackPart then 0 else 1) + (if x.stored then 0 else 1)

/-- What is left to do for the subscription. -/
def Sub.work : Sub → Nat
  | .idle => 6
  | .importer => 5
  | .index => 4
  | .waiting => 3
  | .mail _ => 2
  | .listening _ => 1
  | .flushed => 0

/-- What is left to do. -/
def State.work (s : State) : Nat := (s.slices.map Slice.work).sum + s.sub.work

theorem work_set {l : List Slice} {i : Nat} {x y : Slice} (hx : l[i]? = some x) :
    ((l.set i y).map Slice.work).sum + x.work = (l.map Slice.work).sum + y.work := by
  induction l generalizing i with
  | nil => simp at hx
  | cons a l ih =>
    cases i with
    | zero =>
      simp only [List.getElem?_cons_zero, Option.some.injEq] at hx
      subst hx
      simp only [List.set_cons_zero, List.map_cons, List.sum_cons]
      omega
    | succ i =>
      have := ih (i := i) (by simpa using hx)
      simp only [List.set_cons_succ, List.map_cons, List.sum_cons]
      omega

theorem checkIndex_work (s : State) : s.checkIndex.work ≤ s.work := by
  unfold State.checkIndex
  split
  · rename_i hc
    unfold State.work
    simp only
    rw [hc.1]
    split <;> simp [Sub.work]
  · exact Nat.le_refl _

theorem checkPart_work (s : State) (p : Nat) : (s.checkPart p).work ≤ s.work := by
  unfold State.checkPart
  split
  · rename_i hc
    unfold State.work
    simp only
    rw [hc.1]
    simp [Sub.work]
  · exact Nat.le_refl _

theorem checkIndex_of_ne {s : State} (h : s.sub ≠ .waiting) : s.checkIndex = s := by
  unfold State.checkIndex
  rw [if_neg (fun hc => h hc.1)]

/-- Is it an event of a source? -/
def Event.isPush : Event → Bool
  | .push _ _ => true
  | _ => false

theorem work_move {cap : Nat} {s : State} {i : Nat} {x : Slice} (hx : s.slices[i]? = some x) :
    s.move cap i x = s ∨ (s.move cap i x).work < s.work := by
  have aux : ∀ y : Slice, y.work < x.work → ∀ (act : Option Nat) (room parts : Nat),
      ({ s with slices := s.slices.set i y, active := act, room := room, parts := parts } : State).work < s.work := by
    intro y hy act room parts
    have := work_set (y := y) hx
    unfold State.work
    simp only
    omega
  unfold State.move
  split
  · rename_i n hp
    right
    split
    · refine aux _ ?_ s.active s.room s.parts
      unfold Slice.work
      rw [hp]
      simp only
      omega
    · have hw : ∀ part, ({ x with pos := .partition, part := part } : Slice).work < x.work := by
        intro part
        unfold Slice.work
        rw [hp]
        simp only
        omega
      unfold State.toPartition
      split
      · split
        · exact aux _ (hw _) _ _ _
        · exact aux _ (hw _) s.active _ s.parts
      · exact aux _ (hw _) _ _ _
  · rename_i hp
    right
    refine aux _ ?_ s.active s.room s.parts
    unfold Slice.work
    rw [hp]
    simp only
    omega
  · rename_i hp
    right
    refine aux _ ?_ s.active s.room s.parts
    unfold Slice.work
    rw [hp]
    simp only
    omega
  · exact .inl rfl

theorem set_same {s : State} {i : Nat} {x : Slice} (hx : s.slices[i]? = some x) : { s with slices := s.slices.set i x } = s := by
  have : s.slices.set i x = s.slices := by
    apply List.ext_getElem?
    intro j
    by_cases hij : i = j
    · subst hij
      rw [List.getElem?_set_self (List.getElem?_eq_some_iff.mp hx).1, hx]
    · rw [List.getElem?_set_ne hij]
  rw [this]

theorem checkIndex_inv {s : State} (h : Inv s) : s.checkIndex = s := by
  unfold State.checkIndex
  rw [if_neg]
  intro hc
  have := h.waiting hc.1
  rw [hc.2] at this
  cases this

theorem checkPart_inv {s : State} (h : Inv s) (p : Nat) : s.checkPart p = s := by
  unfold State.checkPart
  rw [if_neg]
  intro hc
  have := (h.listening p hc.1).2
  rw [hc.2] at this
  cases this

/-- Every event but those of the sources has no effect, or there is less to do afterwards. -/
theorem work_step {cap : Nat} {s : State} (h : Inv s) (e : Event) (he : e.isPush = false) :
    step cap s e = s ∨ (step cap s e).work < s.work := by
  cases e with
  | push own rows => cases he
  | move i =>
    unfold step
    simp only
    split
    · rename_i x hx
      exact work_move hx
    · exact .inl rfl
  | store i =>
    unfold step
    simp only
    split
    · rename_i x hx
      split
      · cases hs : x.stored
        · right
          have := work_set (y := { x with stored := true }) hx
          have hw : ({ x with stored := true } : Slice).work < x.work := by
            unfold Slice.work
            simp [hs]
          unfold State.work
          simp only
          omega
        · left
          rw [show ({ x with stored := true } : Slice) = x by rw [← hs]]
          exact set_same hx
      · exact .inl rfl
    · exact .inl rfl
  | ackIndex i =>
    unfold step
    simp only
    split
    · rename_i x hx
      split
      · cases hs : x.ackIndex
        · right
          have := work_set (y := { x with ackIndex := true }) hx
          have hw : ({ x with ackIndex := true } : Slice).work < x.work := by
            unfold Slice.work
            simp [hs]
          refine Nat.lt_of_le_of_lt (checkIndex_work _) ?_
          unfold State.work
          simp only
          omega
        · left
          rw [show ({ x with ackIndex := true } : Slice) = x by rw [← hs], set_same hx]
          exact checkIndex_inv h
      · exact .inl rfl
    · exact .inl rfl
  | ackPart i =>
    unfold step
    simp only
    split
    · rename_i x hx
      split
      · cases hs : x.ackPart
        · right
          have := work_set (y := { x with ackPart := true }) hx
          have hw : ({ x with ackPart := true } : Slice).work < x.work := by
            unfold Slice.work
            simp [hs]
          refine Nat.lt_of_le_of_lt (checkPart_work _ _) ?_
          unfold State.work
          simp only
          omega
        · left
          rw [show ({ x with ackPart := true } : Slice) = x by rw [← hs], set_same hx]
          exact checkPart_inv h _
      · exact .inl rfl
    · exact .inl rfl
  | ended =>
    unfold step
    simp only
    split
    · rename_i hs
      right
      unfold State.work
      rw [hs]
      simp [Sub.work]
    · exact .inl rfl
  | forward =>
    unfold step
    simp only
    split
    · rename_i hs
      right
      unfold State.work
      rw [hs]
      simp [Sub.work]
    · exact .inl rfl
  | subscribe =>
    unfold step
    simp only
    split
    · rename_i hs
      right
      refine Nat.lt_of_le_of_lt (checkIndex_work _) ?_
      unfold State.work
      rw [hs]
      simp [Sub.work]
    · exact .inl rfl
  | listen =>
    unfold step
    simp only
    split
    · rename_i p hs
      right
      refine Nat.lt_of_le_of_lt (checkPart_work _ _) ?_
      unfold State.work
      rw [hs]
      simp [Sub.work]
    · exact .inl rfl

/-- If nothing can happen but new slices, then the client has its answer. -/
theorem stuck {cap : Nat} {s : State} (h : Inv s) (hs : ∀ e : Event, e.isPush = false → step cap s e = s) : s.sub = .flushed := by
  have hind : ∀ x ∈ s.slices, x.pos = .indexed := by
    intro x hx
    obtain ⟨i, hi⟩ := List.mem_iff_getElem?.mp hx
    have h1 := hs (.move i) rfl
    simp only [step, hi] at h1
    cases hp : x.pos with
    | indexed => rfl
    | _ =>
      have : (s.move cap i x).work < s.work := by
        rcases work_move (cap := cap) hi with h2 | h2
        · exfalso
          have h3 : (s.move cap i x).slices[i]? = some x := by rw [h2, hi]
          have hlt := (List.getElem?_eq_some_iff.mp hi).1
          unfold State.move at h3
          rw [hp] at h3
          simp only at h3
          try (split at h3)
          all_goals try unfold State.toPartition at h3
          all_goals try (split at h3)
          all_goals try (split at h3)
          all_goals
            rw [List.getElem?_set_self hlt, Option.some.injEq] at h3
            have h4 := congrArg Slice.pos h3
            rw [hp] at h4
            simp at h4
        · exact h2
      rw [h1] at this
      omega
  have hack : ∀ x ∈ s.slices, x.ackIndex = true ∧ x.ackPart = true := by
    intro x hx
    obtain ⟨i, hi⟩ := List.mem_iff_getElem?.mp hx
    have hp := hind x hx
    have hh : x.handled = true := by unfold Slice.handled; rw [hp]; rfl
    have hlt := (List.getElem?_eq_some_iff.mp hi).1
    constructor
    · have h1 := hs (.ackIndex i) rfl
      simp only [step, hi, if_pos hh] at h1
      have h2 : ∀ t : State, t.checkIndex.slices = t.slices := by
        intro t; unfold State.checkIndex; split <;> rfl
      have h3 := congrArg State.slices h1
      rw [h2] at h3
      have h4 := congrArg (·[i]?) h3
      simp only [List.getElem?_set_self hlt, hi, Option.some.injEq] at h4
      rw [← h4]
    · have h1 := hs (.ackPart i) rfl
      simp only [step, hi, if_pos hp] at h1
      have h2 : ∀ (t : State) p, (t.checkPart p).slices = t.slices := by
        intro t p; unfold State.checkPart; split <;> rfl
      have h3 := congrArg State.slices h1
      rw [h2] at h3
      have h4 := congrArg (·[i]?) h3
      simp only [List.getElem?_set_self hlt, hi, Option.some.injEq] at h4
      rw [← h4]
  have move : ∀ e : Event, e.isPush = false → (step cap s e).work < s.work → False := by
    intro e he hw
    rw [hs e he] at hw
    omega
  cases hsub : s.sub with
  | flushed => rfl
  | idle =>
    have := congrArg State.sub (hs .ended rfl)
    simp [step, hsub] at this
  | importer =>
    have := congrArg State.sub (hs .forward rfl)
    simp [step, hsub] at this
  | index =>
    exfalso
    refine move .subscribe rfl ?_
    unfold step
    simp only [if_pos hsub]
    refine Nat.lt_of_le_of_lt (checkIndex_work _) ?_
    unfold State.work
    rw [hsub]
    simp [Sub.work]
  | waiting =>
    exfalso
    have := h.waiting hsub
    unfold State.indexClean at this
    rw [all_false_iff] at this
    obtain ⟨x, hx, hf⟩ := this
    rw [(hack x hx).1] at hf
    simp at hf
  | mail p =>
    exfalso
    refine move .listen rfl ?_
    unfold step
    simp only [hsub]
    refine Nat.lt_of_le_of_lt (checkPart_work _ _) ?_
    unfold State.work
    rw [hsub]
    simp [Sub.work]
  | listening p =>
    exfalso
    have := (h.listening p hsub).2
    unfold State.partClean at this
    rw [all_false_iff] at this
    obtain ⟨x, hx, hf⟩ := this
    rw [(hack x hx).2] at hf
    simp at hf

end Verif.Blocking
