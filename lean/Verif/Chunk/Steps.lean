import Verif.Chunk.Lemmas
/-!
Every operation keeps the invariant.
-/
namespace Verif.Chunk
open Spec

theorem getElem?_snoc {α : Type} {l : List α} {a b : α} {i : Nat} (h : (l ++ [a])[i]? = some b) :
    l[i]? = some b ∨ (i = l.length ∧ b = a) := by
  rw [List.getElem?_append] at h
  split at h
  · exact .inl h
  · rename_i hi
    cases hk : i - l.length with
    | zero =>
      rw [hk] at h
      simp only [List.getElem?_cons_zero, Option.some.injEq] at h
      exact .inr ⟨by omega, h.symm⟩
    | succ k => rw [hk] at h; simp at h

theorem getElem?_left {α : Type} {l m : List α} {i : Nat} {a : α} (h : l[i]? = some a) : (l ++ m)[i]? = some a := by
  rw [List.getElem?_append_left (List.getElem?_eq_some_iff.mp h).1, h]

/-- A new chunk with a new handle, and maybe one more reference to the chunk that it is a slice of. -/
theorem inv_new {ops : List Op} {s : State} {op : Op} {os : List Obj} {y : Obj} {c : List Nat} {bs : Bytes} (hi : Inv ops s)
    (hop : ∀ h, op ≠ .drop h)
    (hw : world (ops ++ [op]) = ⟨(world ops).handles ++ [(s.objs.length :: c, bs)], (world ops).steps ++ [[]]⟩)
    (hf : os.map Obj.frame = s.objs.map Obj.frame)
    (hy : y.rc = 1) (hys : y.steps = [])
    (hup : ∀ p, y.parent = some p → p < s.objs.length)
    (hold : ∀ (o : Nat) (x : Obj), os[o]? = some x → ∃ x', s.objs[o]? = some x' ∧ x.steps = x'.steps ∧ (x.rc = 0 ↔ x'.rc = 0) ∧ x.acts o = x'.acts o ∧
      x.rc = x'.rc + if y.parent = some o then 1 else 0)
    (hlive : ∀ o, os.countP (liveChild o) = s.objs.countP (liveChild o))
    (hc : Chain (os.map Obj.frame ++ [y.frame]) (s.objs.length :: c))
    (hs : Shows (os.map Obj.frame ++ [y.frame]) y.frame bs) :
    Inv (ops ++ [op]) { s with objs := os ++ [y], handles := s.handles ++ [some s.objs.length] } := by
  have hlen : os.length = s.objs.length := by simpa using congrArg List.length hf
  have hdrop : ∀ h, Op.drop h ∈ ops ++ [op] ↔ Op.drop h ∈ ops := by
    intro h
    rw [List.mem_append, List.mem_singleton]
    exact ⟨fun h' => h'.elim id fun h' => absurd h'.symm (hop h), .inl⟩
  obtain ⟨f1, f2, f3⟩ := inv_fresh hi
  refine ⟨?_, ?_, ?_, ?_, ?_, ?_, ?_, ?_, ?_, hi.alone, ?_, ?_⟩
  · rw [hw]; simp [hlen, hi.count]
  · rw [hw]; simp [hi.handles]
  · intro h hh
    have := hi.dropped h ((hdrop h).mp hh)
    simp; omega
  · intro h c' bs' hh
    rw [hw] at hh
    simp only [List.map_append, List.map_cons, List.map_nil]
    rcases getElem?_snoc hh with hh | ⟨hl, hh⟩
    · obtain ⟨o, t, f, e1, e2, e3, e4, e5⟩ := hi.view h c' bs' hh
      rw [← hf] at e2 e3 e4
      refine ⟨o, t, f, e1, getElem?_left e2, chain_append _ e3, shows_append _ e4, ?_⟩
      simp only [hdrop]
      exact getElem?_left e5
    · cases hh
      subst hl
      refine ⟨s.objs.length, c, y.frame, rfl, ?_, hc, hs, ?_⟩
      · rw [List.getElem?_append_right (by simp [hlen])]; simp [hlen]
      · rw [if_neg, ← hi.handles]
        · simp
        · rw [hdrop]
          intro hd
          have := hi.dropped _ hd
          rw [hi.handles] at this
          omega
  · intro o x hx
    simp only [count_snoc, List.countP_append, List.countP_singleton]
    rcases getElem?_snoc hx with hx | ⟨rfl, rfl⟩
    · obtain ⟨x', h1, _, _, _, h2⟩ := hold o x hx
      have hr := hi.refs o x' h1
      have hl := (List.getElem?_eq_some_iff.mp h1).1
      rw [if_neg (show ¬ s.objs.length = o by omega), hlive, h2, hr]
      have : liveChild o y = decide (y.parent = some o) := by simp [liveChild, hy]
      rw [this]
      simp only [decide_eq_true_eq]
      omega
    · rw [hlen, if_pos rfl, hlive, f1, f2, f3, hy]
      have : liveChild s.objs.length x = false := by
        simp only [liveChild, Bool.and_eq_false_iff, decide_eq_false_iff_not]
        refine .inr fun hp => ?_
        have := hup _ hp
        omega
      simp [this]
  · intro o x p hx hp
    rcases getElem?_snoc hx with hx | ⟨rfl, rfl⟩
    · obtain ⟨x', h1, _⟩ := hold o x hx
      have hfr : x.frame = x'.frame := by
        have a : (os.map Obj.frame)[o]? = some x.frame := by rw [List.getElem?_map, hx]; rfl
        rw [hf, List.getElem?_map, h1] at a
        exact (Option.some.inj a).symm
      exact hi.up o x' p h1 (by have : x.parent = x'.parent := congrArg Frame.parent hfr; rw [← this]; exact hp)
    · rw [hlen]; exact hup p hp
  · intro b o h
    have := hi.target b o h
    simp [hlen]; omega
  · intro o x hx
    rcases getElem?_snoc hx with hx | ⟨rfl, rfl⟩
    · obtain ⟨x', h1, h2, h3, h4, _⟩ := hold o x hx
      simp only [h3, h4]
      exact hi.done o x' h1
    · have := hi.late os.length (by omega)
      simp [this.1, this.2, hy]
  · intro o ho
    simp [hlen] at ho
    exact hi.late o (by omega)
  · intro o x hx
    rw [hw]
    rcases getElem?_snoc hx with hx | ⟨rfl, rfl⟩
    · obtain ⟨x', h1, h2, _⟩ := hold o x hx
      rw [h2]
      exact getElem?_left (hi.steps o x' h1)
    · rw [List.getElem?_append_right (by simp [hlen, hi.count])]; simp [hlen, hi.count, hys]
  · intro o x hx
    rw [hw]
    rcases getElem?_snoc hx with hx | ⟨rfl, rfl⟩
    · obtain ⟨x', h1, _⟩ := hold o x hx
      obtain ⟨h, c', bs', h2⟩ := hi.known o x' h1
      exact ⟨h, c', bs', getElem?_left h2⟩
    · exact ⟨(world ops).handles.length, c, bs, by simp [hlen]⟩

theorem inv_make {ops : List Op} {s s' : State} {bs : Bytes} (hi : Inv ops s) (h : step s (.make bs) = some s') : Inv (ops ++ [.make bs]) s' := by
  cases h
  refine inv_new (c := []) (bs := bs) hi (fun _ h => by cases h) ?_ rfl rfl rfl (fun p hp => by cases hp) ?_ (fun _ => rfl) ?_ ?_
  · rw [world_snoc, World.next, hi.count]
  · intro o x hx
    exact ⟨x, hx, rfl, .rfl, rfl, by simp⟩
  · exact .root _ (Obj.frame ⟨s.objs.length, 0, bs.length, none, 1, [], bs⟩) (by rw [List.getElem?_append_right (by simp)]; simp) rfl rfl
  · exact ⟨rfl, Obj.frame ⟨s.objs.length, 0, bs.length, none, 1, [], bs⟩, by simp only [Obj.frame]; rw [List.getElem?_append_right (by simp)]; simp, rfl, by simp [Obj.frame]⟩

theorem acts_same {o : Nat} {x y : Obj} (h1 : x.parent = y.parent) (h2 : x.steps = y.steps) : x.acts o = y.acts o := by
  rw [Obj.acts, Obj.acts, h1, h2]

theorem chain_root {fs : List Frame} {c : List Nat} (h : Chain fs c) : ∀ o t f, c = o :: t → fs[o]? = some f → f.root ∈ c := by
  induction h with
  | root o f h1 h2 h3 =>
    intro o' t f' he hf
    cases he
    rw [h1] at hf
    cases hf
    simp [h3]
  | slice o p c f g h1 h2 h3 h4 _ ih =>
    intro o' t f' he hf
    cases he
    rw [h1] at hf
    cases hf
    rw [h4]
    exact List.mem_cons_of_mem _ (ih p c g rfl h3)

theorem inv_slice {ops : List Op} {s s' : State} {h start length : Nat} (hi : Inv ops s) (hs : step s (.slice h start length) = some s') :
    Inv (ops ++ [.slice h start length]) s' := by
  rw [step] at hs
  split at hs
  · cases hs
  · rename_i o x hh
    split at hs
    · rename_i hst
      cases hs
      obtain ⟨hd, t, bs, h1, h2, h3, h4⟩ := inv_held hi hh
      have hx := (held_some hh).2
      have hol := (List.getElem?_eq_some_iff.mp hx).1
      have hf : (s.objs.set o { x with rc := x.rc + 1 }).map Obj.frame = s.objs.map Obj.frame := frames_set hx rfl
      refine inv_new (c := o :: t) (bs := (bs.drop start).take length) hi (fun _ h => by cases h) ?_ hf rfl rfl
        (fun p hp => by cases hp; exact hol) ?_ (fun q => countP_set_same _ hx ?_) ?_ ?_
      · rw [world_snoc, World.next, h1, hi.count]
      · intro q z hz
        rcases get_set hx hz with ⟨rfl, rfl⟩ | ⟨hne, hz⟩
        · exact ⟨x, hx, rfl, by simp; omega, acts_same rfl rfl, by simp⟩
        · exact ⟨z, hz, rfl, .rfl, rfl, by simp [Ne.symm hne]⟩
      · simp [liveChild, h4]
      · rw [hf]
        refine .slice _ _ _ (Obj.frame ⟨x.root, x.off + start, if x.len - start < length then x.len - start else length, some o, 1, [], []⟩) x.frame (by rw [List.getElem?_append_right (by simp)]; simp) rfl ?_ rfl (chain_append _ h2)
        exact getElem?_left (by rw [List.getElem?_map, hx]; rfl)
      · rw [hf]
        obtain ⟨a, r, b, c, d⟩ := h3
        simp only [Obj.frame] at a b d
        have hlen : (r.bytes.drop x.off).length ≥ x.len := by
          have := congrArg List.length d
          rw [List.length_take] at this
          omega
        refine ⟨?_, r, getElem?_left b, c, ?_⟩
        · simp only [Obj.frame, List.length_take, List.length_drop]
          split <;> omega
        · simp only [Obj.frame]
          rw [← d, List.drop_take, List.drop_drop, List.take_take]
          congr 1
          split <;> omega
    · cases hs

/-- Operations that do not change handles and chunks of the specification. -/
theorem inv_copy {ops : List Op} {s s' : State} {h : Nat} (hi : Inv ops s) (hs : step s (.copy h) = some s') : Inv (ops ++ [.copy h]) s' := by
  rw [step] at hs
  split at hs
  · cases hs
  · rename_i o x hh
    cases hs
    obtain ⟨hd, t, bs, h1, h2, h3, h4⟩ := inv_held hi hh
    have hx := (held_some hh).2
    have hf : (s.objs.set o { x with rc := x.rc + 1 }).map Obj.frame = s.objs.map Obj.frame := frames_set hx rfl
    have hw : world (ops ++ [.copy h]) = ⟨(world ops).handles ++ [(o :: t, bs)], (world ops).steps⟩ := by
      rw [world_snoc, World.next, h1]
    have hdrop : ∀ h', Op.drop h' ∈ ops ++ [.copy h] ↔ Op.drop h' ∈ ops := by simp
    have hlive : ∀ q, (s.objs.set o { x with rc := x.rc + 1 }).countP (liveChild q) = s.objs.countP (liveChild q) :=
      fun q => countP_set_same _ hx (by simp [liveChild, h4])
    refine ⟨?_, ?_, ?_, ?_, ?_, ?_, ?_, ?_, ?_, hi.alone, ?_, ?_⟩
    · rw [hw]; simpa using hi.count
    · rw [hw]; simp [hi.handles]
    · intro h' hh'
      have := hi.dropped h' ((hdrop h').mp hh')
      simp; omega
    · intro h' c' bs' hh'
      rw [hw] at hh'
      simp only [hf, hdrop]
      rcases getElem?_snoc hh' with hh' | ⟨hl, hh'⟩
      · obtain ⟨o, t, f, e1, e2, e3, e4, e5⟩ := hi.view h' c' bs' hh'
        exact ⟨o, t, f, e1, e2, e3, e4, getElem?_left e5⟩
      · cases hh'
        subst hl
        refine ⟨o, t, x.frame, rfl, by rw [List.getElem?_map, hx]; rfl, h2, h3, ?_⟩
        rw [if_neg, ← hi.handles]
        · simp
        · intro hd
          have := hi.dropped _ hd
          rw [hi.handles] at this
          omega
    · intro q z hz
      simp only [count_snoc, hlive]
      rcases get_set hx hz with ⟨rfl, rfl⟩ | ⟨hne, hz⟩
      · have := hi.refs q x hx
        simp only [if_true]; omega
      · have := hi.refs q z hz
        rw [if_neg (Ne.symm hne)]; omega
    · intro q z p hz hp
      rcases get_set hx hz with ⟨rfl, rfl⟩ | ⟨hne, hz⟩
      · exact hi.up q x p hx hp
      · exact hi.up q z p hz hp
    · intro b q hq
      have := hi.target b q hq
      simpa using this
    · intro q z hz
      rcases get_set hx hz with ⟨rfl, rfl⟩ | ⟨hne, hz⟩
      · have := hi.done q x hx
        rw [if_neg (by omega)] at this
        simpa using this
      · exact hi.done q z hz
    · intro q hq
      exact hi.late q (by simpa using hq)
    · intro q z hz
      rw [hw]
      rcases get_set hx hz with ⟨rfl, rfl⟩ | ⟨hne, hz⟩
      · exact hi.steps q x hx
      · exact hi.steps q z hz
    · intro q z hz
      rw [hw]
      have : ∃ z', s.objs[q]? = some z' := by
        rcases get_set hx hz with ⟨rfl, rfl⟩ | ⟨hne, hz⟩
        · exact ⟨x, hx⟩
        · exact ⟨z, hz⟩
      obtain ⟨z', hz'⟩ := this
      obtain ⟨h', c', bs', e⟩ := hi.known q z' hz'
      exact ⟨h', c', bs', getElem?_left e⟩

theorem inv_addStep {ops : List Op} {s s' : State} {h k : Nat} (hi : Inv ops s) (hs : step s (.addStep h k) = some s') :
    Inv (ops ++ [.addStep h k]) s' := by
  rw [step] at hs
  split at hs
  · cases hs
  · rename_i o x hh
    cases hs
    obtain ⟨hd, t, bs, h1, h2, h3, h4⟩ := inv_held hi hh
    have hx := (held_some hh).2
    have hf : (s.objs.set o { x with steps := x.steps ++ [k] }).map Obj.frame = s.objs.map Obj.frame := frames_set hx rfl
    have hw : world (ops ++ [.addStep h k]) = ⟨(world ops).handles, (world ops).steps.modify o (· ++ [k])⟩ := by
      rw [world_snoc, World.next, h1]
    have hdrop : ∀ h', Op.drop h' ∈ ops ++ [.addStep h k] ↔ Op.drop h' ∈ ops := by simp
    have hlive : ∀ q, (s.objs.set o { x with steps := x.steps ++ [k] }).countP (liveChild q) = s.objs.countP (liveChild q) :=
      fun q => countP_set_same _ hx (by simp [liveChild])
    refine ⟨?_, ?_, ?_, ?_, ?_, ?_, ?_, ?_, ?_, hi.alone, ?_, ?_⟩
    · rw [hw]; simpa using hi.count
    · rw [hw]; simp [hi.handles]
    · intro h' hh'
      exact hi.dropped h' ((hdrop h').mp hh')
    · intro h' c' bs' hh'
      rw [hw] at hh'
      simp only [hf, hdrop]
      exact hi.view h' c' bs' hh'
    · intro q z hz
      simp only [hlive]
      rcases get_set hx hz with ⟨rfl, rfl⟩ | ⟨hne, hz⟩
      · exact hi.refs q x hx
      · exact hi.refs q z hz
    · intro q z p hz hp
      rcases get_set hx hz with ⟨rfl, rfl⟩ | ⟨hne, hz⟩
      · exact hi.up q x p hx hp
      · exact hi.up q z p hz hp
    · intro b q hq
      have := hi.target b q hq
      simpa using this
    · intro q z hz
      rcases get_set hx hz with ⟨rfl, rfl⟩ | ⟨hne, hz⟩
      · have := hi.done q x hx
        rw [if_neg (by omega)] at this
        rw [if_neg (by simp; omega)]
        exact this
      · exact hi.done q z hz
    · intro q hq
      exact hi.late q (by simpa using hq)
    · intro q z hz
      rw [hw]
      simp only [List.getElem?_modify]
      rcases get_set hx hz with ⟨rfl, rfl⟩ | ⟨hne, hz⟩
      · rw [hi.steps q x hx]; simp
      · rw [hi.steps q z hz]; simp [Ne.symm hne]
    · intro q z hz
      rw [hw]
      have : ∃ z', s.objs[q]? = some z' := by
        rcases get_set hx hz with ⟨rfl, rfl⟩ | ⟨hne, hz⟩
        · exact ⟨x, hx⟩
        · exact ⟨z, hz⟩
      obtain ⟨z', hz'⟩ := this
      exact hi.known q z' hz'

theorem inv_drop {ops : List Op} {s s' : State} {h : Nat} (hi : Inv ops s) (hs : step s (.drop h) = some s') : Inv (ops ++ [.drop h]) s' := by
  rw [step] at hs
  split at hs
  · cases hs
  · rename_i o x hh
    cases hs
    obtain ⟨hd, t, bs, h1, h2, h3, h4⟩ := inv_held hi hh
    obtain ⟨hho, hx⟩ := held_some hh
    have hhl := (List.getElem?_eq_some_iff.mp hho).1
    have hw : world (ops ++ [.drop h]) = world ops := by rw [world_snoc, World.next]
    have hfl : (s.tasks ++ [[Act.deref none o]]).flatten = s.tasks.flatten ++ [Act.deref none o] := by simp
    have hown : ∀ q, owned q [Act.deref none o] = [] := by intro q; simp [owned, owner]
    refine ⟨?_, ?_, ?_, ?_, ?_, hi.up, ?_, ?_, ?_, ?_, ?_, ?_⟩
    · rw [hw]; exact hi.count
    · rw [hw]; simp [hi.handles]
    · intro h' hh'
      rcases List.mem_append.mp hh' with hh' | hh'
      · simpa using hi.dropped h' hh'
      · cases List.mem_singleton.mp hh'
        simpa using hhl
    · intro h' c' bs' hh'
      rw [hw] at hh'
      obtain ⟨o', t', f, e1, e2, e3, e4, e5⟩ := hi.view h' c' bs' hh'
      refine ⟨o', t', f, e1, e2, e3, e4, ?_⟩
      by_cases hhh : h = h'
      · subst hhh
        simp [hhl]
      · rw [List.getElem?_set_ne hhh, e5]
        congr 2
        simp [Ne.symm hhh]
    · intro q z hz
      rw [hfl, List.countP_append, List.countP_singleton]
      have hr := hi.refs q z hz
      have hc : (s.handles.set h none).count (some q) + (if o = q then 1 else 0) = s.handles.count (some q) := by
        obtain ⟨_, hg⟩ := List.getElem?_eq_some_iff.mp hho
        rw [List.count_set hhl, hg]
        by_cases hoq : o = q
        · subst hoq
          have : 0 < s.handles.count (some o) := List.count_pos_iff.mpr (List.mem_of_getElem? hho)
          simp; omega
        · simp [hoq]
      simp only [isDeref, decide_eq_true_eq]
      omega
    · intro b q hq
      rw [hfl] at hq
      rcases List.mem_append.mp hq with hq | hq
      · exact hi.target b q hq
      · cases List.mem_singleton.mp hq
        exact (List.getElem?_eq_some_iff.mp hx).1
    · intro q z hz
      rw [hfl, owned_append, hown, List.append_nil]
      exact hi.done q z hz
    · intro q hq
      rw [hfl, owned_append, hown, List.append_nil]
      exact hi.late q hq
    · intro q i u j v hu hv hou hov
      rcases getElem?_snoc hu with hu | ⟨_, rfl⟩
      · rcases getElem?_snoc hv with hv | ⟨_, rfl⟩
        · exact hi.alone q i u j v hu hv hou hov
        · exact absurd (hown q) hov
      · exact absurd (hown q) hou
    · rw [hw]; exact hi.steps
    · rw [hw]; exact hi.known

theorem owned_acts (q o : Nat) (x : Obj) : owned q (x.acts o) = if o = q then x.acts o else [] := by
  have h : ∀ a ∈ x.acts o, owner a = some o := by
    intro a ha
    rw [Obj.acts] at ha
    rcases List.mem_cons.mp ha with rfl | ha
    · split <;> rfl
    · obtain ⟨k, _, rfl⟩ := List.mem_map.mp ha
      rfl
  split
  · rename_i hq
    subst hq
    rw [owned, List.filter_eq_self]
    intro a ha
    simp [h a ha]
  · rename_i hq
    rw [owned, List.filter_eq_nil_iff]
    intro a ha
    simp [h a ha, hq]

theorem deref_acts (q o : Nat) (x : Obj) : (x.acts o).countP (isDeref q) = if x.parent = some q then 1 else 0 := by
  have h : (x.steps.map (Act.step o)).countP (isDeref q) = 0 := by
    rw [List.countP_eq_zero]
    intro a ha
    obtain ⟨k, _, rfl⟩ := List.mem_map.mp ha
    simp [isDeref]
  rw [Obj.acts, List.countP_cons, h]
  split
  · rename_i p hp
    simp [hp, isDeref]
  · rename_i hp
    simp [hp, isDeref]

/-- What the threads do, apart from the numbers of references. -/
theorem run_done {s : State} {i o : Nat} {a : Act} {as new : List Act} {E : List Act}
    (alone : ∀ (i : Nat) (t : List Act) (j : Nat) (u : List Act), s.tasks[i]? = some t → s.tasks[j]? = some u → owned o t ≠ [] → owned o u ≠ [] → i = j)
    (ht : s.tasks[i]? = some (a :: as)) (hd : owned o s.log ++ owned o s.tasks.flatten = E) (hn : owned o new = []) :
    owned o (s.log ++ [a]) ++ owned o (s.tasks.set i (new ++ as)).flatten = E := by
  by_cases ha : owner a = some o
  · have h1 : owned o (a :: as) = a :: owned o as := by simp [owned, ha]
    have hlt := (List.getElem?_eq_some_iff.mp ht).1
    have hothers : ∀ (j : Nat) (u : List Act), s.tasks[j]? = some u → j ≠ i → owned o u = [] := by
      intro j u hu hj
      by_cases hc : owned o u = []
      · exact hc
      · exact absurd (alone i _ j u ht hu (by rw [h1]; simp) hc).symm hj
    have h2 : owned o s.tasks.flatten = owned o (a :: as) := flatten_alone _ _ _ _ ht hothers
    have h3 : owned o (s.tasks.set i (new ++ as)).flatten = owned o (new ++ as) := by
      refine flatten_alone _ _ i _ (by simp [hlt]) fun j u hu hj => ?_
      rw [List.getElem?_set_ne (Ne.symm hj)] at hu
      exact hothers j u hu hj
    rw [h3, owned_append, owned_append, hn, ← hd, h2, h1]
    simp [owned, ha]
  · have h1 : owned o (a :: as) = owned o as := by simp [owned, ha]
    have h2 : owned o (s.tasks.set i (new ++ as)).flatten = owned o s.tasks.flatten := by
      refine flatten_filter _ _ _ _ _ ht ?_
      show owned o (new ++ as) = owned o (a :: as)
      rw [owned_append, hn, h1, List.nil_append]
    rw [h2, owned_append, ← hd]
    simp [owned, ha]

theorem run_alone {s : State} {i o : Nat} {a : Act} {as new : List Act}
    (alone : ∀ (i : Nat) (t : List Act) (j : Nat) (u : List Act), s.tasks[i]? = some t → s.tasks[j]? = some u → owned o t ≠ [] → owned o u ≠ [] → i = j)
    (ht : s.tasks[i]? = some (a :: as)) (hn : owned o new = []) :
    ∀ (i' : Nat) (t : List Act) (j : Nat) (u : List Act), (s.tasks.set i (new ++ as))[i']? = some t → (s.tasks.set i (new ++ as))[j]? = some u →
      owned o t ≠ [] → owned o u ≠ [] → i' = j := by
  have hlt := (List.getElem?_eq_some_iff.mp ht).1
  have key : ∀ (j : Nat) (u : List Act), (s.tasks.set i (new ++ as))[j]? = some u → owned o u ≠ [] → ∃ u', s.tasks[j]? = some u' ∧ owned o u' ≠ [] := by
    intro j u hu hou
    by_cases hj : i = j
    · subst hj
      rw [List.getElem?_set_self hlt] at hu
      cases hu
      refine ⟨_, ht, ?_⟩
      rw [owned_append, hn, List.nil_append] at hou
      rw [owned, List.filter_cons]
      split
      · simp
      · exact hou
    · rw [List.getElem?_set_ne hj] at hu
      exact ⟨u, hu, hou⟩
  intro i' t j u h1 h2 h3 h4
  obtain ⟨t', a1, a2⟩ := key i' t h1 h3
  obtain ⟨u', b1, b2⟩ := key j u h2 h4
  exact alone i' t' j u' a1 b1 a2 b2

theorem mem_flatten_set {s : State} {i : Nat} {a : Act} {as new : List Act} (ht : s.tasks[i]? = some (a :: as)) {b : Act}
    (h : b ∈ (s.tasks.set i (new ++ as)).flatten) : b ∈ new ∨ b ∈ s.tasks.flatten := by
  obtain ⟨t, h1, h2⟩ := List.mem_flatten.mp h
  rcases List.mem_or_eq_of_mem_set h1 with h1 | rfl
  · exact .inr (List.mem_flatten.mpr ⟨t, h1, h2⟩)
  · rcases List.mem_append.mp h2 with h2 | h2
    · exact .inl h2
    · exact .inr (List.mem_flatten.mpr ⟨_, List.mem_of_getElem? ht, List.mem_cons_of_mem _ h2⟩)

/-- A thread frees memory or runs a step. -/
theorem inv_plain {ops : List Op} {s : State} {i : Nat} {a : Act} {as : List Act} (hi : Inv ops s) (ht : s.tasks[i]? = some (a :: as))
    (ha : ∀ q, isDeref q a = false) : Inv (ops ++ [.run i]) { s with tasks := s.tasks.set i as, log := s.log ++ [a] } := by
  have hw : world (ops ++ [.run i]) = world ops := by rw [world_snoc, World.next]
  have hdrop : ∀ h, Op.drop h ∈ ops ++ [.run i] ↔ Op.drop h ∈ ops := by simp
  refine ⟨?_, ?_, ?_, ?_, ?_, hi.up, ?_, ?_, ?_, ?_, ?_, ?_⟩
  · rw [hw]; exact hi.count
  · rw [hw]; exact hi.handles
  · intro h hh; exact hi.dropped h ((hdrop h).mp hh)
  · rw [hw]; simp only [hdrop]; exact hi.view
  · intro q z hz
    have h1 := hi.refs q z hz
    have h2 := flatten_count (isDeref q) s.tasks i _ as ht
    rw [List.countP_cons, ha q] at h2
    simp only [Bool.false_eq_true, if_false] at h2
    show z.rc = s.handles.count (some q) + s.objs.countP (liveChild q) + (s.tasks.set i as).flatten.countP (isDeref q)
    omega
  · intro b q hq
    rcases mem_flatten_set (new := []) ht hq with h | h
    · cases h
    · exact hi.target b q h
  · intro q z hz
    exact run_done (new := []) (hi.alone q) ht (hi.done q z hz) rfl
  · intro q hq
    have h1 := hi.late q hq
    have h2 := run_done (new := []) (E := []) (hi.alone q) ht (by rw [h1.1, h1.2]; rfl) rfl
    exact List.append_eq_nil_iff.mp h2
  · intro q
    exact run_alone (new := []) (hi.alone q) ht rfl
  · rw [hw]; exact hi.steps
  · rw [hw]; exact hi.known

theorem inv_deref {ops : List Op} {s : State} {i o : Nat} {b : Option Nat} {as : List Act} {x : Obj} (hi : Inv ops s)
    (ht : s.tasks[i]? = some (.deref b o :: as)) (hx : s.objs[o]? = some x) :
    Inv (ops ++ [.run i]) { s with
      objs := s.objs.set o { x with rc := x.rc - 1 }
      tasks := s.tasks.set i ((if x.rc = 1 then x.acts o else []) ++ as)
      log := s.log ++ [.deref b o] } := by
  have hw : world (ops ++ [.run i]) = world ops := by rw [world_snoc, World.next]
  have hdrop : ∀ h, Op.drop h ∈ ops ++ [.run i] ↔ Op.drop h ∈ ops := by simp
  have hf : (s.objs.set o { x with rc := x.rc - 1 }).map Obj.frame = s.objs.map Obj.frame := frames_set hx rfl
  have hol := (List.getElem?_eq_some_iff.mp hx).1
  have hmem : Act.deref b o ∈ s.tasks.flatten := List.mem_flatten.mpr ⟨_, List.mem_of_getElem? ht, by simp⟩
  have hpos : 0 < x.rc := by
    rw [hi.refs o x hx]
    have : 0 < s.tasks.flatten.countP (isDeref o) := List.countP_pos_iff.mpr ⟨_, hmem, by simp [isDeref]⟩
    omega
  have hempty : owned o s.log = [] ∧ owned o s.tasks.flatten = [] := by
    have := hi.done o x hx
    rw [if_neg (by omega)] at this
    exact List.append_eq_nil_iff.mp this
  have hnew : ∀ q, q ≠ o → owned q (if x.rc = 1 then x.acts o else []) = [] := by
    intro q hq
    split
    · rw [owned_acts, if_neg (Ne.symm hq)]
    · rfl
  have hnone : ∀ (j : Nat) (u : List Act), s.tasks[j]? = some u → owned o u = [] := by
    intro j u hu
    have h1 := hempty.2
    rw [owned, List.filter_flatten, List.flatten_eq_nil_iff] at h1
    exact h1 _ (List.mem_map.mpr ⟨u, List.mem_of_getElem? hu, rfl⟩)
  refine ⟨?_, ?_, ?_, ?_, ?_, ?_, ?_, ?_, ?_, ?_, ?_, ?_⟩
  · rw [hw]; simpa using hi.count
  · rw [hw]; exact hi.handles
  · intro h hh; exact hi.dropped h ((hdrop h).mp hh)
  · rw [hw]; simp only [hdrop, hf]; exact hi.view
  · intro q z hz
    have h2 := flatten_count (isDeref q) s.tasks i _ ((if x.rc = 1 then x.acts o else []) ++ as) ht
    rw [List.countP_cons, List.countP_append] at h2
    have h3 : isDeref q (.deref b o) = decide (o = q) := rfl
    rw [h3] at h2
    simp only [decide_eq_true_eq] at h2
    have h4 : (s.objs.set o { x with rc := x.rc - 1 }).countP (liveChild q) + (if x.rc = 1 then x.acts o else []).countP (isDeref q) =
        s.objs.countP (liveChild q) := by
      by_cases h1 : x.rc = 1
      · rw [if_pos h1, deref_acts]
        obtain ⟨_, hg⟩ := List.getElem?_eq_some_iff.mp hx
        rw [List.countP_set hol, hg]
        by_cases hp : x.parent = some q
        · have hl : liveChild q x = true := by simp [liveChild, hp, h1]
          have hl' : liveChild q { x with rc := x.rc - 1 } = false := by simp [liveChild, h1]
          have : 0 < s.objs.countP (liveChild q) := List.countP_pos_iff.mpr ⟨x, List.mem_of_getElem? hx, hl⟩
          rw [hl, hl', if_pos hp]
          simp only [if_true, Bool.false_eq_true, if_false]
          omega
        · have hl : liveChild q x = false := by simp [liveChild, hp]
          have hl' : liveChild q { x with rc := x.rc - 1 } = false := by simp [liveChild, hp]
          rw [hl, hl', if_neg hp]
          simp only [Bool.false_eq_true, if_false]
          omega
      · rw [if_neg h1, countP_set_same _ hx]
        · simp
        · simp only [liveChild]
          congr 1
          simp only [decide_eq_decide]
          omega
    rcases get_set hx hz with ⟨rfl, rfl⟩ | ⟨hne, hz⟩
    · have h1 := hi.refs q x hx
      simp only [if_true] at h2
      show x.rc - 1 = s.handles.count (some q) + (s.objs.set q { x with rc := x.rc - 1 }).countP (liveChild q) +
        (s.tasks.set i ((if x.rc = 1 then x.acts q else []) ++ as)).flatten.countP (isDeref q)
      omega
    · have h1 := hi.refs q z hz
      rw [if_neg (Ne.symm hne)] at h2
      show z.rc = s.handles.count (some q) + (s.objs.set o { x with rc := x.rc - 1 }).countP (liveChild q) +
        (s.tasks.set i ((if x.rc = 1 then x.acts o else []) ++ as)).flatten.countP (isDeref q)
      omega
  · intro q z p hz hp
    rcases get_set hx hz with ⟨rfl, rfl⟩ | ⟨hne, hz⟩
    · exact hi.up q x p hx hp
    · exact hi.up q z p hz hp
  · intro b' q hq
    simp only [List.length_set]
    rcases mem_flatten_set ht hq with h | h
    · split at h
      · rw [Obj.acts] at h
        rcases List.mem_cons.mp h with h | h
        · split at h
          · rename_i p hp
            cases h
            have := hi.up o x q hx hp
            omega
          · cases h
        · obtain ⟨k, _, h⟩ := List.mem_map.mp h
          cases h
      · cases h
    · exact hi.target b' q h
  · intro q z hz
    rcases get_set hx hz with ⟨rfl, rfl⟩ | ⟨hne, hz⟩
    · have hlt := (List.getElem?_eq_some_iff.mp ht).1
      have ha : owned q [Act.deref b q] = [] := by
        have := hnone i _ ht
        rw [owned, List.filter_cons] at this
        rw [owned, List.filter_cons]
        split at this
        · cases this
        · rename_i hc; rw [if_neg hc]; rfl
      have has : owned q as = [] := by
        have := hnone i _ ht
        rw [show Act.deref b q :: as = [Act.deref b q] ++ as from rfl, owned_append, ha, List.nil_append] at this
        exact this
      have h3 : owned q (s.tasks.set i ((if x.rc = 1 then x.acts q else []) ++ as)).flatten = owned q ((if x.rc = 1 then x.acts q else []) ++ as) := by
        refine flatten_alone _ _ i _ (by simp [hlt]) fun j u hu hj => ?_
        rw [List.getElem?_set_ne (Ne.symm hj)] at hu
        exact hnone j u hu
      rw [h3, owned_append, owned_append, hempty.1, ha, has]
      simp only [List.nil_append, List.append_nil]
      by_cases h1 : x.rc = 1
      · rw [if_pos h1, if_pos (by simp [h1]), owned_acts, if_pos rfl]
        exact acts_same rfl rfl
      · rw [if_neg h1, if_neg (show ¬ x.rc - 1 = 0 by omega)]
        rfl
    · exact run_done (hi.alone q) ht (hi.done q z hz) (hnew q hne)
  · intro q hq
    simp only [List.length_set] at hq
    have h1 := hi.late q hq
    have h2 := run_done (E := []) (hi.alone q) ht (by rw [h1.1, h1.2]; rfl) (hnew q (by omega))
    exact List.append_eq_nil_iff.mp h2
  · intro q
    by_cases hq : q = o
    · subst hq
      intro i' t j u h1 h2 h3 h4
      have key : ∀ (j : Nat) (u : List Act), (s.tasks.set i ((if x.rc = 1 then x.acts q else []) ++ as))[j]? = some u → owned q u ≠ [] → j = i := by
        intro j u hu hou
        by_cases hj : i = j
        · exact hj.symm
        · rw [List.getElem?_set_ne hj] at hu
          exact absurd (hnone j u hu) hou
      rw [key i' t h1 h3, key j u h2 h4]
    · exact run_alone (hi.alone q) ht (hnew q hq)
  · rw [hw]
    intro q z hz
    rcases get_set hx hz with ⟨rfl, rfl⟩ | ⟨hne, hz⟩
    · exact hi.steps q x hx
    · exact hi.steps q z hz
  · rw [hw]
    intro q z hz
    rcases get_set hx hz with ⟨rfl, rfl⟩ | ⟨hne, hz⟩
    · exact hi.known q x hx
    · exact hi.known q z hz

theorem inv_step {ops : List Op} {s s' : State} {op : Op} (hi : Inv ops s) (h : step s op = some s') : Inv (ops ++ [op]) s' := by
  cases op with
  | make bs => exact inv_make hi h
  | slice h' st l => exact inv_slice hi h
  | copy h' => exact inv_copy hi h
  | drop h' => exact inv_drop hi h
  | addStep h' k => exact inv_addStep hi h
  | run i =>
    rw [step] at h
    split at h
    · rename_i a as ht
      split at h
      · rename_i b o
        split at h
        · cases h
        · rename_i x hx
          cases h
          exact inv_deref hi ht hx
      · cases h; exact inv_plain hi ht fun _ => rfl
      · cases h; exact inv_plain hi ht fun _ => rfl
    · cases h

theorem inv_foldlM {pre : List Op} {s : State} (hi : Inv pre s) : ∀ (ops : List Op) (s' : State), ops.foldlM step s = some s' → Inv (pre ++ ops) s' := by
  intro ops
  induction ops generalizing pre s with
  | nil => intro s' h; cases h; simpa using hi
  | cons op ops ih =>
    intro s' h
    rw [List.foldlM_cons] at h
    cases hs : step s op with
    | none => rw [hs] at h; cases h
    | some t =>
      rw [hs] at h
      have := ih (inv_step hi hs) s' h
      simpa using this

theorem inv_exec {ops : List Op} {s : State} (h : exec ops = some s) : Inv ops s := by
  simpa using inv_foldlM inv_init ops s h

end Verif.Chunk
