import Verif.Chunk.Steps
/-!
What follows from the invariant.
-/
namespace Verif.Chunk
open Spec

theorem frame_get {os : List Obj} {o : Nat} {f : Frame} (h : (os.map Obj.frame)[o]? = some f) : ∃ x, os[o]? = some x ∧ x.frame = f := by
  rw [List.getElem?_map] at h
  cases hx : os[o]? with
  | none => rw [hx] at h; cases h
  | some x => rw [hx] at h; exact ⟨x, rfl, Option.some.inj h⟩

theorem live_of_child {ops : List Op} {s : State} {o q : Nat} {x y : Obj} (hi : Inv ops s) (hx : s.objs[o]? = some x) (hy : s.objs[q]? = some y)
    (hp : y.parent = some o) (hr : 0 < y.rc) : 0 < x.rc := by
  rw [hi.refs o x hx]
  have : 0 < s.objs.countP (liveChild o) := List.countP_pos_iff.mpr ⟨y, List.mem_of_getElem? hy, by simp [liveChild, hp, hr]⟩
  omega

theorem chain_live {ops : List Op} {s : State} (hi : Inv ops s) {c : List Nat} (hc : Chain (s.objs.map Obj.frame) c) :
    ∀ o t x, c = o :: t → s.objs[o]? = some x → 0 < x.rc → ∀ q ∈ c, ∃ y, s.objs[q]? = some y ∧ 0 < y.rc := by
  induction hc with
  | root o f h1 h2 h3 =>
    intro o' t x he hx hr q hq
    cases he
    cases List.mem_singleton.mp hq
    exact ⟨x, hx, hr⟩
  | slice o p c f g h1 h2 h3 h4 _ ih =>
    intro o' t x he hx hr q hq
    cases he
    rcases List.mem_cons.mp hq with rfl | hq
    · exact ⟨x, hx, hr⟩
    · obtain ⟨y, hy, _⟩ := frame_get h3
      obtain ⟨x', hx', hf⟩ := frame_get h1
      rw [hx] at hx'
      cases hx'
      exact ih p c y rfl hy (live_of_child hi hy hx (by rw [← h2, ← hf]; rfl) hr) q hq

theorem chain_parent {fs : List Frame} {c : List Nat} (hc : Chain fs c) : ∀ (q : Nat) (f : Frame) (o : Nat), q ∈ c → fs[q]? = some f → f.parent = some o → o ∈ c := by
  induction hc with
  | root o f h1 h2 h3 =>
    intro q g p hq hg hp
    cases List.mem_singleton.mp hq
    rw [h1] at hg
    cases hg
    rw [h2] at hp
    cases hp
  | slice o p c f g h1 h2 h3 h4 _ ih =>
    intro q g' p' hq hg hp
    rcases List.mem_cons.mp hq with rfl | hq
    · rw [h1] at hg
      cases hg
      rw [h2] at hp
      cases hp
      simp
    · exact List.mem_cons_of_mem _ (ih q g' p' hq hg hp)

/-- A handle that was not dropped. -/
theorem kept {ops : List Op} {s : State} (hi : Inv ops s) {h : Nat} {c : List Nat} {bs : Bytes} (hh : (world ops).handles[h]? = some (c, bs))
    (hd : Op.drop h ∉ ops) : ∃ o t x, c = o :: t ∧ s.held h = some (o, x) ∧ Chain (s.objs.map Obj.frame) c ∧ Shows (s.objs.map Obj.frame) x.frame bs ∧
      ∀ q ∈ c, ∃ y, s.objs[q]? = some y ∧ 0 < y.rc := by
  obtain ⟨o, t, f, e1, e2, e3, e4, e5⟩ := hi.view h c bs hh
  rw [if_neg hd] at e5
  obtain ⟨x, hx, rfl⟩ := frame_get e2
  have hr : 0 < x.rc := by
    rw [hi.refs o x hx]
    have : 0 < s.handles.count (some o) := List.count_pos_iff.mpr (List.mem_of_getElem? e5)
    omega
  exact ⟨o, t, x, e1, by simp [State.held, e5, hx], e3, e4, chain_live hi e3 o t x e1 hx hr⟩

theorem not_begun {ops : List Op} {s : State} (hi : Inv ops s) {o : Nat} {x : Obj} (hx : s.objs[o]? = some x) (hr : 0 < x.rc) : owned o s.log = [] := by
  have := hi.done o x hx
  rw [if_neg (by omega)] at this
  exact (List.append_eq_nil_iff.mp this).1

theorem free_owned {o : Nat} {log : List Act} (h : Act.free o ∈ log) : owned o log ≠ [] := by
  intro hn
  have : Act.free o ∈ owned o log := by simp [owned, owner, h]
  rw [hn] at this
  cases this

theorem deletions_owned (o : Nat) (log : List Act) : deletions o log = deletions o (owned o log) := by
  induction log with
  | nil => rfl
  | cons a log ih =>
    rw [owned, List.filter_cons]
    split
    · show _ = deletions o (a :: owned o log)
      rw [deletions, List.filterMap_cons, deletions, List.filterMap_cons]
      simp only [deletions] at ih
      rw [ih]
    · rename_i h
      show _ = deletions o (owned o log)
      rw [← ih, deletions, List.filterMap_cons]
      cases a with
      | deref b p => rfl
      | free p =>
        have : p ≠ o := fun hp => h (by simp [owner, hp])
        simp only [if_neg this]; rfl
      | step p k =>
        have : p ≠ o := fun hp => h (by simp [owner, hp])
        simp only [if_neg this]; rfl

theorem deletions_acts (o : Nat) (x : Obj) : deletions o (x.acts o) = (if x.parent = none then [none] else []) ++ x.steps.map some := by
  have h : ∀ ks : List Nat, deletions o (ks.map (Act.step o)) = ks.map some := by
    intro ks
    induction ks with
    | nil => rfl
    | cons k ks ih =>
      rw [List.map_cons, deletions, List.filterMap_cons]
      simp only [if_true]
      simp only [deletions] at ih
      rw [ih]; rfl
  rw [Obj.acts, deletions, List.filterMap_cons]
  have h' := h x.steps
  rw [deletions] at h'
  cases hp : x.parent <;> simp [h']

theorem root_iff {ops : List Op} {s : State} (hi : Inv ops s) {o : Nat} {x : Obj} (hx : s.objs[o]? = some x) : Root ops o ↔ x.parent = none := by
  have hxf : (s.objs.map Obj.frame)[o]? = some x.frame := by rw [List.getElem?_map, hx]; rfl
  constructor
  · rintro ⟨h, bs, hh⟩
    obtain ⟨o', t, f, e1, e2, e3, e4, e5⟩ := hi.view h _ bs hh
    cases e3 with
    | root _ f' h1 h2 h3 =>
      rw [hxf] at h1
      cases h1
      exact h2
  · intro hp
    obtain ⟨h, c, bs, hh⟩ := hi.known o x hx
    obtain ⟨o', t, f, e1, e2, e3, e4, e5⟩ := hi.view h _ bs hh
    cases e3 with
    | root _ f' h1 h2 h3 => exact ⟨h, bs, hh⟩
    | slice _ p c f' g h1 h2 h3 h4 h5 =>
      rw [hxf] at h1
      cases h1
      rw [show x.frame.parent = x.parent from rfl, hp] at h2
      cases h2

theorem deletion_acts {ops : List Op} {s : State} (hi : Inv ops s) {o : Nat} {x : Obj} (hx : s.objs[o]? = some x) {d : List (Option Nat)}
    (hd : Deletion ops o d) : d = deletions o (x.acts o) := by
  rw [deletions_acts]
  have hs := hi.steps o x hx
  cases hd with
  | root ks hr hk =>
    rw [hs] at hk
    cases hk
    rw [if_pos ((root_iff hi hx).mp hr)]; rfl
  | slice ks hr hk =>
    rw [hs] at hk
    cases hk
    rw [if_neg fun h => hr ((root_iff hi hx).mpr h)]; rfl

theorem deletion_obj {ops : List Op} {s : State} (hi : Inv ops s) {o : Nat} {d : List (Option Nat)} (hd : Deletion ops o d) : ∃ x, s.objs[o]? = some x := by
  have : o < (world ops).steps.length := by
    cases hd with
    | root ks hr hk => exact (List.getElem?_eq_some_iff.mp hk).1
    | slice ks hr hk => exact (List.getElem?_eq_some_iff.mp hk).1
  rw [← hi.count] at this
  exact ⟨s.objs[o], List.getElem?_eq_getElem this⟩

theorem idle_flatten {s : State} (h : Idle s) : s.tasks.flatten = [] := List.flatten_eq_nil_iff.mpr h

/-- When the threads have nothing left to do, then a chunk that no handle keeps has no references. -/
theorem idle_dead {ops : List Op} {s : State} (hi : Inv ops s) (hid : Idle s) : ∀ (n o : Nat) (x : Obj), s.objs.length - o ≤ n → s.objs[o]? = some x →
    (∀ h, Keeps ops h o → Op.drop h ∈ ops) → x.rc = 0 := by
  intro n
  induction n with
  | zero =>
    intro o x hn hx _
    have := (List.getElem?_eq_some_iff.mp hx).1
    omega
  | succ n ih =>
    intro o x hn hx hk
    have hl := (List.getElem?_eq_some_iff.mp hx).1
    rw [hi.refs o x hx, idle_flatten hid]
    have h1 : s.handles.count (some o) = 0 := by
      rw [List.count_eq_zero]
      intro hm
      obtain ⟨h, hh⟩ := List.getElem?_of_mem hm
      have hlt := (List.getElem?_eq_some_iff.mp hh).1
      rw [hi.handles] at hlt
      have hg : (world ops).handles[h]? = some ((world ops).handles[h].1, (world ops).handles[h].2) := List.getElem?_eq_getElem hlt
      obtain ⟨o', t, f, e1, e2, e3, e4, e5⟩ := hi.view h _ _ hg
      rw [hh] at e5
      split at e5
      · cases e5
      · rename_i hnd
        cases e5
        exact hnd (hk h ⟨_, _, hg, by rw [e1]; simp⟩)
    have h2 : s.objs.countP (liveChild o) = 0 := by
      rw [List.countP_eq_zero]
      intro y hy hlc
      obtain ⟨q, hq⟩ := List.getElem?_of_mem hy
      simp only [liveChild, Bool.and_eq_true, decide_eq_true_eq] at hlc
      have hup := hi.up q y o hq hlc.2
      have := ih q y (by omega) hq fun h ⟨c, bs, hc, hm⟩ => hk h ⟨c, bs, hc, by
        obtain ⟨o', t, f, e1, e2, e3, e4, e5⟩ := hi.view h _ _ hc
        exact chain_parent e3 q y.frame o hm (by rw [List.getElem?_map, hq]; rfl) hlc.2⟩
      have := hlc.1
      omega
    rw [h1, h2]; rfl

/-! ### Threads come to an end -/

/-- All that is left to do if all references go away. -/
def cost : List Obj → Nat
  | [] => 0
  | x :: xs => (if x.rc = 0 then 0 else 1 + x.steps.length) + cost xs

theorem cost_set {os : List Obj} {o : Nat} {x y : Obj} (hx : os[o]? = some x) :
    cost (os.set o y) + (if x.rc = 0 then 0 else 1 + x.steps.length) = cost os + if y.rc = 0 then 0 else 1 + y.steps.length := by
  induction os generalizing o with
  | nil => cases hx
  | cons a os ih =>
    cases o with
    | zero =>
      cases hx
      simp only [List.set_cons_zero, cost]
      omega
    | succ o =>
      have := ih (o := o) hx
      simp only [List.set_cons_succ, cost]
      omega

def left (s : State) : Nat := s.tasks.flatten.length + cost s.objs

theorem flatten_length {ts : List (List Act)} {i : Nat} {t u : List Act} (h : ts[i]? = some t) :
    (ts.set i u).flatten.length + t.length = ts.flatten.length + u.length := by
  induction ts generalizing i with
  | nil => cases h
  | cons a ts ih =>
    cases i with
    | zero =>
      cases h
      simp only [List.set_cons_zero, List.flatten_cons, List.length_append]
      omega
    | succ i =>
      have := ih (i := i) h
      simp only [List.set_cons_succ, List.flatten_cons, List.length_append]
      omega

theorem run_left {ops : List Op} {s s' : State} {i : Nat} (hi : Inv ops s) (h : step s (.run i) = some s') : left s' + 1 = left s := by
  rw [step] at h
  split at h
  · rename_i a as ht
    split at h
    · rename_i b o
      split at h
      · cases h
      · rename_i x hx
        cases h
        have hmem : Act.deref b o ∈ s.tasks.flatten := List.mem_flatten.mpr ⟨_, List.mem_of_getElem? ht, by simp⟩
        have hpos : 0 < x.rc := by
          rw [hi.refs o x hx]
          have : 0 < s.tasks.flatten.countP (isDeref o) := List.countP_pos_iff.mpr ⟨_, hmem, by simp [isDeref]⟩
          omega
        have h1 := flatten_length (u := (if x.rc = 1 then x.acts o else []) ++ as) ht
        have h2 := cost_set (y := { x with rc := x.rc - 1 }) hx
        simp only [List.length_append, List.length_cons] at h1
        rw [if_neg (by omega)] at h2
        simp only [left]
        by_cases h3 : x.rc = 1
        · simp only [h3, if_true] at h1 h2 ⊢
          have : (x.acts o).length = 1 + x.steps.length := by simp [Obj.acts]; omega
          simp only [Nat.sub_self, if_true] at h2 ⊢
          omega
        · simp only [h3, if_false, List.length_nil] at h1 h2 ⊢
          rw [if_neg (by omega)] at h2
          omega
    · cases h
      have h1 := flatten_length (u := as) ht
      simp only [left, List.length_cons] at h1 ⊢
      omega
    · cases h
      have h1 := flatten_length (u := as) ht
      simp only [left, List.length_cons] at h1 ⊢
      omega
  · cases h

theorem runs_left : ∀ (is : List Nat) (ops : List Op) (s s' : State), Inv ops s → (is.map Op.run).foldlM step s = some s' → left s' + is.length = left s := by
  intro is
  induction is with
  | nil => intro ops s s' _ h; cases h; simp
  | cons i is ih =>
    intro ops s s' hi h
    rw [List.map_cons, List.foldlM_cons] at h
    cases hs : step s (.run i) with
    | none => rw [hs] at h; cases h
    | some t =>
      rw [hs] at h
      have h1 := ih _ t s' (inv_step hi hs) h
      have h2 := run_left hi hs
      simp only [List.length_cons]
      omega

theorem run_enabled {ops : List Op} {s : State} (hi : Inv ops s) {i : Nat} {a : Act} {as : List Act} (ht : s.tasks[i]? = some (a :: as)) :
    ∃ s', step s (.run i) = some s' := by
  cases a with
  | free o => exact ⟨_, by simp only [step, ht]; rfl⟩
  | step o k => exact ⟨_, by simp only [step, ht]; rfl⟩
  | deref b o =>
    have := hi.target b o (List.mem_flatten.mpr ⟨_, List.mem_of_getElem? ht, by simp⟩)
    exact ⟨_, by simp only [step, ht, List.getElem?_eq_getElem this]; rfl⟩

end Verif.Chunk
