import Verif.Chunk.Spec
/-!
Chunks are kept as long as there are handles.
-/
namespace Verif.Chunk
open Spec

/-! ### Lists of lists -/

theorem flatten_count {α : Type} (p : α → Bool) (ts : List (List α)) (i : Nat) (t t' : List α) (h : ts[i]? = some t) :
    (ts.set i t').flatten.countP p + t.countP p = ts.flatten.countP p + t'.countP p := by
  induction ts generalizing i with
  | nil => simp at h
  | cons a ts ih =>
    cases i with
    | zero =>
      simp only [List.getElem?_cons_zero, Option.some.injEq] at h
      subst h
      simp only [List.set_cons_zero, List.flatten_cons, List.countP_append]
      omega
    | succ i =>
      have := ih i (by simpa using h)
      simp only [List.set_cons_succ, List.flatten_cons, List.countP_append]
      omega

theorem flatten_filter {α : Type} (p : α → Bool) (ts : List (List α)) (i : Nat) (t t' : List α) (h : ts[i]? = some t)
    (ht : t'.filter p = t.filter p) : (ts.set i t').flatten.filter p = ts.flatten.filter p := by
  induction ts generalizing i with
  | nil => simp at h
  | cons a ts ih =>
    cases i with
    | zero =>
      simp only [List.getElem?_cons_zero, Option.some.injEq] at h
      subst h
      simp [List.filter_append, ht]
    | succ i =>
      have := ih i (by simpa using h)
      simp [List.filter_append, this]

theorem flatten_alone {α : Type} (p : α → Bool) (ts : List (List α)) (i : Nat) (t : List α) (h : ts[i]? = some t)
    (hn : ∀ (j : Nat) (u : List α), ts[j]? = some u → j ≠ i → u.filter p = []) : ts.flatten.filter p = t.filter p := by
  induction ts generalizing i with
  | nil => simp at h
  | cons a ts ih =>
    cases i with
    | zero =>
      simp only [List.getElem?_cons_zero, Option.some.injEq] at h
      subst h
      have : ts.flatten.filter p = [] := by
        rw [List.filter_flatten, List.flatten_eq_nil_iff]
        intro l hl
        obtain ⟨u, hu, rfl⟩ := List.mem_map.mp hl
        obtain ⟨j, hj⟩ := List.getElem?_of_mem hu
        exact hn (j + 1) u (by simpa using hj) (by omega)
      simp [List.filter_append, this]
    | succ i =>
      have h1 := ih i (by simpa using h) (fun j u hj hne => hn (j + 1) u (by simpa using hj) (by omega))
      have h2 := hn 0 a rfl (by omega)
      simp [List.filter_append, h1, h2]

/-! ### The invariant -/

/-- What does not change of a chunk. -/
structure Frame where
  root : Nat
  off : Nat
  len : Nat
  parent : Option Nat
  bytes : Bytes

def Obj.frame (x : Obj) : Frame := ⟨x.root, x.off, x.len, x.parent, x.bytes⟩

/-- The chunks that a chunk keeps. -/
inductive Chain (fs : List Frame) : List Nat → Prop
  | root (o : Nat) (f : Frame) : fs[o]? = some f → f.parent = none → f.root = o → Chain fs [o]
  | slice (o p : Nat) (c : List Nat) (f g : Frame) : fs[o]? = some f → f.parent = some p → fs[p]? = some g → f.root = g.root → Chain fs (p :: c) →
      Chain fs (o :: p :: c)

/-- The bytes of a view. -/
def Shows (fs : List Frame) (f : Frame) (bs : Bytes) : Prop :=
  f.len = bs.length ∧ ∃ r, fs[f.root]? = some r ∧ r.parent = none ∧ (r.bytes.drop f.off).take f.len = bs

def owner : Act → Option Nat
  | .deref b _ => b
  | .free o => some o
  | .step o _ => some o

/-- What belongs to the deletion of a chunk. -/
def owned (o : Nat) (as : List Act) : List Act := as.filter fun a => owner a = some o

def isDeref (o : Nat) : Act → Bool
  | .deref _ p => p = o
  | _ => false

/-- A slice of `o` that is not deleted. -/
def liveChild (o : Nat) (x : Obj) : Bool := x.rc > 0 && x.parent = some o

structure Inv (ops : List Op) (s : State) : Prop where
  count : s.objs.length = (world ops).steps.length
  handles : s.handles.length = (world ops).handles.length
  dropped : ∀ h, Op.drop h ∈ ops → h < s.handles.length
  view : ∀ (h : Nat) (c : List Nat) (bs : Bytes), (world ops).handles[h]? = some (c, bs) → ∃ o t f, c = o :: t ∧ (s.objs.map Obj.frame)[o]? = some f ∧
    Chain (s.objs.map Obj.frame) c ∧ Shows (s.objs.map Obj.frame) f bs ∧ s.handles[h]? = some (if Op.drop h ∈ ops then none else some o)
  refs : ∀ (o : Nat) (x : Obj), s.objs[o]? = some x →
    x.rc = s.handles.count (some o) + s.objs.countP (liveChild o) + s.tasks.flatten.countP (isDeref o)
  up : ∀ (o : Nat) (x : Obj) (p : Nat), s.objs[o]? = some x → x.parent = some p → p < o
  target : ∀ b o, Act.deref b o ∈ s.tasks.flatten → o < s.objs.length
  done : ∀ (o : Nat) (x : Obj), s.objs[o]? = some x → owned o s.log ++ owned o s.tasks.flatten = if x.rc = 0 then x.acts o else []
  late : ∀ o, s.objs.length ≤ o → owned o s.log = [] ∧ owned o s.tasks.flatten = []
  alone : ∀ (o i : Nat) (t : List Act) (j : Nat) (u : List Act), s.tasks[i]? = some t → s.tasks[j]? = some u → owned o t ≠ [] → owned o u ≠ [] → i = j
  steps : ∀ (o : Nat) (x : Obj), s.objs[o]? = some x → (world ops).steps[o]? = some x.steps
  known : ∀ (o : Nat) (x : Obj), s.objs[o]? = some x → ∃ (h : Nat) (c : List Nat) (bs : Bytes), (world ops).handles[h]? = some (o :: c, bs)

theorem world_snoc (ops : List Op) (op : Op) : world (ops ++ [op]) = (world ops).next op := by
  rw [world, List.foldl_append]; rfl

theorem owned_append (o : Nat) (a b : List Act) : owned o (a ++ b) = owned o a ++ owned o b := List.filter_append ..

theorem chain_append {fs : List Frame} {c : List Nat} (gs : List Frame) (h : Chain fs c) : Chain (fs ++ gs) c := by
  have key : ∀ (o : Nat) f, fs[o]? = some f → (fs ++ gs)[o]? = some f := fun o f h => by
    rw [List.getElem?_append_left (List.getElem?_eq_some_iff.mp h).1, h]
  induction h with
  | root o f h1 h2 h3 => exact .root o f (key _ _ h1) h2 h3
  | slice o p c f g h1 h2 h3 h4 _ ih => exact .slice o p c f g (key _ _ h1) h2 (key _ _ h3) h4 ih

theorem shows_append {fs : List Frame} {f : Frame} {bs : Bytes} (gs : List Frame) (h : Shows fs f bs) : Shows (fs ++ gs) f bs := by
  obtain ⟨h1, r, h2, h3⟩ := h
  exact ⟨h1, r, by rw [List.getElem?_append_left (List.getElem?_eq_some_iff.mp h2).1, h2], h3⟩

theorem frames_set {os : List Obj} {o : Nat} {x y : Obj} (hx : os[o]? = some x) (h : y.frame = x.frame) :
    (os.set o y).map Obj.frame = os.map Obj.frame := by
  rw [List.map_set, h]
  apply List.ext_getElem?
  intro i
  rw [List.getElem?_set]
  split
  · rename_i hi
    subst hi
    have := (List.getElem?_eq_some_iff.mp hx).1
    rw [if_pos (by simpa using this), List.getElem?_map, hx]; rfl
  · rfl

theorem held_some {s : State} {h o : Nat} {x : Obj} (hh : s.held h = some (o, x)) : s.handles[h]? = some (some o) ∧ s.objs[o]? = some x := by
  rw [State.held] at hh
  split at hh
  · rename_i p hp
    cases ho : s.objs[p]? with
    | none => rw [ho] at hh; cases hh
    | some y =>
      rw [ho] at hh
      cases hh
      exact ⟨hp, ho⟩
  · cases hh

theorem inv_init : Inv [] ⟨[], [], [], []⟩ where
  count := rfl
  handles := rfl
  dropped := fun _ h => (by cases h)
  view := fun _ _ _ h => (by cases h)
  refs := fun _ _ h => (by cases h)
  up := fun _ _ _ h => (by cases h)
  target := fun _ _ h => (by cases h)
  done := fun _ _ h => (by cases h)
  late := fun _ _ => ⟨rfl, rfl⟩
  alone := fun _ _ _ _ _ h => (by cases h)
  steps := fun _ _ h => (by cases h)
  known := fun _ _ h => (by cases h)

/-- The handle of the program. -/
theorem inv_held {ops : List Op} {s : State} (hi : Inv ops s) {h o : Nat} {x : Obj} (hh : s.held h = some (o, x)) :
    Op.drop h ∉ ops ∧ ∃ t bs, (world ops).handles[h]? = some (o :: t, bs) ∧ Chain (s.objs.map Obj.frame) (o :: t) ∧
      Shows (s.objs.map Obj.frame) x.frame bs ∧ 0 < x.rc := by
  obtain ⟨h1, h2⟩ := held_some hh
  have hl : h < (world ops).handles.length := by
    rw [← hi.handles]; exact (List.getElem?_eq_some_iff.mp h1).1
  obtain ⟨o', t, f, e1, e2, e3, e4, e5⟩ := hi.view h _ _ (List.getElem?_eq_getElem hl)
  rw [h1] at e5
  split at e5
  · cases e5
  · rename_i hd
    cases e5
    rw [List.getElem?_map, h2] at e2
    cases e2
    refine ⟨hd, t, (world ops).handles[h].2, ?_, ?_, e4, ?_⟩
    · rw [List.getElem?_eq_getElem hl, ← e1]; rfl
    · rw [← e1]; exact e3
    · rw [hi.refs o x h2]
      have : 0 < s.handles.count (some o) := List.count_pos_iff.mpr (List.mem_of_getElem? h1)
      omega

/-- A change of a chunk that is not deleted. -/
theorem get_set {os : List Obj} {o q : Nat} {x y z : Obj} (hx : os[o]? = some x) (h : (os.set o y)[q]? = some z) :
    (q = o ∧ z = y) ∨ (q ≠ o ∧ os[q]? = some z) := by
  rw [List.getElem?_set] at h
  split at h
  · rename_i ho
    subst ho
    rw [if_pos (List.getElem?_eq_some_iff.mp hx).1] at h
    cases h
    exact .inl ⟨rfl, rfl⟩
  · rename_i ho
    exact .inr ⟨fun hc => ho hc.symm, h⟩

theorem countP_set_same {os : List Obj} {o : Nat} {x y : Obj} (p : Obj → Bool) (hx : os[o]? = some x) (h : p y = p x) :
    (os.set o y).countP p = os.countP p := by
  obtain ⟨hl, rfl⟩ := List.getElem?_eq_some_iff.mp hx
  rw [List.countP_set hl, h]
  split
  · have : 0 < os.countP p := List.countP_pos_iff.mpr ⟨_, List.getElem_mem hl, by assumption⟩
    omega
  · omega

theorem count_snoc (hs : List (Option Nat)) (o n : Nat) : (hs ++ [some n]).count (some o) = hs.count (some o) + if n = o then 1 else 0 := by
  rw [List.count_append, List.count_singleton]
  simp

/-- Nothing refers to a chunk that does not exist. -/
theorem inv_fresh {ops : List Op} {s : State} (hi : Inv ops s) : s.handles.count (some s.objs.length) = 0 ∧
    s.objs.countP (liveChild s.objs.length) = 0 ∧ s.tasks.flatten.countP (isDeref s.objs.length) = 0 := by
  refine ⟨?_, ?_, ?_⟩
  · rw [List.count_eq_zero]
    intro hm
    obtain ⟨h, hh⟩ := List.getElem?_of_mem hm
    have hl : h < (world ops).handles.length := by
      rw [← hi.handles]; exact (List.getElem?_eq_some_iff.mp hh).1
    obtain ⟨o', t, f, e1, e2, e3, e4, e5⟩ := hi.view h _ _ (List.getElem?_eq_getElem hl)
    rw [hh] at e5
    split at e5
    · cases e5
    · cases e5
      have := (List.getElem?_eq_some_iff.mp e2).1
      simp at this
  · rw [List.countP_eq_zero]
    intro x hx hc
    obtain ⟨o, ho⟩ := List.getElem?_of_mem hx
    simp only [liveChild, Bool.and_eq_true, decide_eq_true_eq] at hc
    have h1 := hi.up o x _ ho hc.2
    have h2 := (List.getElem?_eq_some_iff.mp ho).1
    omega
  · rw [List.countP_eq_zero]
    intro a ha hc
    cases a with
    | deref b o =>
      have := hi.target b o ha
      simp only [isDeref, decide_eq_true_eq] at hc
      omega
    | free o => cases hc
    | step o k => cases hc

end Verif.Chunk
