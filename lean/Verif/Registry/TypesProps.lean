import Verif.Registry.TypesLemmas
import Verif.Taxonomy.Props
/-!
# C115: the type registry remembers all layouts
-/
namespace Verif.Registry
open Verif.Taxonomy (Name Seen find contains Context conceptExpr Concepts Models Outcome resolve)
open Verif.Data (Data RelOp str)
open Verif.Expr (Expr Pred)

variable {T : Type} [DecidableEq T]

/-- **C115.** Over any number of restarts, if nothing goes wrong, the registry has exactly the layouts that came: every layout once,
and the last one first.  What is missing are crashes and errors, see `C115_crash_refuted` and `C115_failed_refuted`. -/
theorem C115_layouts_partial (es : List (Event T)) (hf : Spec.Fine es) (hr : Spec.Running true es = true) :
    ∃ d, (run es).data = some d ∧ ∀ n, find d n = if Spec.came n true es = [] then none
      else some (Spec.came n true es).reverse.eraseDups := by
  have := run_inv es first true (fun _ => []) hf ⟨fun _ => ⟨[], rfl, fun n => rfl⟩, fun h => by cases h⟩
  obtain ⟨d, h1, h2⟩ := this.up hr
  exact ⟨d, h1, fun n => by simpa [recent] using h2 n⟩

/-- **C115.** So no field of a layout that came is left out of the query for a concept: the field is kept if its type is compatible
with the predicate.  What is missing: crashes and errors, and layouts whose name has the name of another one as a prefix up to a dot
(see C66). -/
theorem C115_concept_partial (es : List (Event T)) (hf : Spec.Fine es) (hr : Spec.Running true es = true)
    (n f : Name) (l : List (Name × T)) (hl : l ∈ Spec.came n true es) (t : T) (hft : find l f = some t)
    (hprefix : ∀ m g, n = m ++ 46 :: g → Spec.came m true es = []) (compat : T → RelOp → Data → Bool) (op : RelOp) (x : Data)
    (hc : compat t op x = true) :
    ∃ d, (run es).data = some d ∧ contains d compat (n ++ 46 :: f) op x = true := by
  obtain ⟨d, h1, h2⟩ := C115_layouts_partial es hf hr
  refine ⟨d, h1, Verif.Taxonomy.C66_pruning_partial d compat n f (Spec.came n true es).reverse.eraseDups l t op x ?_ ?_ hft hc ?_⟩
  · rw [h2, if_neg (by intro h; rw [h] at hl; cases hl)]
  · rw [List.mem_eraseDups, List.mem_reverse]; exact hl
  · intro m g hm
    rw [h2, if_pos (hprefix m g hm)]

/-! ## Examples -/

/-- Two layouts for one name, one for another, and a restart. -/
def exEvents : List (Event Nat) :=
  [.slice (str "t") [(str "a", 0)], .slice (str "u") [(str "a", 0)], .stop true, .start true, .slice (str "t") [(str "a", 0), (str "b", 1)],
    .slice (str "t") [(str "a", 0)]]

private theorem exFine : Spec.Fine exEvents := by
  intro e he
  simp only [exEvents, List.mem_cons, List.not_mem_nil, or_false] at he
  rcases he with rfl | rfl | rfl | rfl | rfl | rfl <;> refine ⟨?_, ?_, ?_⟩ <;> intro h <;> cases h

example : Spec.Fine exEvents ∧ Spec.Running true exEvents = true := ⟨exFine, rfl⟩

example : (run exEvents).data = some [(str "t", [[(str "a", 0)], [(str "a", 0), (str "b", 1)]]), (str "u", [[(str "a", 0)]])] := by
  decide +kernel

/-- A concept with a field in each of two layouts. -/
def exContext (seen : Seen Nat) : Context :=
  ⟨[(str "c", ⟨[str "t.a", str "u.a"], []⟩)], [], contains seen fun _ _ _ => true⟩

/-- The query for events with a value for the concept. -/
def exQuery : Expr Nat := .pred ⟨.field (str "c"), .equal, .data (.count 7)⟩

/-- After a restart the query asks for both fields. -/
example : ((run exEvents).data.map fun d => resolve (exContext d) 10 exQuery) =
    some (.ok (.disj [.pred ⟨.field (str "t.a"), .equal, .data (.count 7)⟩, .pred ⟨.field (str "u.a"), .equal, .data (.count 7)⟩])) := by
  rfl

/-- **C115, what is missing.** The registry is saved when it ends and at no other time, so after a crash it does not know the layouts
of the events that came before, although the events are on disk.  A query for a concept then leaves out their fields as soon as there
is one layout with a field of the concept: here events of the layout `t` are not found any more. -/
theorem C115_crash_refuted :
    let es : List (Event Nat) := [.slice (str "t") [(str "a", 0)], .crash, .start true, .slice (str "u") [(str "a", 0)]]
    ∃ d, (run es).data = some d ∧ find d (str "t") = none
      ∧ resolve (exContext d) 10 exQuery = .ok (.pred ⟨.field (str "u.a"), .equal, .data (.count 7)⟩) := by
  exact ⟨[(str "u", [[(str "a", 0)]])], by decide +kernel, by decide +kernel, rfl⟩

/-- **C115, what is missing.** The same happens if the registry cannot be saved: there is only a message.  If it cannot be loaded,
there is no registry. -/
theorem C115_failed_refuted (n : Name) (l : List (Name × T)) :
    (run [.slice n l, .stop false, .start true]).data = some ([] : Seen T)
    ∧ (run [.slice n l, .stop true, .start false] : State T).data = none := ⟨rfl, rfl⟩

/-- **C115.** The file is never lost, though: a crash or a failed start leaves it, and the next start that succeeds has what was
saved last. -/
theorem C115_file (es es' : List (Event T)) (h : ∀ e ∈ es', e = .crash ∨ e = .start false ∨ e = .stop false) (d : Seen T)
    (hd : (run es).data = some d) : (run (es ++ .stop true :: es' ++ [.start true])).data = some d := by
  have key : ∀ (es' : List (Event T)) (s : State T), s.data = none → (∀ e ∈ es', e = .crash ∨ e = .start false ∨ e = .stop false) →
      es'.foldl step s = s := by
    intro es'
    induction es' with
    | nil => intro s _ _; rfl
    | cons e es' ih =>
      intro s hs h
      rw [List.foldl_cons]
      have : step s e = s := by
        obtain ⟨d, f⟩ := s
        simp only at hs
        subst hs
        rcases h e (by simp) with rfl | rfl | rfl <;> rfl
      rw [this]
      exact ih s hs fun e he => h e (List.mem_cons_of_mem _ he)
  unfold run at hd ⊢
  rw [List.foldl_append, List.foldl_append, List.foldl_cons, List.foldl_cons, key es' _ (by simp [step, hd]) h]
  simp [step, hd]

example : (run (exEvents ++ .stop true :: [.start false, .crash] ++ [.start true])).data = (run exEvents).data := by decide +kernel

end Verif.Registry
