import Verif.Chunk.Model
/-!
# What a program may rely on

Chunks are numbered in the order of their creation, and so are handles.  A handle keeps its chunk, the chunk that this one is a
slice of, and so on.
-/
namespace Verif.Chunk.Spec
open Verif.Chunk

/-- A handle: the chunks that it keeps, its own one first, and its bytes. -/
abbrev Handle := List Nat × Bytes

/-- The handles, and the deletion steps of every chunk. -/
structure World where
  handles : List Handle
  steps : List (List Nat)

/-- The effect of an operation. -/
def World.next (w : World) : Op → World
  | .make bs => ⟨w.handles ++ [([w.steps.length], bs)], w.steps ++ [[]]⟩
  | .slice h start length => match w.handles[h]? with
    | some (c, bs) => ⟨w.handles ++ [(w.steps.length :: c, (bs.drop start).take length)], w.steps ++ [[]]⟩
    | none => w
  | .copy h => match w.handles[h]? with
    | some x => ⟨w.handles ++ [x], w.steps⟩
    | none => w
  | .addStep h k => match w.handles[h]? with
    | some (o :: _, _) => ⟨w.handles, w.steps.modify o (· ++ [k])⟩
    | _ => w
  | .drop _ => w
  | .run _ => w

/-- The handles and steps after some operations. -/
def world (ops : List Op) : World := ops.foldl World.next ⟨[], []⟩

/-- A handle keeps a chunk. -/
def Keeps (ops : List Op) (h o : Nat) : Prop := ∃ c bs, (world ops).handles[h]? = some (c, bs) ∧ o ∈ c

/-- A chunk that is not a slice. -/
def Root (ops : List Op) (o : Nat) : Prop := ∃ (h : Nat) (bs : Bytes), (world ops).handles[h]? = some ([o], bs)

/-- What has been done to delete a chunk: the memory was freed (`none`), and steps were run. -/
def deletions (o : Nat) (log : List Act) : List (Option Nat) :=
  log.filterMap fun a => match a with
    | .free p => if p = o then some none else none
    | .step p k => if p = o then some (some k) else none
    | .deref _ _ => none

/-- All that has to be done: the memory is freed, if the chunk owns it, and then the steps are run. -/
inductive Deletion (ops : List Op) (o : Nat) : List (Option Nat) → Prop
  | root (ks : List Nat) : Root ops o → (world ops).steps[o]? = some ks → Deletion ops o (none :: ks.map some)
  | slice (ks : List Nat) : ¬ Root ops o → (world ops).steps[o]? = some ks → Deletion ops o (ks.map some)

/-- No thread has anything left to do. -/
def Idle (s : State) : Prop := ∀ t ∈ s.tasks, t = []

end Verif.Chunk.Spec
