import Verif.Blocking.Model
/-! # What a blocking import promises -/
namespace Verif.Blocking.Spec

/-- The slice is on its way to the index: in the transformer of the source, the importer, the transformer of the node, or in front of
the index. -/
def EnRoute (x : Slice) : Prop := ∃ n, x.pos = .hop n

/-- The events of the slice are found by queries: the indexers have them, and the store has them. -/
def Found (x : Slice) : Prop := x.pos = .indexed ∧ x.stored = true

/-- An execution without new slices, in which every event does something. -/
def Progress (cap : Nat) : State → List Event → Prop
  | _, [] => True
  | s, e :: es => (∀ own rows, e ≠ .push own rows) ∧ step cap s e ≠ s ∧ Progress cap (step cap s e) es

/-- Nothing is left to do, unless there are new slices. -/
def Still (cap : Nat) (s : State) : Prop := ∀ e, (∀ own rows, e ≠ .push own rows) → step cap s e = s

end Verif.Blocking.Spec
