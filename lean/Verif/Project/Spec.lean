import Verif.Project.Model
import Verif.Types.Spec
/-! What a hint means.  Of the model, this uses the hints and what is wanted, and the leaves of a layout from the specification of types. -/
namespace Verif.Project.Spec
open Verif.Types Verif.Types.Spec

variable {τ ν : Type}

/-- The name is the whole name of a column, or what follows one of the dots in it. -/
def Named (hint full : Name) : Prop := hint = full ∨ ∃ a, full = a ++ [46] ++ hint

/-- The hint denotes the leaf with number `i` of a layout. -/
def Denotes (layout : Name) (hint : Hint) (i : Nat) (l : Leaf τ) : Prop :=
  match hint with
  | .offset o => l.offset = o
  | .name n => Named n (dotted (layout :: l.path))
  | .index k => i = k

/-- The type of the leaf is the one asked for; any will do if anything is asked for. -/
def Fits (w : Wanted τ ν) (l : Leaf τ) : Prop := w.mode = .any ∨ w.congruent l.type = true

/-- What the code checks instead. -/
def FitsLoosely (w : Wanted τ ν) (l : Leaf τ) : Prop := w.mode = .plain → w.congruent l.type = true

end Verif.Project.Spec
