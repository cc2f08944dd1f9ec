import Verif.Signals.Model
/-! What is expected of signals.  Of the model, this uses only the steps and the log. -/
namespace Verif.Signals.Spec

/-- A signal that the process handles: one of 1 to 31. -/
def Valid : Step → Prop
  | .raise sig => 1 ≤ sig ∧ sig < 32
  | _ => True

/-- A schedule in which the monitor makes no step while a handler runs. -/
inductive Atomic : List Step → Prop
  | nil : Atomic []
  | signal (sig : Nat) (r : List Step) (h : Atomic r) : Atomic (.raise sig :: .finish sig :: r)
  | monitor (r : List Step) (h : Atomic r) : Atomic (.monitor :: r)

/-- Each signal that was raised has been sent to the receiver since. -/
def Delivered (log : List Event) : Prop := ∀ a b sig, log = a ++ .raised sig :: b → .sent sig ∈ b

end Verif.Signals.Spec
