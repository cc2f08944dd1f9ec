import Verif.NodeStart.PidModel
/-!
# One node per directory
-/
namespace Verif.NodeStart.Spec

/-- The node of a process is running. -/
def Runs (w : World) (p : Nat) : Prop := w.procs p = some .node

/-- A process has looked at the file and has not written it yet. -/
def Acquiring (w : World) (p : Nat) : Prop :=
  w.procs p = some .checked ∨ (∃ i, w.procs p = some (.opened i)) ∨ ∃ i, w.procs p = some (.locked i)

/-- No process looks at the file while another one is acquiring it. -/
def Apart : World → List Action → Prop
  | _, [] => True
  | w, a :: as => (∀ p, a = .check p → ∀ q, ¬ Acquiring w q) ∧ Apart (step w a) as

/-- All numbers of processes have as many digits. -/
def SameDigits (k : Nat) (as : List Action) : Prop := ∀ p vast, .spawn p vast ∈ as → 10 ^ k ≤ p ∧ p < 10 ^ (k + 1)

end Verif.NodeStart.Spec
