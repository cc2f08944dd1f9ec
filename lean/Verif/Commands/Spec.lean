import Verif.Commands.Model
/-!
# What is asked of commands
-/
namespace Verif.Commands.Spec

/-- The command was told that an actor is down. -/
def SeenDown (log : List Event) (w : Who) : Prop := ∃ r, .got (.down w r) ∈ log

/-- The command has taken care of an actor: it has told it to stop, or has seen that it is down, or that the node is in which
exporters, explorers and pivoters live. -/
def Settled (log : List Event) (w : Who) : Prop :=
  .exit w ∈ log ∨ SeenDown log w ∨ ((w = .exporter ∨ w = .worker) ∧ SeenDown log .node)

/-- Nothing that was started goes on. -/
def Tidy (log : List Event) : Prop := ∀ w, .start w ∈ log → Settled log w

/-- Nobody sends `flush` before the source is down: only then the command asks for it. -/
def FlushAfterSource (ms : List Msg) : Prop :=
  ∀ xs ys, ms = xs ++ .flush :: ys → ∃ r, .down .source r ∈ xs

/-- What an error that a command returns says. -/
def Cause (env : Env) (log : List Event) : Err → Prop
  | .step s => env.fails s = true
  | .reason r => r ≠ .normal ∧ ∃ w, .got (.down w r) ∈ log
  | .timeout => .got .timeout ∈ log
  | .remoteNodeDown => SeenDown log .importer

/-- The steps of the commands. -/
def exploreSteps : List Step := [.args, .query, .sink, .node, .exporter, .worker]
def pivotSteps : List Step := [.query, .sink, .node, .exporter, .worker, .components]
def exportSteps : List Step := [.sink, .query, .node, .exporter, .components]
def importSteps : List Step := [.node, .components, .transforms, .source, .register]

end Verif.Commands.Spec
