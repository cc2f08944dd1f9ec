import Verif.TransformConfig.Model
/-! # What a user writes into the configuration

A configuration has transforms, each with its steps, and triggers for the import and for the export, each with a location, a transform
and the types of events. -/
namespace Verif.TransformConfig.Spec
open Types (Name)
open Data (str)
open Transform (Step Slice)

/-- When a transform is applied. -/
structure Trigger where
  server : Bool
  transform : Name
  events : List Name

/-- A step: its kind and its options. -/
abbrev StepConfig := Name × List (Name × Value)

structure Config where
  imports : List Trigger
  exports : List Trigger
  transforms : List (Name × List StepConfig)

/-- As in vast/integration/vast-transforms.yaml: `{location: server, transform: example, events: [zeek.dns]}`. -/
def Trigger.value (t : Trigger) : Value :=
  .dict [(str "transform", .text t.transform), (str "location", .text (if t.server then str "server" else str "client")),
    (str "events", .list (t.events.map .text))]

/-- As in vast/integration/vast-transforms.yaml: `delete: {field: uid}`. -/
def stepValue (s : StepConfig) : Value := .dict [(s.1, .dict s.2)]

def Config.value (c : Config) : Value :=
  .dict [(str "vast", .dict [
    (str "transforms", .dict (c.transforms.map fun t => (t.1, .list (t.2.map stepValue)))),
    (str "transform-triggers", .dict [(str "import", .list (c.imports.map Trigger.value)), (str "export", .list (c.exports.map Trigger.value))])])]

/-- The triggers for a location. -/
def Config.at (c : Config) : Location → List Trigger
  | .serverImport => c.imports.filter (·.server)
  | .clientSource => c.imports.filter (! ·.server)
  | .serverExport => c.exports.filter (·.server)
  | .clientSink => c.exports.filter (! ·.server)

/-- Every transform has its name for itself: `transforms` is a dictionary. -/
def Config.Named (c : Config) : Prop := (c.transforms.map (·.1)).Nodup

/-- `b` is what `t` asks for: its name, its events, and the steps of the transform with this name, in their order. -/
def Asks {S : Type} (mk : Name → List (Name × Value) → Option S) (c : Config) (t : Trigger) (b : Built S) : Prop :=
  b.name = t.transform ∧ b.events = t.events
    ∧ ∃ steps, (t.transform, steps) ∈ c.transforms ∧ steps.map (fun s => mk s.1 s.2) = b.steps.map some

/-- A trigger as it must be. -/
def WellFormed (v : Value) : Prop :=
  ∃ l n es, v.key (str "location") = some (.text l) ∧ (l = str "server" ∨ l = str "client") ∧ v.key (str "transform") = some (.text n)
    ∧ v.key (str "events") = some (.list es) ∧ ∀ e ∈ es, ∃ s, e = .text s

variable {τ V : Type}

/-- A step does not change the type of an event, nor the number of events. -/
def Gentle (s : Step τ V) : Prop := ∀ x y, s x = some y → y.name = x.name ∧ y.rows.length = x.rows.length

/-- All steps in order, up to the first error; the IDs stay. -/
def phase : List (Step τ V) → Slice τ V → Option (Slice τ V) := fun ss x =>
  (ss.foldl (fun acc s => acc.bind s) (some x)).map fun y => { y with offset := x.offset }

/-- The steps for a type of events: those of all triggers that name it, in their order. -/
def stepsFor (mk : Name → List (Name × Value) → Option (Step τ V)) (c : Config) (loc : Location) (type : Name) : List (Step τ V) :=
  ((c.at loc).filter (type ∈ ·.events)).flatMap fun t =>
    ((c.transforms.filter (·.1 = t.transform)).flatMap (·.2)).filterMap fun s => mk s.1 s.2

/-- Everything that is needed at a location is there: the transforms, with steps, all of which can be made. -/
def Config.Complete (mk : Name → List (Name × Value) → Option (Step τ V)) (c : Config) (loc : Location) : Prop :=
  c.Named ∧ ∀ t ∈ c.at loc, t.events.Nodup ∧ ∃ steps, (t.transform, steps) ∈ c.transforms ∧ steps ≠ []
    ∧ ∀ s ∈ steps, ∃ step, mk s.1 s.2 = some step ∧ Gentle step

end Verif.TransformConfig.Spec
