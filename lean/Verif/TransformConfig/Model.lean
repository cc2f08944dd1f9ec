import Verif.Transform.Model
import Verif.Data.Model
/-! # Transforms from the configuration

Models libvast/src/system/make_transforms.cpp, and who calls it: spawn_importer.cpp:40-41, spawn_source.cpp:34-35,
import_command.cpp:58-59, spawn_exporter.cpp:38-39, make_sink.cpp:34, with the engines of the source, the importer (system/transformer.cpp:
22-50), the exporter (exporter.cpp:65) and the sink that the events pass.

What makes a step of its name and its options (transform_step.cpp:23-37, by the plugins) is a parameter. -/
namespace Verif.TransformConfig
open Types (Name)
open Transform (Step Slice)
open Data (str)

/-- `caf::config_value`: strings, lists, dictionaries, and all others. -/
inductive Value where
  | text (s : Name)
  | list (xs : List Value)
  | dict (kvs : List (Name × Value))
  | other

/-- `caf::get_if` for a key of a dictionary. A dictionary has every key once; here the first one counts. -/
def Value.key (k : Name) : Value → Option Value
  | .dict kvs => (kvs.find? (·.1 = k)).map (·.2)
  | _ => none

/-- A key of several parts, with dots between them. -/
def Value.path : List Name → Value → Option Value
  | [], v => some v
  | k :: ks, v => (v.key k).bind (Value.path ks)

/-- `caf::get_if<std::vector<std::string>>`. -/
def texts : List Value → Option (List Name)
  | [] => some []
  | .text s :: vs => (texts vs).map (s :: ·)
  | _ :: _ => none

/-- transforms_location, make_transforms.hpp:22-27. -/
inductive Location where
  | serverImport
  | serverExport
  | clientSource
  | clientSink
deriving DecidableEq

/-- make_transforms.cpp:60-81: the key, and whether it is the server. -/
def Location.trigger : Location → Name × Bool
  | .serverImport => (str "import", true)
  | .serverExport => (str "export", true)
  | .clientSink => (str "export", false)
  | .clientSource => (str "import", false)

/-- make_transforms.cpp:93-124: an item of the list: whether it is for the server, the name, and the event types. -/
def readTrigger (v : Value) : Option (Bool × Name × List Name) :=
  match v with
  | .dict _ => match v.key (str "location"), v.key (str "transform"), v.key (str "events") with
    | some (.text l), some (.text n), some (.list es) =>
      if l = str "server" then (texts es).map fun es => (true, n, es)
      else if l = str "client" then (texts es).map fun es => (false, n, es)
      else none
    | _, _, _ => none
  | _ => none

/-- make_transforms.cpp:92-128: the loop over the list. -/
def readTriggers (server : Bool) : List Value → Option (List (Name × List Name))
  | [] => some []
  | v :: vs => match readTrigger v with
    | none => none
    | some (s, t) => (readTriggers server vs).map fun ts => if server = s then t :: ts else ts

/-- make_transforms.cpp:34-54 `parse_transform_steps`. -/
def readSteps {S : Type} (mk : Name → List (Name × Value) → Option S) : List Value → Option (List S)
  | [] => some []
  | v :: vs => match v with
    | .dict [(name, .dict opts)] => (mk name opts).bind fun s => (readSteps mk vs).map (s :: ·)
    | _ => none

/-- Is it a list? -/
def Value.isList : Value → Bool
  | .list _ => true
  | _ => false

/-- A transform: its name, its event types, and its steps. -/
structure Built (S : Type) where
  name : Name
  events : List Name
  steps : List S

/-- make_transforms.cpp:146-154: the loop over the triggers. -/
def build {S : Type} (mk : Name → List (Name × Value) → Option S) (defs : List (Name × Value)) :
    List (Name × List Name) → Option (List (Built S))
  | [] => some []
  | (name, events) :: ts => match (Value.dict defs).key name with
    | some (.list steps) => (readSteps mk steps).bind fun ss => (build mk defs ts).map fun bs => ⟨name, events, ss⟩ :: bs
    | _ => none

/-- make_transforms.cpp:58-156 `make_transforms`; `none` is the error. -/
def makeTransforms {S : Type} (mk : Name → List (Name × Value) → Option S) (loc : Location) (opts : Value) : Option (List (Built S)) :=
  match opts.path [str "vast", str "transform-triggers", loc.trigger.1] with
  | some (.list items) => (readTriggers loc.trigger.2 items).bind fun ts =>
    if ts.isEmpty then some []
    else match opts.path [str "vast", str "transforms"] with
      | some (.dict defs) => if defs.all (·.2.isList) then build mk defs ts else none
      | _ => none
  | _ => some []

variable {τ V : Type}

/-- The constructor of `transform`, and `add_step` for every step (make_transforms.cpp:151-153). -/
def Built.transform (b : Built (Step τ V)) : Transform.Transform τ V := b.steps.foldl (·.addStep ·) (.make b.events)

/-- One engine, made from the configuration. The outer `none` is an error in the configuration, the inner one a transform that
    fails, so that the events are discarded. -/
def engine (mk : Name → List (Name × Value) → Option (Step τ V)) (loc : Location) (opts : Value) (x : Slice τ V) :
    Option (Option (Slice τ V)) :=
  (makeTransforms mk loc opts).map fun bs => Transform.apply (bs.map Built.transform) x

/-- Two engines, one after the other. -/
def engines (mk : Name → List (Name × Value) → Option (Step τ V)) (l1 l2 : Location) (o1 o2 : Value) (x : Slice τ V) :
    Option (Option (Slice τ V)) :=
  match makeTransforms mk l1 o1, makeTransforms mk l2 o2 with
  | some b1, some b2 => some ((Transform.apply (b1.map Built.transform) x).bind (Transform.apply (b2.map Built.transform)))
  | _, _ => none

/-- `vast import`: the source is in the client (import_command.cpp:58-59), the importer in the server (spawn_importer.cpp:40-41). -/
def importClient (mk : Name → List (Name × Value) → Option (Step τ V)) (client server : Value) (x : Slice τ V) :
    Option (Option (Slice τ V)) := engines mk .clientSource .serverImport client server x

/-- `vast spawn source`: the source is in the server, too (spawn_source.cpp:34-35). -/
def importNode (mk : Name → List (Name × Value) → Option (Step τ V)) (server : Value) (x : Slice τ V) :
    Option (Option (Slice τ V)) := engines mk .serverImport .serverImport server server x

/-- `vast export`: first the exporter (spawn_exporter.cpp:38-39), then the sink (make_sink.cpp:34). -/
def exportClient (mk : Name → List (Name × Value) → Option (Step τ V)) (server client : Value) (x : Slice τ V) :
    Option (Option (Slice τ V)) := engines mk .serverExport .clientSink server client x

end Verif.TransformConfig
