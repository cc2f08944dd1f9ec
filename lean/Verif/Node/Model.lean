import Mathlib.Data.Nat.Digits.Defs
/-!
# The node and its components

Models libvast/src/system/component_registry.cpp and the parts of libvast/src/system/node.cpp that start, register, remove and watch
components: `is_core_component`, `is_singleton` (84-116), `register_component`, `deregister_component` (190-217), `kill_command`
(334-361), `generate_label`, `spawn_command` (465-570), the handler for DOWN messages (586-599), that `tearing_down` is set and the
registry cleared at the exit (600-676; see C108 for the rest), and the handler for `atom::put` (738-753).

Simplifications: whether a component can be started at all is a parameter of the event; the expression of a query is not modelled, and
`disable-taxonomies` is not set; the components of plugins (685-706) are left out.  `terminate` for a killed component is C108's.  CAF delivers one DOWN message for a monitored actor, at
once if it is gone already; `demonitor` does not take back a DOWN message that is in the mailbox.  Strings are lists of character
codes.
-/
namespace Verif.Node

/-- A string, as character codes. -/
abbrev Name := List Nat

/-- Literals. -/
def str (s : String) : Name := s.toList.map Char.toNat

/-- `std::to_string`. -/
def decimal (n : Nat) : Name := if n = 0 then [48] else ((Nat.digits 10 n).map (48 + ·)).reverse

/-- Actors: those that the node starts, and others. -/
inductive Actor where
  | own (n : Nat)
  | ext (n : Nat)
deriving DecidableEq

/-- An entry of the registry: the label, the actor and the type. -/
structure Component where
  label : Name
  actor : Actor
  type : Name
deriving DecidableEq

/-- node.cpp:86-87. -/
def core : List Name := [str "archive", str "filesystem", str "importer", str "index"]

/-- node.cpp:109-111. -/
def singletons : List Name :=
  [str "accountant", str "archive", str "disk-monitor", str "eraser", str "filesystem", str "importer", str "index", str "type-registry"]

/-- node.cpp:546. -/
def queries : List Name := [str "counter", str "exporter"]

/-- The state of the node.
* `registry`: the map of components; `counters`: for the labels
* `next`: the number of actors that the node has started; `gone`: the actors that have ended
* `monitors`: the actors that the node watches; `downs`: DOWN messages in its mailbox
* `resolving`: queries that wait for the answer of the type registry, with their types and labels
* `tearing`: the node is shutting down; `exits`: it has sent itself an EXIT message
* `fault`: an assertion was violated
* `failed`: the components that were started but could not be registered -/
structure State where
  registry : List Component
  counters : Name → Nat
  next : Nat
  gone : List Actor
  monitors : List Actor
  downs : List Actor
  resolving : List (Name × Name)
  tearing : Bool
  exits : Bool
  fault : Bool
  failed : List Component

/-- At first there is only the file system (node.cpp:581-585). -/
def initial : State :=
  { registry := [⟨str "filesystem", .own 0, str "filesystem"⟩], counters := fun _ => 0, next := 1, gone := [], monitors := [.own 0],
    downs := [], resolving := [], tearing := false, exits := false, fault := false, failed := [] }

/-- What happens. -/
inductive Event where
  /-- `spawn` of a type, maybe with a label; whether the component can be started. -/
  | spawn (type : Name) (label : Option Name) (ok : Bool)
  /-- The type registry answers for one of the queries that wait. -/
  | resolved (i : Nat) (ok : Bool)
  /-- A component that was started elsewhere is registered. -/
  | put (n : Nat) (type : Name)
  | kill (label : Name)
  /-- An actor ends. -/
  | gone (a : Actor)
  /-- A DOWN message is handled. -/
  | down (a : Actor)
  /-- The node shuts down. -/
  | exit

/-- Is there a component with this label? (component_registry.cpp:68-73) -/
def State.has (s : State) (label : Name) : Bool := s.registry.any (·.label = label)

/-- `register_component` (node.cpp:190-203) with `add` (component_registry.cpp:17-31). -/
def State.register (s : State) (c : Component) : State :=
  if s.registry.any (·.actor = c.actor) then { s with fault := true }
  else if s.has c.label then { s with failed := c :: s.failed }
  else if c.actor ∈ s.gone then { s with registry := s.registry ++ [c], downs := s.downs ++ [c.actor] }
  else { s with registry := s.registry ++ [c], monitors := c.actor :: s.monitors }

/-- `spawn_actually` (node.cpp:521-538). -/
def State.start (s : State) (type label : Name) (ok : Bool) : State :=
  if ok then { s with next := s.next + 1 }.register ⟨label, .own s.next, type⟩ else s

/-- `generate_label` (node.cpp:465-470). -/
def State.generate (s : State) (type : Name) : State × Name :=
  ({ s with counters := fun t => if t = type then s.counters t + 1 else s.counters t }, type ++ 45 :: decimal (s.counters type))

/-- node.cpp:539-569: queries wait for the type registry if there is one. -/
def State.launch (s : State) (type label : Name) (ok : Bool) : State :=
  if type ∈ queries ∧ s.has (str "type-registry") then { s with resolving := s.resolving ++ [(type, label)] }
  else s.start type label ok

/-- `spawn_command` (node.cpp:472-570). -/
def State.spawn (s : State) (type : Name) (label : Option Name) (ok : Bool) : State :=
  if s.tearing then s
  else match label with
    | some l => if l = [] then s else if s.has l then s else s.launch type l ok
    | none => if type ∈ singletons then s.launch type type ok else (s.generate type).1.launch type (s.generate type).2 ok

/-- The handler for DOWN messages (node.cpp:586-599). -/
def State.down (s : State) (a : Actor) : State :=
  if s.tearing then s
  else match s.registry.find? (·.actor = a) with
    | none => { s with fault := true }
    | some c => { s with registry := s.registry.erase c, exits := s.exits || decide (c.type ∈ core) }

/-- `find<Handles...>` (component_registry.hpp:90-118): a component is looked for by the name of its type, among the labels. -/
def State.lookup (s : State) (type : Name) : Option Component := s.registry.find? (·.label = type)

/-- One event: `atom::put` is node.cpp:738-753, `kill` node.cpp:334-361. -/
def step (s : State) : Event → State
  | .spawn type label ok => s.spawn type label ok
  | .resolved i ok => match s.resolving[i]? with
    | none => s
    | some (type, label) => { s with resolving := s.resolving.eraseIdx i }.start type label ok
  | .put n type =>
    if type = [] then s
    else if type ∈ singletons ∧ s.has type then s
    else (s.generate type).1.register ⟨(s.generate type).2, .ext n, type⟩
  | .kill label => match s.registry.find? (·.label = label) with
    | none => s
    | some c => { s with registry := s.registry.erase c, monitors := s.monitors.erase c.actor }
  | .gone a =>
    if a ∈ s.gone then s
    else if a ∈ s.monitors then { s with gone := a :: s.gone, monitors := s.monitors.erase a, downs := s.downs ++ [a] }
    else { s with gone := a :: s.gone }
  | .down a => if a ∈ s.downs then { s with downs := s.downs.erase a }.down a else s
  | .exit => { s with tearing := true, registry := [] }

/-- One event after the other. -/
def run (es : List Event) : State := es.foldl step initial

end Verif.Node
