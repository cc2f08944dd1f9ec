import Verif.TransformConfig.Lemmas
/-! # C120 and C121: transforms from the configuration -/
namespace Verif.TransformConfig
open Types (Name)
open Data (str)
open Transform (Step Slice)
open Spec

/-- Two kinds of steps, for examples. -/
def sampleSteps (name : Name) (_ : List (Name × Value)) : Option (Step Nat Nat) :=
  if name = str "increment" then some Transform.increment else if name = str "keep" then some some else none

/-- A configuration: for the import, one transform in the client and one in the server; for the export, one in the server. -/
def sample : Config where
  imports := [⟨false, str "plain", [str "a", str "b"]⟩, ⟨true, str "more", [str "a"]⟩]
  exports := [⟨true, str "plain", [str "b"]⟩]
  transforms := [(str "plain", [(str "keep", [])]), (str "more", [(str "keep", []), (str "increment", [])])]

/-- **C120.** From a configuration of the form of vast/integration/vast-transforms.yaml, a location gets exactly the transforms whose triggers name it: one
for each trigger, in their order, for the events that it names, with the steps of the transform that it names; and if and only if
these transforms and all their steps exist. -/
theorem C120_config {S : Type} (mk : Name → List (Name × Value) → Option S) (c : Config) (hn : c.Named) (loc : Location) (bs : List (Built S)) :
    makeTransforms mk loc c.value = some bs ↔ List.Forall₂ (Asks mk c) (c.at loc) bs := by
  rw [make_value]
  exact build_iff mk c hn _ bs

example : sample.Named := by unfold Config.Named; decide +kernel

example : ((makeTransforms sampleSteps .serverImport sample.value).map fun bs => bs.map fun b => (b.name, b.events, b.steps.length))
    = some [(str "more", [str "a"], 2)] := by decide +kernel

example : ((makeTransforms sampleSteps .clientSource sample.value).map fun bs => bs.map fun b => (b.name, b.events, b.steps.length))
    = some [(str "plain", [str "a", str "b"], 1)] := by decide +kernel

example : (makeTransforms (fun _ _ => (none : Option Nat)) .serverImport sample.value).isNone := by decide +kernel

/-- **C120.** Whatever the configuration looks like, a list of triggers is accepted only if all of them are as they must be, also those
for another location.  What is missing: the rest of the configuration, see `C120_misspelt_refuted` and `C120_unused_refuted`. -/
theorem C120_triggers_partial {S : Type} (mk : Name → List (Name × Value) → Option S) (opts : Value) (loc : Location) (items : List Value)
    (bs : List (Built S)) (hp : opts.path [str "vast", str "transform-triggers", loc.trigger.1] = some (.list items))
    (h : makeTransforms mk loc opts = some bs) : ∀ v ∈ items, WellFormed v := by
  rw [makeTransforms, hp] at h
  simp only at h
  cases hr : readTriggers loc.trigger.2 items with
  | none => rw [hr] at h; cases h
  | some r => exact readTriggers_wf hr

example : sample.value.path [str "vast", str "transform-triggers", Location.serverImport.trigger.1]
    = some (.list (sample.imports.map Trigger.value)) := path_triggers sample .serverImport

/-- **C120.** Whatever the configuration looks like, every transform that is made is in it under its name, as a list in which every
element is a step as it must be, and these are the steps, in their order: none is left out.  What is missing: as above. -/
theorem C120_steps_partial {S : Type} (mk : Name → List (Name × Value) → Option S) (opts : Value) (loc : Location) (bs : List (Built S))
    (h : makeTransforms mk loc opts = some bs) : ∀ b ∈ bs, ∃ items,
      opts.path [str "vast", str "transforms", b.name] = some (.list items)
      ∧ List.Forall₂ (fun v s => ∃ name o, v = .dict [(name, .dict o)] ∧ mk name o = some s) items b.steps := by
  intro b hb
  rw [makeTransforms] at h
  split at h
  · rw [Option.bind_eq_some_iff] at h
    obtain ⟨ts, -, h⟩ := h
    split at h
    · cases h; cases hb
    · split at h
      · rename_i defs hp
        split at h
        · obtain ⟨items, h1, h2⟩ := build_made h b hb
          refine ⟨items, ?_, h2⟩
          simp only [Value.path] at hp ⊢
          cases hv : opts.key (str "vast") with
          | none => rw [hv] at hp; cases hp
          | some v =>
            rw [hv] at hp
            simp only [Option.bind_some] at hp ⊢
            cases ht : v.key (str "transforms") with
            | none => rw [ht] at hp; cases hp
            | some w =>
              rw [ht] at hp
              simp only [Option.bind_some] at hp ⊢
              cases hp
              rw [h1]
              rfl
        · cases h
      · cases h
  · cases h; cases hb

example : (makeTransforms sampleSteps .serverImport sample.value).isSome := by decide +kernel

/-- **C120, refuted.** If the triggers are not a list, then they are ignored, without an error. -/
theorem C120_misspelt_refuted {S : Type} (mk : Name → List (Name × Value) → Option S) (loc : Location) : ∃ t : Trigger,
    makeTransforms mk loc (.dict [(str "vast", .dict [(str "transform-triggers", .dict [(loc.trigger.1, t.value)])])]) = some [] := by
  refine ⟨⟨true, str "more", [str "a"]⟩, ?_⟩
  have hp : (Value.dict [(str "vast", .dict [(str "transform-triggers", .dict [(loc.trigger.1,
      (⟨true, str "more", [str "a"]⟩ : Trigger).value)])])]).path [str "vast", str "transform-triggers", loc.trigger.1]
      = some (⟨true, str "more", [str "a"]⟩ : Trigger).value := by simp [Value.path, Value.key]
  rw [makeTransforms, hp]
  rfl

/-- **C120, refuted.** A location does not notice that a trigger for another location names a transform that does not exist. -/
theorem C120_unused_refuted {S : Type} (mk : Name → List (Name × Value) → Option S) : ∃ c : Config, c.Named
    ∧ makeTransforms mk .serverExport c.value = some [] ∧ makeTransforms mk .clientSink c.value = none := by
  refine ⟨⟨[], [⟨false, str "x", []⟩], []⟩, by simp [Config.Named], ?_, ?_⟩
  · rw [make_value]; rfl
  · rw [make_value]; rfl

variable {τ V : Type}

/-- **C121.** `vast import`: an event runs through the steps that the client's configuration has for its type in the client, and then
through those that the server's has in the server: each step once, in the order of the triggers.  What is missing: transforms without
steps, event types that are named twice, and steps that change the type of events, see C52. -/
theorem C121_import_partial (mk : Name → List (Name × Value) → Option (Step τ V)) (client server : Config)
    (hc : client.Complete mk .clientSource) (hs : server.Complete mk .serverImport) (x : Slice τ V) :
    importClient mk client.value server.value x =
      some ((phase (stepsFor mk client .clientSource x.name) x).bind fun y => phase (stepsFor mk server .serverImport y.name) y) := by
  obtain ⟨b1, h1, e1⟩ := complete_builds mk client .clientSource hc
  obtain ⟨b2, h2, e2⟩ := complete_builds mk server .serverImport hs
  rw [importClient, engines, h1, h2]
  simp only
  rw [e1]
  congr 2
  funext y
  exact e2 y

/-- **C121.** `vast export`: first the steps in the server, then those in the client. -/
theorem C121_export_partial (mk : Name → List (Name × Value) → Option (Step τ V)) (client server : Config)
    (hs : server.Complete mk .serverExport) (hc : client.Complete mk .clientSink) (x : Slice τ V) :
    exportClient mk server.value client.value x =
      some ((phase (stepsFor mk server .serverExport x.name) x).bind fun y => phase (stepsFor mk client .clientSink y.name) y) := by
  obtain ⟨b1, h1, e1⟩ := complete_builds mk server .serverExport hs
  obtain ⟨b2, h2, e2⟩ := complete_builds mk client .clientSink hc
  rw [exportClient, engines, h1, h2]
  simp only
  rw [e1]
  congr 2
  funext y
  exact e2 y

theorem sample_complete (loc : Location) : sample.Complete sampleSteps loc := by
  have hk : Gentle (some : Step Nat Nat) := by intro x y h; cases h; exact ⟨rfl, rfl⟩
  have hi : Gentle Transform.increment := by
    intro x y h
    cases h
    exact ⟨rfl, by simp⟩
  have h1 : ∀ s ∈ ([(str "keep", []), (str "increment", [])] : List StepConfig), ∃ step, sampleSteps s.1 s.2 = some step ∧ Gentle step := by
    intro s hs
    rcases List.mem_cons.mp hs with rfl | hs
    · exact ⟨some, by rw [sampleSteps, if_neg (by decide), if_pos rfl], hk⟩
    · rw [List.mem_singleton] at hs
      subst hs
      exact ⟨_, by rw [sampleSteps, if_pos rfl], hi⟩
  have h2 : ∀ t ∈ sample.imports ++ sample.exports, t.events.Nodup ∧ ∃ steps, (t.transform, steps) ∈ sample.transforms ∧ steps ≠ []
      ∧ ∀ s ∈ steps, ∃ step, sampleSteps s.1 s.2 = some step ∧ Gentle step := by
    intro t ht
    simp only [sample, List.cons_append, List.nil_append, List.mem_cons, List.not_mem_nil, or_false] at ht
    rcases ht with rfl | rfl | rfl
    · exact ⟨by decide +kernel, [(str "keep", [])], by simp [sample], by simp, fun s hs => h1 s (by simp at hs; simp [hs])⟩
    · exact ⟨by decide +kernel, [(str "keep", []), (str "increment", [])], by simp [sample], by simp, h1⟩
    · exact ⟨by decide +kernel, [(str "keep", [])], by simp [sample], by simp, fun s hs => h1 s (by simp at hs; simp [hs])⟩
  refine ⟨by unfold Config.Named; decide +kernel, ?_⟩
  intro t ht
  refine h2 t ?_
  rw [List.mem_append]
  cases loc <;> simp only [Config.at] at ht <;> first | exact .inl (List.mem_filter.mp ht).1 | exact .inr (List.mem_filter.mp ht).1

example : sample.Complete sampleSteps .clientSource ∧ sample.Complete sampleSteps .serverImport ∧ sample.Complete sampleSteps .serverExport
    ∧ sample.Complete sampleSteps .clientSink := ⟨sample_complete _, sample_complete _, sample_complete _, sample_complete _⟩

/-- An event of type `a`. -/
def event : Slice Nat Nat := ⟨str "a", .cons [98] (.leaf 0) .nil, [[0]], 7⟩

example : (importClient sampleSteps sample.value sample.value event).map (·.map (·.rows)) = some (some [[1]]) := by decide +kernel

/-- **C121.** `vast spawn source`: if the configuration of the server has no transform for the type of the event, then it stays as it
is.  What is missing: types with a transform, see `C121_twice_refuted`. -/
theorem C121_node_partial (mk : Name → List (Name × Value) → Option (Step τ V)) (server : Config) (hs : server.Complete mk .serverImport)
    (x : Slice τ V) (hx : ∀ t ∈ server.at .serverImport, x.name ∉ t.events) : importNode mk server.value x = some (some x) := by
  obtain ⟨b, h, e⟩ := complete_builds mk server .serverImport hs
  have hf : (server.at .serverImport).filter (fun t => x.name ∈ t.events) = [] := by
    rw [List.filter_eq_nil_iff]
    intro t ht
    simpa using hx t ht
  have : phase (stepsFor mk server .serverImport x.name) x = some x := by rw [stepsFor, hf]; rfl
  rw [importNode, engines, h]
  simp only
  rw [e, this, Option.bind_some, e, this]

example : ∀ t ∈ sample.at .serverImport, str "b" ∉ t.events := by
  intro t ht
  simp [Config.at, sample] at ht
  subst ht
  decide +kernel

/-- **C121, refuted.** Events of a source in the node run through the transforms of the server twice: in the source, and in the
importer.  From `vast import` they do so once. -/
theorem C121_twice_refuted : ∃ (c : Config) (mk : Name → List (Name × Value) → Option (Step Nat Nat)) (x : Slice Nat Nat),
    c.Complete mk .serverImport ∧ c.at .clientSource = [] ∧ x.rows = [[0]]
    ∧ (importClient mk c.value c.value x).map (·.map (·.rows)) = some (some [[1]])
    ∧ (importNode mk c.value x).map (·.map (·.rows)) = some (some [[2]]) := by
  refine ⟨{ sample with imports := [⟨true, str "more", [str "a"]⟩] }, sampleSteps, event, ⟨(sample_complete .serverImport).1, ?_⟩, rfl, rfl,
    by decide +kernel, by decide +kernel⟩
  intro t ht
  exact (sample_complete .serverImport).2 t (by simpa [Config.at, sample] using ht)

end Verif.TransformConfig
