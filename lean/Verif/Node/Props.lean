import Verif.Node.DownLemmas
/-!
# C118 and C119: the node knows its components, and reacts to their end
-/
namespace Verif.Node
open Spec (Generated OwnLabels PlainSingletons Orderly NoImpostor)

/-- A node with an index, a type registry, a source, a source with a label, and an exporter that waits for the type registry. -/
def someEvents : List Event :=
  [.spawn (str "index") none true, .spawn (str "type-registry") none true, .spawn (str "source") none true,
   .spawn (str "source") (some (str "zeek")) true, .spawn (str "exporter") none true]

/-- **C118.** Whatever happens, no two components in the registry have the same label, and no actor is there twice. -/
theorem C118_distinct (es : List Event) (c d : Component) (hc : c ∈ (run es).registry) (hd : d ∈ (run es).registry)
    (h : c.label = d.label ∨ c.actor = d.actor) : c = d := by
  rcases h with h | h
  · exact nodup_map_inj (run_distinct es).labels hc hd h
  · exact nodup_map_inj (run_distinct es).actors hc hd h

example : (run someEvents).registry = [⟨str "filesystem", .own 0, str "filesystem"⟩, ⟨str "index", .own 1, str "index"⟩,
    ⟨str "type-registry", .own 2, str "type-registry"⟩, ⟨str "source-0", .own 3, str "source"⟩, ⟨str "zeek", .own 4, str "source"⟩] := by
  decide +kernel

/-- **C118.** Every component that the node starts gets into the registry, unless it is one of those that exist once, or a query with a
label from a user.  What is missing: labels from users that look like those the node makes, see `C118_label_refuted`; for the exceptions
see `C118_second_refuted` and `C118_race_refuted`. -/
theorem C118_registered_partial (es : List Event) (h : OwnLabels es) (c : Component) (hc : c ∈ (run es).failed) :
    ¬ Generated c.label ∧ (c.type ∈ singletons ∨ c.type ∈ queries) := by
  have hg := (run_labels es h).failed c hc
  refine ⟨hg, ?_⟩
  rcases (run_fails es).failed c hc with h | h | h
  · exact .inl h
  · exact .inr h
  · exact absurd h hg

theorem not_generated {l : Name} (h : ∀ c, l.getLast? = some c → ¬ (48 ≤ c ∧ c ≤ 57)) : ¬ Generated l := by
  intro hg
  obtain ⟨c, hc, hr⟩ := generated_last hg
  exact h c hc hr

example : OwnLabels someEvents := by
  intro type l ok h
  simp [someEvents] at h
  obtain ⟨_, rfl, _⟩ := h
  exact not_generated (by
    intro c hc
    have : (str "zeek").getLast? = some 107 := by decide +kernel
    rw [this] at hc
    cases hc
    omega)

example : (run (someEvents ++ [.spawn (str "index") none true])).failed ≠ [] := by decide +kernel

/-- **C118, refuted.** After a user has called a component `source-0`, the first source without a label is started, but not
registered: the user gets an error, and the source goes on. -/
theorem C118_label_refuted : ∃ es a, (run es).failed = [⟨str "source-0", a, str "source"⟩] ∧ a ∉ (run es).gone ∧ (run es).fault = false :=
  ⟨[.spawn (str "source") (some (str "source-0")) true, .spawn (str "source") none true], .own 2, by decide +kernel, by decide +kernel,
    by decide +kernel⟩

/-- **C118, refuted.** Two exporters with the same label both pass the check for duplicates, while they wait for the type registry.  The
second one is started, but not registered. -/
theorem C118_race_refuted : ∃ es a, (run es).failed = [⟨str "mine", a, str "exporter"⟩] ∧ a ∉ (run es).gone ∧ (run es).fault = false :=
  ⟨[.spawn (str "type-registry") none true, .spawn (str "exporter") (some (str "mine")) true,
    .spawn (str "exporter") (some (str "mine")) true, .resolved 0 true, .resolved 0 true], .own 3, by decide +kernel, by decide +kernel,
    by decide +kernel⟩

/-- **C118.** Of each of the types that exist once, there is at most one component in the registry.  What is missing: labels for them,
see `C118_given_refuted`, and components that are registered from elsewhere, see `C118_put_refuted`. -/
theorem C118_singleton_partial (es : List Event) (h : PlainSingletons es) (c d : Component) (hc : c ∈ (run es).registry)
    (hd : d ∈ (run es).registry) (ht : c.type = d.type) (hs : c.type ∈ singletons) : c = d := by
  have hi := run_single es h
  refine nodup_map_inj (run_distinct es).labels hc hd ?_
  show c.label = d.label
  rw [hi.registry c hc hs, hi.registry d hd (ht ▸ hs), ht]

example : PlainSingletons someEvents := by
  refine ⟨?_, ?_⟩
  · intro type l ok h
    simp [someEvents] at h
    obtain ⟨rfl, _, _⟩ := h
    decide +kernel
  · intro n type h
    simp [someEvents] at h

/-- **C118, refuted.** A second index is started before the node finds out that there is one, and goes on although it could not be
registered. -/
theorem C118_second_refuted : ∃ es a b, ⟨str "index", a, str "index"⟩ ∈ (run es).registry ∧ ⟨str "index", b, str "index"⟩ ∈ (run es).failed
    ∧ a ≠ b ∧ a ∉ (run es).gone ∧ b ∉ (run es).gone :=
  ⟨[.spawn (str "index") none true, .spawn (str "index") none true], .own 1, .own 2, by decide +kernel, by decide +kernel,
    by decide +kernel, by decide +kernel, by decide +kernel⟩

/-- **C118, refuted.** With a label, there can be a second index in the registry. -/
theorem C118_given_refuted : ∃ es c d, c ∈ (run es).registry ∧ d ∈ (run es).registry ∧ c ≠ d ∧ c.type = str "index" ∧ d.type = str "index" :=
  ⟨[.spawn (str "index") none true, .spawn (str "index") (some (str "second")) true], ⟨str "index", .own 1, str "index"⟩,
    ⟨str "second", .own 2, str "index"⟩, by decide +kernel, by decide +kernel, by decide +kernel, rfl, rfl⟩

/-- **C118, refuted.** Components from elsewhere get a label with a number, even if they should exist once, so that there can be two. -/
theorem C118_put_refuted : ∃ es c d, c ∈ (run es).registry ∧ d ∈ (run es).registry ∧ c ≠ d ∧ c.type = str "index" ∧ d.type = str "index" :=
  ⟨[.put 0 (str "index"), .put 1 (str "index")], ⟨str "index-0", .ext 0, str "index"⟩, ⟨str "index-1", .ext 1, str "index"⟩,
    by decide +kernel, by decide +kernel, by decide +kernel, rfl, rfl⟩

/-- **C118.** Who looks for the component of a type that exists once does not get another one.  What is missing: users who call a
component so, see `C118_lookup_refuted`. -/
theorem C118_lookup_partial (es : List Event) (h : NoImpostor es) (type : Name) (ht : type ∈ singletons) (c : Component)
    (hc : (run es).lookup type = some c) : c ∈ (run es).registry ∧ c.type = type := by
  have hm := List.mem_of_find?_eq_some hc
  have hl : c.label = type := by simpa using List.find?_some hc
  refine ⟨hm, ?_⟩
  rw [← hl]
  exact (run_named es h).registry c hm (hl ▸ ht)

example : NoImpostor someEvents := by
  intro type l ok h
  simp [someEvents] at h
  obtain ⟨_, rfl, _⟩ := h
  decide +kernel

example : (run someEvents).lookup (str "index") = some ⟨str "index", .own 1, str "index"⟩ := by decide +kernel

/-- **C118, refuted.** A source that a user calls `archive` is what others get who look for the archive. -/
theorem C118_lookup_refuted : ∃ es c, (run es).lookup (str "archive") = some c ∧ c.type = str "source" :=
  ⟨[.spawn (str "source") (some (str "archive")) true], ⟨str "archive", .own 1, str "source"⟩, by decide +kernel, rfl⟩

/-- **C118, refuted.** While the node shuts down no component is started, except for queries that were waiting: an exporter is started
and registered after the registry has been cleared, so that nobody ends it. -/
theorem C118_exit_refuted : ∃ es c, (run es).tearing = true ∧ c ∈ (run es).registry ∧ c.actor ∉ (run es).gone :=
  ⟨[.spawn (str "type-registry") none true, .spawn (str "exporter") none true, .exit, .resolved 0 true],
    ⟨str "exporter-0", .own 2, str "exporter"⟩, by decide +kernel, by decide +kernel, by decide +kernel⟩

/-- **C119.** When the node has handled all DOWN messages, all components in its registry are alive. -/
theorem C119_alive (es : List Event) (ht : (run es).tearing = false) (hd : (run es).downs = []) (c : Component)
    (hc : c ∈ (run es).registry) : c.actor ∉ (run es).gone := by
  intro hg
  have := (run_watched es ht c hc).2 hg
  rw [hd] at this
  cases this

example : (run (someEvents ++ [.gone (.own 3), .down (.own 3)])).tearing = false
    ∧ (run (someEvents ++ [.gone (.own 3), .down (.own 3)])).downs = []
    ∧ (run (someEvents ++ [.gone (.own 3), .down (.own 3)])).registry.map (·.label) =
      [str "filesystem", str "index", str "type-registry", str "zeek"] := by decide +kernel

/-- **C119.** A component stays in the registry as long as it is alive, nobody kills it, and the node does not shut down. -/
theorem C119_kept (es more : List Event) (c : Component) (hc : c ∈ (run es).registry) (hk : .kill c.label ∉ more) (hx : .exit ∉ more)
    (hg : c.actor ∉ (run (es ++ more)).gone) : c ∈ (run (es ++ more)).registry := by
  induction more using List.reverseRecOn with
  | nil => rw [List.append_nil]; exact hc
  | append_singleton more e ih =>
    rw [← List.append_assoc, run_append] at hg ⊢
    have hg' : c.actor ∉ (run (es ++ more)).gone := fun h => hg (gone_mono _ e _ h)
    have := ih (fun h => hk (List.mem_append_left _ h)) (fun h => hx (List.mem_append_left _ h)) hg'
    exact step_keeps (run_ended _) this e (fun h => hk (by simp [h])) (fun h => hx (by simp [h])) hg'

example : (⟨str "zeek", .own 4, str "source"⟩ : Component) ∈ (run someEvents).registry := by decide +kernel

/-- **C119.** No assertion about the registry is violated.  What is missing: a component that is killed after it has ended, before the
node has handled that, see `C119_kill_refuted`, and one that is registered twice, see `C119_twice_refuted`. -/
theorem C119_fault_partial (es : List Event) (h : Orderly es) : (run es).fault = false := (run_clean es h).fault

theorem orderly_simple {es : List Event} (hk : ∀ l, .kill l ∉ es) (hp : ∀ n t, .put n t ∉ es) : Orderly es := by
  intro before after he
  refine ⟨fun l rest hr => absurd ?_ (hk l), fun n t rest hr => absurd ?_ (hp n t)⟩ <;> rw [he, hr] <;> simp

example : Orderly (someEvents ++ [.gone (.own 3), .down (.own 3)]) :=
  orderly_simple (by simp [someEvents]) (by simp [someEvents])

/-- **C119, refuted.** If a component ends, and a user kills it before the node has handled the DOWN message, then the node does not
find it when it does, although it relies on that. -/
theorem C119_kill_refuted : ∃ es, (∀ n t, .put n t ∉ es) ∧ (run es).fault = true :=
  ⟨someEvents ++ [.gone (.own 3), .kill (str "source-0"), .down (.own 3)], by simp [someEvents], by decide +kernel⟩

/-- **C119, refuted.** An actor that is registered twice violates an assertion. -/
theorem C119_twice_refuted : ∃ es, (∀ l, .kill l ∉ es) ∧ (run es).fault = true :=
  ⟨[.put 0 (str "source"), .put 0 (str "source")], by simp, by decide +kernel⟩

/-- **C119.** When the node handles the end of one of its core components, it shuts down. -/
theorem C119_core (es : List Event) (ht : (run es).tearing = false) (c : Component) (hc : c ∈ (run es).registry) (hk : c.type ∈ core)
    (hd : c.actor ∈ (run es).downs) : (run (es ++ [.down c.actor])).exits = true := by
  rw [run_append, step, if_pos hd, State.down, if_neg (by simp [ht])]
  have hs : ((run es).registry.find? (·.actor = c.actor)) = some c := by
    cases hf : (run es).registry.find? (·.actor = c.actor) with
    | none => exact absurd (by simp) (List.find?_eq_none.mp hf c hc)
    | some d =>
      obtain ⟨hm, he⟩ := find_actor hf
      rw [nodup_map_inj (run_distinct es).actors hm hc he]
  simp [hs, hk]

example : (run (someEvents ++ [.gone (.own 1)])).tearing = false
    ∧ (⟨str "index", .own 1, str "index"⟩ : Component) ∈ (run (someEvents ++ [.gone (.own 1)])).registry
    ∧ str "index" ∈ core ∧ Actor.own 1 ∈ (run (someEvents ++ [.gone (.own 1)])).downs := by decide +kernel

/-- **C119.** And for the end of no other component. -/
theorem C119_only (es : List Event) (h : (run es).exits = true) : ∃ before after c, es = before ++ .down c.actor :: after
    ∧ c ∈ (run before).registry ∧ c.type ∈ core ∧ c.actor ∈ (run before).gone := by
  induction es using List.reverseRecOn with
  | nil => simp [run, initial] at h
  | append_singleton es e ih =>
    rw [run_append] at h
    rcases step_exits _ _ h with h | ⟨c, hc, hk, hd, rfl, _⟩
    · obtain ⟨before, after, c, he, h1⟩ := ih h
      exact ⟨before, after ++ [e], c, by rw [he]; simp, h1⟩
    · exact ⟨es, [], c, rfl, hc, hk, run_ended es _ hd⟩

example : (run (someEvents ++ [.gone (.own 1), .down (.own 1)])).exits = true := by decide +kernel

/-- **C119, refuted.** When a user kills the index, the node goes on without one: it does not shut down, and no DOWN message will tell
it. -/
theorem C119_core_refuted : ∃ es c, c ∈ (run es).registry ∧ c.type ∈ core ∧ (run (es ++ [.kill c.label, .gone c.actor])).exits = false
    ∧ (run (es ++ [.kill c.label, .gone c.actor])).tearing = false ∧ (run (es ++ [.kill c.label, .gone c.actor])).downs = []
    ∧ ∀ d ∈ (run (es ++ [.kill c.label, .gone c.actor])).registry, d.type ≠ c.type :=
  ⟨someEvents, ⟨str "index", .own 1, str "index"⟩, by decide +kernel, by decide +kernel, by decide +kernel, by decide +kernel,
    by decide +kernel, by decide +kernel⟩

end Verif.Node
