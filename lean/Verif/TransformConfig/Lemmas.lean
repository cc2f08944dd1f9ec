import Verif.TransformConfig.Spec
import Verif.Transform.Props
import Mathlib.Data.List.Forall2
/-! Helper lemmas about transforms from the configuration. -/
namespace Verif.TransformConfig
open Types (Name)
open Data (str)
open Transform (Step Slice)
open Spec

theorem texts_map (es : List Name) : texts (es.map .text) = some es := by
  induction es with
  | nil => rfl
  | cons e es ih => simp [texts, ih]

theorem readTrigger_value (t : Trigger) : readTrigger t.value = some (t.server, t.transform, t.events) := by
  have hne : (str "location" = str "events") = False ∧ (str "transform" = str "location") = False
      ∧ (str "transform" = str "events") = False := by decide
  have h1 : (Trigger.value t).key (str "location") = some (.text (if t.server then str "server" else str "client")) := by
    simp only [Trigger.value, Value.key, List.find?, hne, decide_false, decide_true, Option.map_some]
  have h2 : (Trigger.value t).key (str "transform") = some (.text t.transform) := by
    simp only [Trigger.value, Value.key, List.find?, decide_true, Option.map_some]
  have h3 : (Trigger.value t).key (str "events") = some (.list (t.events.map .text)) := by
    simp only [Trigger.value, Value.key, List.find?, hne, decide_false, decide_true, Option.map_some]
  show (match (Trigger.value t).key (str "location"), (Trigger.value t).key (str "transform"), (Trigger.value t).key (str "events") with
    | some (.text l), some (.text n), some (.list es) =>
      if l = str "server" then (texts es).map fun es => (true, n, es)
      else if l = str "client" then (texts es).map fun es => (false, n, es)
      else none
    | _, _, _ => none) = _
  rw [h1, h2, h3]
  simp only
  cases t.server
  · simp only [Bool.false_eq_true, if_false, texts_map, Option.map_some]
    rw [if_neg (by decide), if_pos trivial]
  · simp [texts_map]

theorem readTriggers_values (server : Bool) (ts : List Trigger) :
    readTriggers server (ts.map Trigger.value) = some ((ts.filter (·.server == server)).map fun t => (t.transform, t.events)) := by
  induction ts with
  | nil => rfl
  | cons t ts ih =>
    rw [List.map_cons, readTriggers, readTrigger_value, ih]
    cases server <;> cases h : t.server <;> simp [h]

theorem readSteps_values {S : Type} (mk : Name → List (Name × Value) → Option S) (ss : List StepConfig) (r : List S) :
    readSteps mk (ss.map stepValue) = some r ↔ ss.map (fun s => mk s.1 s.2) = r.map some := by
  induction ss generalizing r with
  | nil =>
    cases r with
    | nil => simp [readSteps]
    | cons a r => simp [readSteps]
  | cons s ss ih =>
    rw [List.map_cons]
    show ((mk s.1 s.2).bind fun x => (readSteps mk (ss.map stepValue)).map (x :: ·)) = some r ↔ _
    cases hm : mk s.1 s.2 with
    | none => cases r <;> simp [hm]
    | some x =>
      simp only [Option.bind_some, Option.map_eq_some_iff]
      cases r with
      | nil => simp
      | cons a r =>
        simp only [List.map_cons, List.cons.injEq, hm, Option.some.injEq]
        constructor
        · rintro ⟨q, hq, rfl, rfl⟩
          exact ⟨rfl, (ih q).mp hq⟩
        · rintro ⟨rfl, h⟩
          exact ⟨r, (ih r).mpr h, rfl, rfl⟩

/-- The values of the transforms. -/
def defsOf (c : Config) : List (Name × Value) := c.transforms.map fun t => (t.1, .list (t.2.map stepValue))

theorem key_defs (ts : List (Name × List StepConfig)) (h : (ts.map (·.1)).Nodup) (n : Name) (steps : List StepConfig)
    (hm : (n, steps) ∈ ts) : (Value.dict (ts.map fun t => (t.1, .list (t.2.map stepValue)))).key n = some (.list (steps.map stepValue)) := by
  induction ts with
  | nil => cases hm
  | cons t ts ih =>
    rw [List.map_cons, List.nodup_cons] at h
    rcases List.mem_cons.mp hm with rfl | hm
    · simp [Value.key]
    · have hne : t.1 ≠ n := fun e => h.1 (List.mem_map.mpr ⟨(n, steps), hm, e.symm⟩)
      have := ih h.2 hm
      simp only [Value.key, List.map_cons, List.find?_cons] at this ⊢
      rw [decide_eq_false hne]
      exact this

theorem key_defs_inv (ts : List (Name × List StepConfig)) (n : Name) (v : Value)
    (h : (Value.dict (ts.map fun t => (t.1, .list (t.2.map stepValue)))).key n = some v) :
    ∃ steps, (n, steps) ∈ ts ∧ v = .list (steps.map stepValue) := by
  rw [Value.key, Option.map_eq_some_iff] at h
  obtain ⟨⟨m, w⟩, hf, rfl⟩ := h
  have hm := List.mem_of_find?_eq_some hf
  have hn : m = n := by simpa using List.find?_some hf
  obtain ⟨t, ht, e⟩ := List.mem_map.mp hm
  cases e
  subst hn
  exact ⟨t.2, ht, rfl⟩

theorem build_iff {S : Type} (mk : Name → List (Name × Value) → Option S) (c : Config) (hn : c.Named) (ts : List Trigger) (bs : List (Built S)) :
    build mk (defsOf c) (ts.map fun t => (t.transform, t.events)) = some bs ↔ List.Forall₂ (Asks mk c) ts bs := by
  induction ts generalizing bs with
  | nil =>
    constructor
    · intro h
      cases h
      exact .nil
    · intro h
      cases h
      rfl
  | cons t ts ih =>
    rw [List.map_cons, build.eq_def]
    simp only
    constructor
    · intro h
      split at h
      · rename_i steps hk
        obtain ⟨ss, hss, e⟩ := key_defs_inv c.transforms t.transform _ hk
        cases e
        cases hr : readSteps mk (ss.map stepValue) with
        | none => rw [hr] at h; cases h
        | some r =>
          rw [hr, Option.bind_some, Option.map_eq_some_iff] at h
          obtain ⟨bs', hb, rfl⟩ := h
          exact .cons ⟨rfl, rfl, ss, hss, (readSteps_values mk ss r).mp hr⟩ ((ih bs').mp hb)
      · cases h
    · intro h
      cases h with
      | @cons _ b _ bs' ha hf =>
        obtain ⟨h1, h2, ss, hss, hmk⟩ := ha
        have := key_defs c.transforms hn t.transform ss hss
        rw [show (Value.dict (defsOf c)).key t.transform = _ from this]
        simp only
        rw [(readSteps_values mk ss b.steps).mpr hmk, Option.bind_some, (ih bs').mpr hf, Option.map_some]
        cases b
        simp only at h1 h2
        rw [h1, h2]

theorem path_transforms (c : Config) : c.value.path [str "vast", str "transforms"] = some (.dict (defsOf c)) := by
  simp [Config.value, Value.path, Value.key, defsOf]

theorem path_triggers (c : Config) (loc : Location) : c.value.path [str "vast", str "transform-triggers", loc.trigger.1] =
    some (.list ((match loc with | .serverImport | .clientSource => c.imports | .serverExport | .clientSink => c.exports).map Trigger.value)) := by
  have h1 : (str "transforms" = str "transform-triggers") = False := by decide
  have h2 : (str "import" = str "export") = False := by decide
  cases loc <;> simp [Config.value, Value.path, Value.key, Location.trigger, List.find?, h1, h2]

theorem at_eq (c : Config) (loc : Location) :
    (match loc with | .serverImport | .clientSource => c.imports | .serverExport | .clientSink => c.exports).filter
      (·.server == loc.trigger.2) = c.at loc := by
  cases loc <;> simp [Config.at, Location.trigger]

theorem make_value {S : Type} (mk : Name → List (Name × Value) → Option S) (c : Config) (loc : Location) :
    makeTransforms mk loc c.value = build mk (defsOf c) ((c.at loc).map fun t => (t.transform, t.events)) := by
  rw [makeTransforms, path_triggers]
  simp only
  rw [readTriggers_values, at_eq, path_transforms]
  simp only [Option.bind_some]
  cases hc : c.at loc with
  | nil => rfl
  | cons t ts =>
    simp only [List.map_cons, List.isEmpty_cons, Bool.false_eq_true, if_false]
    rw [if_pos]
    rw [List.all_eq_true]
    intro v hv
    obtain ⟨w, _, rfl⟩ := List.mem_map.mp hv
    rfl

theorem texts_all {es : List Value} {r : List Name} (h : texts es = some r) : ∀ e ∈ es, ∃ s, e = .text s := by
  induction es generalizing r with
  | nil => intro e he; cases he
  | cons v vs ih =>
    cases v with
    | text s =>
      rw [texts, Option.map_eq_some_iff] at h
      obtain ⟨q, hq, _⟩ := h
      intro e he
      rcases List.mem_cons.mp he with rfl | he
      · exact ⟨s, rfl⟩
      · exact ih hq e he
    | list _ => cases h
    | dict _ => cases h
    | other => cases h

theorem readTrigger_wf {v : Value} {r : Bool × Name × List Name} (h : readTrigger v = some r) : WellFormed v := by
  rw [readTrigger.eq_def] at h
  split at h
  · split at h
    · rename_i l n es h1 h2 h3
      split at h
      · rename_i hl
        rw [Option.map_eq_some_iff] at h
        obtain ⟨q, hq, _⟩ := h
        exact ⟨l, n, es, h1, .inl hl, h2, h3, texts_all hq⟩
      · split at h
        · rename_i hl
          rw [Option.map_eq_some_iff] at h
          obtain ⟨q, hq, _⟩ := h
          exact ⟨l, n, es, h1, .inr hl, h2, h3, texts_all hq⟩
        · cases h
    · cases h
  · cases h

theorem readTriggers_wf {server : Bool} {vs : List Value} {r : List (Name × List Name)} (h : readTriggers server vs = some r) :
    ∀ v ∈ vs, WellFormed v := by
  induction vs generalizing r with
  | nil => intro v hv; cases hv
  | cons v vs ih =>
    rw [readTriggers.eq_def] at h
    simp only at h
    split at h
    · cases h
    · rename_i hr
      rw [Option.map_eq_some_iff] at h
      obtain ⟨q, hq, _⟩ := h
      intro w hw
      rcases List.mem_cons.mp hw with rfl | hw
      · exact readTrigger_wf hr
      · exact ih hq w hw

theorem readSteps_made {S : Type} {mk : Name → List (Name × Value) → Option S} {vs : List Value} {ss : List S}
    (h : readSteps mk vs = some ss) : List.Forall₂ (fun v s => ∃ name opts, v = .dict [(name, .dict opts)] ∧ mk name opts = some s) vs ss := by
  induction vs generalizing ss with
  | nil => cases h; exact .nil
  | cons v vs ih =>
    rw [readSteps.eq_def] at h
    simp only at h
    split at h
    · rename_i name opts
      rw [Option.bind_eq_some_iff] at h
      obtain ⟨s, h1, h⟩ := h
      rw [Option.map_eq_some_iff] at h
      obtain ⟨q, hq, rfl⟩ := h
      exact .cons ⟨name, opts, rfl, h1⟩ (ih hq)
    · cases h

theorem build_made {S : Type} {mk : Name → List (Name × Value) → Option S} {defs : List (Name × Value)} {ts : List (Name × List Name)}
    {bs : List (Built S)} (h : build mk defs ts = some bs) : ∀ b ∈ bs, ∃ items, (Value.dict defs).key b.name = some (.list items)
      ∧ List.Forall₂ (fun v s => ∃ name opts, v = .dict [(name, .dict opts)] ∧ mk name opts = some s) items b.steps := by
  induction ts generalizing bs with
  | nil => cases h; intro b hb; cases hb
  | cons t ts ih =>
    rw [build.eq_def] at h
    simp only at h
    split at h
    · rename_i steps hk
      rw [Option.bind_eq_some_iff] at h
      obtain ⟨ss, h1, h⟩ := h
      rw [Option.map_eq_some_iff] at h
      obtain ⟨q, hq, rfl⟩ := h
      intro b hb
      rcases List.mem_cons.mp hb with rfl | hb
      · exact ⟨steps, hk, readSteps_made h1⟩
      · exact ih hq b hb
    · cases h

/-! ## Engines -/

variable {τ V : Type}

theorem built_made (b : Built (Step τ V)) : Transform.Spec.Made b.transform ∧ b.transform.events = b.events ∧ b.transform.steps = b.steps := by
  have key : ∀ (ss : List (Step τ V)) (t : Transform.Transform τ V), Transform.Spec.Made t →
      Transform.Spec.Made (ss.foldl (·.addStep ·) t) ∧ (ss.foldl (·.addStep ·) t).events = t.events
        ∧ (ss.foldl (·.addStep ·) t).steps = t.steps ++ ss := by
    intro ss
    induction ss with
    | nil => intro t h; exact ⟨h, rfl, by simp⟩
    | cons s ss ih =>
      intro t h
      obtain ⟨h1, h2, h3⟩ := ih (t.addStep s) (.addStep s h)
      exact ⟨h1, h2, by rw [List.foldl_cons, h3]; simp [Transform.Transform.addStep]⟩
  obtain ⟨h1, h2, h3⟩ := key b.steps (.make b.events) (.make _)
  exact ⟨h1, h2, h3⟩

theorem foldl_none {ss : List (Step τ V)} : ss.foldl (fun acc s => acc.bind s) none = none := by
  induction ss with
  | nil => rfl
  | cons s ss ih => exact ih

theorem inOrder_eq (ss : List (Step τ V)) (x : Slice τ V) : Transform.Spec.inOrder ss x = ss.foldl (fun acc s => acc.bind s) (some x) := by
  induction ss generalizing x with
  | nil => rfl
  | cons s ss ih =>
    rw [Transform.Spec.inOrder, List.foldl_cons, Option.bind_some]
    cases hs : s x with
    | none => rw [foldl_none]; rfl
    | some y => exact ih y

theorem inOrder_gentle {ss : List (Step τ V)} (h : ∀ s ∈ ss, Gentle s) : Gentle (Transform.Spec.inOrder ss) := by
  induction ss with
  | nil => intro x y e; cases e; exact ⟨rfl, rfl⟩
  | cons s ss ih =>
    intro x y e
    rw [Transform.Spec.inOrder, Option.bind_eq_some_iff] at e
    obtain ⟨z, hz, hy⟩ := e
    have h1 := h s List.mem_cons_self x z hz
    have h2 := ih (fun s hs => h s (List.mem_cons_of_mem _ hs)) z y hy
    exact ⟨h2.1.trans h1.1, h2.2.trans h1.2⟩

theorem inOrder_append (ss ts : List (Step τ V)) (x : Slice τ V) :
    Transform.Spec.inOrder (ss ++ ts) x = (Transform.Spec.inOrder ss x).bind (Transform.Spec.inOrder ts) := by
  induction ss generalizing x with
  | nil => rfl
  | cons s ss ih =>
    rw [List.cons_append, Transform.Spec.inOrder, Transform.Spec.inOrder]
    cases s x with
    | none => rfl
    | some y => exact ih y

/-- With gentle steps, the checks of names and rows do not matter. -/
theorem inOrder_transforms (bs : List (Built (Step τ V))) (h : ∀ b ∈ bs, ∀ s ∈ b.steps, Gentle s) (n : Nat) (x : Slice τ V)
    (hx : ∀ b ∈ bs, x.name ∈ b.events) (hn : x.rows.length = n) :
    Transform.Spec.inOrder ((bs.map Built.transform).map fun t => Transform.Spec.sameRows n (Transform.Spec.run t)) x
      = Transform.Spec.inOrder (bs.flatMap (·.steps)) x := by
  induction bs generalizing x with
  | nil => rfl
  | cons b bs ih =>
    obtain ⟨_, he, hs⟩ := built_made b
    have hb := h b List.mem_cons_self
    rw [List.map_cons, List.map_cons, Transform.Spec.inOrder, List.flatMap_cons, inOrder_append]
    have h1 : Transform.Spec.sameRows n (Transform.Spec.run b.transform) x = Transform.Spec.inOrder b.steps x := by
      rw [Transform.Spec.sameRows, Transform.Spec.run, he, hs, if_pos (hx b List.mem_cons_self)]
      cases hi : Transform.Spec.inOrder b.steps x with
      | none => rfl
      | some y =>
        rw [Option.bind_some, if_pos]
        rw [(inOrder_gentle hb x y hi).2, hn]
    rw [h1]
    cases hi : Transform.Spec.inOrder b.steps x with
    | none => rfl
    | some y =>
      have hg := inOrder_gentle hb x y hi
      exact ih (fun b hb => h b (List.mem_cons_of_mem _ hb)) y (fun b hb => hg.1 ▸ hx b (List.mem_cons_of_mem _ hb)) (hg.2.trans hn)

theorem filter_map_transform (bs : List (Built (Step τ V))) (type : Name) :
    (bs.map Built.transform).filter (fun t => type ∈ t.events) = (bs.filter (fun b => type ∈ b.events)).map Built.transform := by
  induction bs with
  | nil => rfl
  | cons b bs ih =>
    have he := (built_made b).2.1
    by_cases h : type ∈ b.events
    · rw [List.map_cons, List.filter_cons_of_pos (by simpa [he] using h), List.filter_cons_of_pos (by simpa using h), List.map_cons, ih]
    · rw [List.map_cons, List.filter_cons_of_neg (by simpa [he] using h), List.filter_cons_of_neg (by simpa using h), ih]

/-- One engine, for transforms that all have steps. -/
theorem apply_built (bs : List (Built (Step τ V))) (h : ∀ b ∈ bs, b.events.Nodup ∧ b.steps ≠ [] ∧ ∀ s ∈ b.steps, Gentle s) (x : Slice τ V) :
    Transform.apply (bs.map Built.transform) x = phase ((bs.filter fun b => x.name ∈ b.events).flatMap (·.steps)) x := by
  by_cases hm : ∃ b ∈ bs, x.name ∈ b.events
  · obtain ⟨b, hb, hx⟩ := hm
    rw [Transform.C52_composition_partial]
    · rw [filter_map_transform, inOrder_transforms, phase, inOrder_eq]
      · intro b hb
        exact (h b (List.mem_filter.mp hb).1).2.2
      · intro b hb
        simpa using (List.mem_filter.mp hb).2
      · rfl
    · intro t ht
      obtain ⟨b, _, rfl⟩ := List.mem_map.mp ht
      exact (built_made b).1
    · intro t ht
      obtain ⟨b, hb, rfl⟩ := List.mem_map.mp ht
      rw [(built_made b).2.1]
      exact (h b hb).1
    · exact ⟨b.transform, List.mem_map_of_mem hb, by rw [(built_made b).2.1]; exact hx, by rw [(built_made b).2.2]; exact (h b hb).2.1⟩
  · have hn : ∀ b ∈ bs, x.name ∉ b.events := fun b hb h => hm ⟨b, hb, h⟩
    rw [Transform.C52_other_types]
    · have : bs.filter (fun b => x.name ∈ b.events) = [] := by
        rw [List.filter_eq_nil_iff]
        intro b hb
        simpa using hn b hb
      rw [this]
      rfl
    · intro t ht
      obtain ⟨b, hb, rfl⟩ := List.mem_map.mp ht
      rw [(built_made b).2.1]
      exact hn b hb

theorem filter_name {ts : List (Name × List StepConfig)} (h : (ts.map (·.1)).Nodup) {n : Name} {ss : List StepConfig} (hm : (n, ss) ∈ ts) :
    (ts.filter (·.1 = n)).flatMap (·.2) = ss := by
  induction ts with
  | nil => cases hm
  | cons t ts ih =>
    rw [List.map_cons, List.nodup_cons] at h
    rcases List.mem_cons.mp hm with rfl | hm
    · rw [List.filter_cons_of_pos (by simp)]
      have : ts.filter (·.1 = n) = [] := by
        rw [List.filter_eq_nil_iff]
        intro t ht
        simp only [decide_eq_true_eq]
        intro e
        exact h.1 (List.mem_map.mpr ⟨t, ht, e⟩)
      rw [this]
      simp
    · rw [List.filter_cons_of_neg, ih h.2 hm]
      simp only [decide_eq_true_eq]
      intro e
      exact h.1 (List.mem_map.mpr ⟨(n, ss), hm, e.symm⟩)

theorem filterMap_some {α β : Type} {f : α → Option β} {xs : List α} {ys : List β} (h : xs.map f = ys.map some) : xs.filterMap f = ys := by
  induction xs generalizing ys with
  | nil => cases ys <;> simp_all
  | cons x xs ih =>
    cases ys with
    | nil => simp at h
    | cons y ys =>
      simp only [List.map_cons, List.cons.injEq] at h
      rw [List.filterMap_cons, h.1, ih h.2]

theorem steps_asked (mk : Name → List (Name × Value) → Option (Step τ V)) (c : Config) (hn : c.Named) (type : Name) (ts : List Trigger)
    (bs : List (Built (Step τ V))) (h : List.Forall₂ (Asks mk c) ts bs) :
    (bs.filter fun b => type ∈ b.events).flatMap (·.steps) = (ts.filter (type ∈ ·.events)).flatMap fun t =>
      ((c.transforms.filter (·.1 = t.transform)).flatMap (·.2)).filterMap fun s => mk s.1 s.2 := by
  induction h with
  | nil => rfl
  | @cons t b ts bs ha _ ih =>
    obtain ⟨_, he, ss, hss, hmk⟩ := ha
    by_cases hm : type ∈ t.events
    · rw [List.filter_cons_of_pos (by simpa [he] using hm), List.filter_cons_of_pos (by simpa using hm), List.flatMap_cons, List.flatMap_cons,
        ih, filter_name hn hss, filterMap_some hmk]
    · rw [List.filter_cons_of_neg (by simpa [he] using hm), List.filter_cons_of_neg (by simpa using hm), ih]

theorem complete_builds (mk : Name → List (Name × Value) → Option (Step τ V)) (c : Config) (loc : Location) (h : c.Complete mk loc) :
    ∃ bs, makeTransforms mk loc c.value = some bs ∧ ∀ x, Transform.apply (bs.map Built.transform) x = phase (stepsFor mk c loc x.name) x := by
  have key : ∀ ts : List Trigger, (∀ t ∈ ts, t.events.Nodup ∧ ∃ steps, (t.transform, steps) ∈ c.transforms ∧ steps ≠ []
      ∧ ∀ s ∈ steps, ∃ step, mk s.1 s.2 = some step ∧ Gentle step) →
      ∃ bs, List.Forall₂ (Asks mk c) ts bs ∧ ∀ b ∈ bs, b.events.Nodup ∧ b.steps ≠ [] ∧ ∀ s ∈ b.steps, Gentle s := by
    intro ts
    induction ts with
    | nil => exact fun _ => ⟨[], .nil, by simp⟩
    | cons t ts ih =>
      intro h
      obtain ⟨bs, h1, h2⟩ := ih (fun t ht => h t (List.mem_cons_of_mem _ ht))
      obtain ⟨hd, ss, hss, hne, hmk⟩ := h t List.mem_cons_self
      have : ∀ ss : List StepConfig, (∀ s ∈ ss, ∃ step, mk s.1 s.2 = some step ∧ Gentle step) →
          ∃ r : List (Step τ V), ss.map (fun s => mk s.1 s.2) = r.map some ∧ ∀ s ∈ r, Gentle s := by
        intro ss
        induction ss with
        | nil => exact fun _ => ⟨[], rfl, by simp⟩
        | cons s ss ih =>
          intro h
          obtain ⟨r, h1, h2⟩ := ih (fun s hs => h s (List.mem_cons_of_mem _ hs))
          obtain ⟨step, h3, h4⟩ := h s List.mem_cons_self
          refine ⟨step :: r, by rw [List.map_cons, List.map_cons, h1, h3], ?_⟩
          intro q hq
          rcases List.mem_cons.mp hq with rfl | hq
          · exact h4
          · exact h2 q hq
      obtain ⟨r, hr, hg⟩ := this ss hmk
      refine ⟨⟨t.transform, t.events, r⟩ :: bs, .cons ⟨rfl, rfl, ss, hss, hr⟩ h1, ?_⟩
      intro b hb
      rcases List.mem_cons.mp hb with rfl | hb
      · refine ⟨hd, ?_, hg⟩
        rintro rfl
        cases ss with
        | nil => exact hne rfl
        | cons _ _ => simp at hr
      · exact h2 b hb
  obtain ⟨bs, h1, h2⟩ := key (c.at loc) h.2
  refine ⟨bs, ?_, ?_⟩
  · rw [make_value]
    exact (build_iff mk c h.1 _ bs).mpr h1
  · intro x
    rw [apply_built bs h2, steps_asked mk c h.1 x.name _ bs h1]
    rfl

end Verif.TransformConfig
