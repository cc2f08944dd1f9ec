import Verif.Node.Lemmas
/-! Helper lemmas about the end of components. -/
namespace Verif.Node
open Spec (Orderly)

/-- DOWN messages are about actors that have ended. -/
def Ended (s : State) : Prop := ∀ a ∈ s.downs, a ∈ s.gone

/-- The node watches what it has registered, or has been told. -/
def Watched (s : State) : Prop :=
  s.tearing = false → ∀ c ∈ s.registry, (c.actor ∉ s.gone → c.actor ∈ s.monitors) ∧ (c.actor ∈ s.gone → c.actor ∈ s.downs)

theorem Ended.register {s : State} (h : Ended s) (c : Component) : Ended (s.register c) := by
  refine register_cases s c Ended (fun _ => h) (fun _ _ => h) (fun _ _ hg => ?_) (fun _ _ _ => h)
  intro a ha
  rcases List.mem_append.mp ha with ha | ha
  · exact h a ha
  · rw [List.mem_singleton] at ha
    subst ha
    exact hg

theorem Watched.register {s : State} (h : Watched s) (c : Component) : Watched (s.register c) := by
  refine register_cases s c Watched (fun _ => h) (fun _ _ => h) (fun _ _ hg => ?_) (fun _ _ hg => ?_)
  · intro ht d hd
    rcases List.mem_append.mp hd with hd | hd
    · exact ⟨(h ht d hd).1, fun hh => List.mem_append_left _ ((h ht d hd).2 hh)⟩
    · rw [List.mem_singleton] at hd
      subst hd
      exact ⟨fun hh => absurd hg hh, fun _ => List.mem_append_right _ (by simp)⟩
  · intro ht d hd
    rcases List.mem_append.mp hd with hd | hd
    · exact ⟨fun hh => List.mem_cons_of_mem _ ((h ht d hd).1 hh), (h ht d hd).2⟩
    · rw [List.mem_singleton] at hd
      subst hd
      exact ⟨fun _ => List.mem_cons_self, fun hh => absurd hh hg⟩

/-- What holds for registering holds for `start` and `launch`, if it does not depend on what else they change. -/
theorem launch_of {P : State → Prop} (hP : ∀ s c, P s → P (s.register c)) (hn : ∀ s : State, P s → P { s with next := s.next + 1 })
    (hq : ∀ (s : State) rs, P s → P { s with resolving := rs }) {s : State} (h : P s) (type label : Name) (ok : Bool) :
    P (s.launch type label ok) := by
  rw [State.launch]
  split
  · exact hq s _ h
  · rw [State.start]
    split
    · exact hP _ _ (hn s h)
    · exact h

/-- What holds for registering holds for whatever starts components. -/
theorem starts_of {P : State → Prop} (hP : ∀ s c, P s → P (s.register c)) (hn : ∀ s : State, P s → P { s with next := s.next + 1 })
    (hq : ∀ (s : State) rs, P s → P { s with resolving := rs }) (hc : ∀ (s : State) cs, P s → P { s with counters := cs })
    {s : State} (h : P s) :
    (∀ type label ok, P (step s (.spawn type label ok))) ∧ (∀ i ok, P (step s (.resolved i ok))) ∧ ∀ n type, P (step s (.put n type)) := by
  refine ⟨fun type label ok => ?_, fun i ok => ?_, fun n type => ?_⟩
  · rw [step, State.spawn.eq_def]
    split
    · exact h
    · split
      · split
        · exact h
        · split
          · exact h
          · exact launch_of hP hn hq h _ _ _
      · split
        · exact launch_of hP hn hq h _ _ _
        · exact launch_of hP hn hq (hc s _ h) _ _ _
  · rw [step]
    split
    · exact h
    · rw [State.start]
      split
      · exact hP _ _ (hn _ (hq s _ h))
      · exact hq s _ h
  · rw [step]
    split
    · exact h
    · split
      · exact h
      · exact hP _ _ (hc s _ h)

theorem Ended.step {s : State} (h : Ended s) (e : Event) : Ended (step s e) := by
  obtain ⟨h1, h2, h3⟩ := starts_of (P := Ended) (fun s c h => h.register c) (fun _ h => h) (fun _ _ h => h) (fun _ _ h => h) h
  cases e with
  | spawn type label ok => exact h1 type label ok
  | resolved i ok => exact h2 i ok
  | put n type => exact h3 n type
  | kill label =>
    rw [Node.step]
    split <;> exact h
  | gone a =>
    rw [Node.step]
    split
    · exact h
    · split
      · intro b hb
        rcases List.mem_append.mp hb with hb | hb
        · exact List.mem_cons_of_mem _ (h b hb)
        · rw [List.mem_singleton] at hb
          subst hb
          exact List.mem_cons_self
      · exact fun b hb => List.mem_cons_of_mem _ (h b hb)
  | down a =>
    rw [Node.step]
    split
    · have h' : ∀ b ∈ s.downs.erase a, b ∈ s.gone := fun b hb => h b (List.mem_of_mem_erase hb)
      rw [State.down]
      split
      · exact h'
      · split <;> exact h'
    · exact h
  | exit => exact h

theorem run_ended (es : List Event) : Ended (run es) := by
  induction es using List.reverseRecOn with
  | nil => intro a ha; simp [run, initial] at ha
  | append_singleton es e ih => rw [run_append]; exact ih.step e

theorem ne_of_erase {s : State} (hd : Distinct s) {c d : Component} (hc : c ∈ s.registry) (h : d ∈ s.registry.erase c) :
    d.actor ≠ c.actor := by
  intro e
  have hm := List.mem_of_mem_erase h
  have := nodup_map_inj hd.actors hm hc e
  subst this
  have hn : s.registry.Nodup := hd.actors.of_map _
  exact (List.Nodup.not_mem_erase hn) h

theorem find_actor {s : State} {a : Actor} {c : Component} (h : s.registry.find? (·.actor = a) = some c) :
    c ∈ s.registry ∧ c.actor = a := ⟨List.mem_of_find?_eq_some h, by simpa using List.find?_some h⟩

theorem Watched.step {s : State} (hd : Distinct s) (h : Watched s) (e : Event) : Watched (step s e) := by
  obtain ⟨h1, h2, h3⟩ := starts_of (P := Watched) (fun s c h => h.register c) (fun _ h => h) (fun _ _ h => h) (fun _ _ h => h) h
  cases e with
  | spawn type label ok => exact h1 type label ok
  | resolved i ok => exact h2 i ok
  | put n type => exact h3 n type
  | kill label =>
    rw [Node.step]
    split
    · exact h
    · rename_i c hc
      have hc' := List.mem_of_find?_eq_some hc
      intro ht d hm
      have := h ht d (List.mem_of_mem_erase hm)
      exact ⟨fun hg => (List.mem_erase_of_ne (ne_of_erase hd hc' hm)).mpr (this.1 hg), this.2⟩
  | gone a =>
    rw [Node.step]
    split
    · exact h
    · rename_i hg
      split
      · rename_i hm
        intro ht d hd'
        have := h ht d hd'
        constructor
        · intro hn
          have hne : d.actor ≠ a := fun e => hn (e ▸ List.mem_cons_self)
          exact (List.mem_erase_of_ne hne).mpr (this.1 (fun h => hn (List.mem_cons_of_mem _ h)))
        · intro hh
          rcases List.mem_cons.mp hh with hh | hh
          · exact List.mem_append_right _ (by simp [hh])
          · exact List.mem_append_left _ (this.2 hh)
      · rename_i hm
        intro ht d hd'
        have := h ht d hd'
        refine ⟨fun hn => this.1 (fun h => hn (List.mem_cons_of_mem _ h)), fun hh => ?_⟩
        rcases List.mem_cons.mp hh with hh | hh
        · rw [← hh] at hm hg
          exact absurd (this.1 hg) hm
        · exact this.2 hh
  | down a =>
    rw [Node.step]
    split
    · rw [State.down]
      split
      · rename_i ht
        intro ht'
        exact absurd ht (by simpa using ht')
      · split
        · rename_i hf
          intro ht d hm
          have hne : d.actor ≠ a := by simpa using List.find?_eq_none.mp hf d hm
          have := h ht d hm
          exact ⟨this.1, fun hg => (List.mem_erase_of_ne hne).mpr (this.2 hg)⟩
        · rename_i c hf
          obtain ⟨hc, ha⟩ := find_actor (s := s) hf
          intro ht d hm
          have hne : d.actor ≠ a := ha ▸ ne_of_erase hd hc hm
          have := h ht d (List.mem_of_mem_erase hm)
          exact ⟨this.1, fun hg => (List.mem_erase_of_ne hne).mpr (this.2 hg)⟩
    · exact h
  | exit => intro _ c hc; simp [Node.step] at hc

theorem run_watched (es : List Event) : Watched (run es) := by
  induction es using List.reverseRecOn with
  | nil => intro _ c hc; simp [run, initial] at hc ⊢; simp [hc]
  | append_singleton es e ih => rw [run_append]; exact ih.step (run_distinct es) e

/-! ## No assertion fails -/

structure Clean (s : State) : Prop where
  fault : s.fault = false
  own : ∀ c ∈ s.registry, ∀ k, c.actor = .own k → k < s.next
  downs : s.tearing = false → ∀ a ∈ s.downs, ∃ c ∈ s.registry, c.actor = a
  monitors : s.tearing = false → ∀ a ∈ s.monitors, ∃ c ∈ s.registry, c.actor = a
  downs1 : s.tearing = false → s.downs.Nodup
  monitors1 : s.tearing = false → s.monitors.Nodup
  disjoint : s.tearing = false → ∀ a ∈ s.monitors, a ∉ s.downs
  alive : s.tearing = false → ∀ a ∈ s.monitors, a ∉ s.gone

theorem Clean.register {s : State} (h : Clean s) (c : Component) (hc : ∀ d ∈ s.registry, d.actor ≠ c.actor)
    (ho : ∀ k, c.actor = .own k → k < s.next) : Clean (s.register c) := by
  refine register_cases s c Clean (fun ⟨d, hd, e⟩ => absurd e (hc d hd)) (fun _ _ => ⟨h.1, h.2, h.3, h.4, h.5, h.6, h.7, h.8⟩)
    (fun _ _ hg => ?_) (fun _ _ hg => ?_)
  · have hnd : s.tearing = false → c.actor ∉ s.downs := fun ht hm => by
      obtain ⟨d, hd, e⟩ := h.downs ht _ hm
      exact hc d hd e
    refine ⟨h.fault, ?_, ?_, ?_, ?_, h.monitors1, ?_, h.alive⟩
    · intro d hd
      rcases List.mem_append.mp hd with hd | hd
      · exact h.own d hd
      · rw [List.mem_singleton] at hd; subst hd; exact ho
    · intro ht a ha
      rcases List.mem_append.mp ha with ha | ha
      · obtain ⟨d, hd, e⟩ := h.downs ht a ha
        exact ⟨d, List.mem_append_left _ hd, e⟩
      · rw [List.mem_singleton] at ha
        exact ⟨c, List.mem_append_right _ (by simp), ha.symm⟩
    · intro ht a ha
      obtain ⟨d, hd, e⟩ := h.monitors ht a ha
      exact ⟨d, List.mem_append_left _ hd, e⟩
    · intro ht
      rw [List.nodup_append]
      refine ⟨h.downs1 ht, by simp, ?_⟩
      intro x hx y hy
      rw [List.mem_singleton] at hy
      subst hy
      intro e
      exact hnd ht (e ▸ hx)
    · intro ht a ha hm
      rcases List.mem_append.mp hm with hm | hm
      · exact h.disjoint ht a ha hm
      · rw [List.mem_singleton] at hm
        obtain ⟨d, hd, e⟩ := h.monitors ht a ha
        exact hc d hd (e.trans hm)
  · refine ⟨h.fault, ?_, ?_, ?_, h.downs1, ?_, ?_, ?_⟩
    · intro d hd
      rcases List.mem_append.mp hd with hd | hd
      · exact h.own d hd
      · rw [List.mem_singleton] at hd; subst hd; exact ho
    · intro ht a ha
      obtain ⟨d, hd, e⟩ := h.downs ht a ha
      exact ⟨d, List.mem_append_left _ hd, e⟩
    · intro ht a ha
      rcases List.mem_cons.mp ha with rfl | ha
      · exact ⟨c, List.mem_append_right _ (by simp), rfl⟩
      · obtain ⟨d, hd, e⟩ := h.monitors ht a ha
        exact ⟨d, List.mem_append_left _ hd, e⟩
    · intro ht
      rw [List.nodup_cons]
      refine ⟨fun hm => ?_, h.monitors1 ht⟩
      obtain ⟨d, hd, e⟩ := h.monitors ht _ hm
      exact hc d hd e
    · intro ht a ha hm
      rcases List.mem_cons.mp ha with rfl | ha
      · obtain ⟨d, hd, e⟩ := h.downs ht _ hm
        exact hc d hd e
      · exact h.disjoint ht a ha hm
    · intro ht a ha
      rcases List.mem_cons.mp ha with rfl | ha
      · exact hg
      · exact h.alive ht a ha

theorem Clean.start {s : State} (h : Clean s) (type label : Name) (ok : Bool) : Clean (s.start type label ok) := by
  rw [State.start]
  split
  · refine Clean.register (s := { s with next := s.next + 1 })
      ⟨h.fault, fun c hc k e => Nat.lt_succ_of_lt (h.own c hc k e), h.downs, h.monitors, h.downs1, h.monitors1, h.disjoint, h.alive⟩ _ ?_ ?_
    · intro d hd e
      exact Nat.lt_irrefl _ (h.own d hd _ e)
    · intro k e
      have e : Actor.own s.next = .own k := e
      cases e
      exact Nat.lt_succ_self _
  · exact h

theorem Clean.launch {s : State} (h : Clean s) (type label : Name) (ok : Bool) : Clean (s.launch type label ok) := by
  rw [State.launch]
  split
  · exact ⟨h.1, h.2, h.3, h.4, h.5, h.6, h.7, h.8⟩
  · exact h.start _ _ _

theorem Clean.step {s : State} (hd : Distinct s) (h : Clean s) (e : Event)
    (hk : ∀ label, e = .kill label → ∀ c ∈ s.registry, c.label = label → c.actor ∉ s.downs)
    (hp : ∀ n type, e = .put n type → ∀ c ∈ s.registry, c.actor ≠ .ext n) : Clean (step s e) := by
  cases e with
  | spawn type label ok =>
    rw [Node.step, State.spawn.eq_def]
    split
    · exact h
    · split
      · split
        · exact h
        · split
          · exact h
          · exact h.launch _ _ _
      · split
        · exact h.launch _ _ _
        · exact Clean.launch (s := (s.generate type).1) ⟨h.1, h.2, h.3, h.4, h.5, h.6, h.7, h.8⟩ _ _ _
  | resolved i ok =>
    rw [Node.step]
    split
    · exact h
    · exact Clean.start (s := { s with resolving := s.resolving.eraseIdx i }) ⟨h.1, h.2, h.3, h.4, h.5, h.6, h.7, h.8⟩ _ _ _
  | put n type =>
    rw [Node.step]
    split
    · exact h
    · split
      · exact h
      · exact Clean.register (s := (s.generate type).1) ⟨h.1, h.2, h.3, h.4, h.5, h.6, h.7, h.8⟩ _ (hp n type rfl)
          (fun k e => by cases e)
  | kill label =>
    rw [Node.step]
    split
    · exact h
    · rename_i c hf
      have hc := List.mem_of_find?_eq_some hf
      have hl : c.label = label := by simpa using List.find?_some hf
      have hnd := hk label rfl c hc hl
      have keep : ∀ a, a ≠ c.actor → (∃ d ∈ s.registry, d.actor = a) → ∃ d ∈ s.registry.erase c, d.actor = a := by
        rintro a ha ⟨d, hd', e⟩
        exact ⟨d, (List.mem_erase_of_ne (fun e' => ha (by rw [← e, e']))).mpr hd', e⟩
      refine ⟨h.fault, fun d hd' => h.own d (List.mem_of_mem_erase hd'), ?_, ?_, h.downs1, fun ht => (h.monitors1 ht).erase _, ?_, ?_⟩
      · intro ht a ha
        exact keep a (fun e => hnd (e ▸ ha)) (h.downs ht a ha)
      · intro ht a ha
        refine keep a (fun e => ?_) (h.monitors ht a (List.mem_of_mem_erase ha))
        rw [e] at ha
        exact List.Nodup.not_mem_erase (h.monitors1 ht) ha
      · exact fun ht a ha => h.disjoint ht a (List.mem_of_mem_erase ha)
      · exact fun ht a ha => h.alive ht a (List.mem_of_mem_erase ha)
  | gone a =>
    rw [Node.step]
    split
    · exact h
    · split
      · rename_i hg hm
        refine ⟨h.fault, h.own, ?_, fun ht b hb => h.monitors ht b (List.mem_of_mem_erase hb), ?_, fun ht => (h.monitors1 ht).erase _, ?_, ?_⟩
        · intro ht b hb
          rcases List.mem_append.mp hb with hb | hb
          · exact h.downs ht b hb
          · rw [List.mem_singleton] at hb
            subst hb
            exact h.monitors ht b hm
        · intro ht
          rw [List.nodup_append]
          refine ⟨h.downs1 ht, by simp, ?_⟩
          intro x hx y hy
          rw [List.mem_singleton] at hy
          subst hy
          intro e
          exact h.disjoint ht y hm (e ▸ hx)
        · intro ht b hb hb'
          rcases List.mem_append.mp hb' with hb' | hb'
          · exact h.disjoint ht b (List.mem_of_mem_erase hb) hb'
          · rw [List.mem_singleton] at hb'
            subst hb'
            exact List.Nodup.not_mem_erase (h.monitors1 ht) hb
        · intro ht b hb hb'
          rcases List.mem_cons.mp hb' with rfl | hb'
          · exact List.Nodup.not_mem_erase (h.monitors1 ht) hb
          · exact h.alive ht b (List.mem_of_mem_erase hb) hb'
      · rename_i hg hm
        refine ⟨h.fault, h.own, h.downs, h.monitors, h.downs1, h.monitors1, h.disjoint, ?_⟩
        intro ht b hb hb'
        rcases List.mem_cons.mp hb' with rfl | hb'
        · exact hm hb
        · exact h.alive ht b hb hb'
  | down a =>
    rw [Node.step]
    split
    · rename_i ha
      rw [State.down]
      split
      · rename_i ht
        have hf : ∀ {P : Prop}, s.tearing = false → P := fun h => absurd ht (by simpa using h)
        exact ⟨h.fault, h.own, fun h => hf h, fun h => hf h, fun h => hf h, fun h => hf h, fun h => hf h, fun h => hf h⟩
      · rename_i ht
        have ht' : s.tearing = false := by simpa using ht
        split
        · rename_i hf
          obtain ⟨c, hc, e⟩ := h.downs ht' a ha
          exact absurd e (by simpa using List.find?_eq_none.mp hf c hc)
        · rename_i c hf
          obtain ⟨hc, e⟩ := find_actor (s := s) hf
          have keep : ∀ b, b ≠ a → (∃ d ∈ s.registry, d.actor = b) → ∃ d ∈ s.registry.erase c, d.actor = b := by
            rintro b hb ⟨d, hd', e'⟩
            exact ⟨d, (List.mem_erase_of_ne (fun e'' => hb (by rw [← e', e'', e]))).mpr hd', e'⟩
          refine ⟨h.fault, fun d hd' => h.own d (List.mem_of_mem_erase hd'), ?_, ?_, fun ht => (h.downs1 ht).erase _, h.monitors1, ?_, h.alive⟩
          · intro ht b hb
            refine keep b (fun e' => ?_) (h.downs ht b (List.mem_of_mem_erase hb))
            rw [e'] at hb
            exact List.Nodup.not_mem_erase (h.downs1 ht) hb
          · intro ht b hb
            refine keep b (fun e' => ?_) (h.monitors ht b hb)
            rw [e'] at hb
            exact h.disjoint ht a hb ha
          · exact fun ht b hb hm => h.disjoint ht b hb (List.mem_of_mem_erase hm)
    · exact h
  | exit =>
    have hf : ∀ {P : Prop}, true = false → P := fun h => by cases h
    exact ⟨h.fault, by simp [Node.step], fun h => hf h, fun h => hf h, fun h => hf h, fun h => hf h, fun h => hf h, fun h => hf h⟩

theorem run_clean (es : List Event) (h : Orderly es) : Clean (run es) := by
  induction es using List.reverseRecOn with
  | nil =>
    refine ⟨rfl, ?_, ?_, ?_, ?_, ?_, ?_, ?_⟩ <;> simp [run, initial]
  | append_singleton es e ih =>
    rw [run_append]
    have hk := h es [e] rfl
    refine (ih ?_).step (run_distinct es) e ?_ ?_
    · intro before after he
      have := h before (after ++ [e]) (by rw [he, List.append_assoc])
      refine ⟨fun label rest hr => this.1 label (rest ++ [e]) (by rw [hr]; rfl), fun n t rest hr => this.2 n t (rest ++ [e]) (by rw [hr]; rfl)⟩
    · rintro label rfl
      exact hk.1 label [] rfl
    · rintro n t rfl
      exact hk.2 n t [] rfl

/-! ## Components stay, and the node ends with its core -/

theorem register_keeps {s : State} {c d : Component} (h : d ∈ s.registry) : d ∈ (s.register c).registry :=
  register_cases s c (fun s' => d ∈ s'.registry) (fun _ => h) (fun _ _ => h) (fun _ _ _ => List.mem_append_left _ h)
    (fun _ _ _ => List.mem_append_left _ h)

theorem step_keeps {s : State} (he : Ended s) {d : Component} (h : d ∈ s.registry) (e : Event) (hk : e ≠ .kill d.label) (hx : e ≠ .exit)
    (hd : d.actor ∉ s.gone) : d ∈ (step s e).registry := by
  obtain ⟨h1, h2, h3⟩ := starts_of (P := fun s => d ∈ s.registry) (fun s c h => register_keeps h) (fun _ h => h) (fun _ _ h => h)
    (fun _ _ h => h) h
  cases e with
  | spawn type label ok => exact h1 type label ok
  | resolved i ok => exact h2 i ok
  | put n type => exact h3 n type
  | kill label =>
    rw [Node.step]
    split
    · exact h
    · rename_i c hf
      have hl : c.label = label := by simpa using List.find?_some hf
      exact (List.mem_erase_of_ne (fun e => hk (by rw [e, hl]))).mpr h
  | gone a =>
    rw [Node.step]
    split
    · exact h
    · split <;> exact h
  | down a =>
    rw [Node.step]
    split
    · rename_i ha
      rw [State.down]
      split
      · exact h
      · split
        · exact h
        · rename_i c hf
          obtain ⟨_, e⟩ := find_actor (s := s) hf
          exact (List.mem_erase_of_ne (fun e' => hd (by rw [e', e]; exact he a ha))).mpr h
    · exact h
  | exit => exact absurd rfl hx

theorem register_gone (s : State) (c : Component) : (s.register c).gone = s.gone :=
  register_cases s c (fun s' => s'.gone = s.gone) (fun _ => rfl) (fun _ _ => rfl) (fun _ _ _ => rfl) (fun _ _ _ => rfl)

theorem gone_mono (s : State) (e : Event) : ∀ a ∈ s.gone, a ∈ (step s e).gone := by
  intro a h
  obtain ⟨h1, h2, h3⟩ := starts_of (P := fun s => a ∈ s.gone) (fun s c h => by rw [register_gone]; exact h) (fun _ h => h) (fun _ _ h => h)
    (fun _ _ h => h) h
  cases e with
  | spawn type label ok => exact h1 type label ok
  | resolved i ok => exact h2 i ok
  | put n type => exact h3 n type
  | kill label => rw [Node.step]; split <;> exact h
  | gone b =>
    rw [Node.step]
    split
    · exact h
    · split <;> exact List.mem_cons_of_mem _ h
  | down b =>
    rw [Node.step]
    split
    · rw [State.down]
      split
      · exact h
      · split <;> exact h
    · exact h
  | exit => exact h

theorem register_exits (s : State) (c : Component) : (s.register c).exits = s.exits :=
  register_cases s c (fun s' => s'.exits = s.exits) (fun _ => rfl) (fun _ _ => rfl) (fun _ _ _ => rfl) (fun _ _ _ => rfl)

theorem step_exits (s : State) (e : Event) (h : (step s e).exits = true) :
    s.exits = true ∨ ∃ c ∈ s.registry, c.type ∈ core ∧ c.actor ∈ s.downs ∧ e = .down c.actor ∧ s.tearing = false := by
  by_cases hs : s.exits = true
  · exact .inl hs
  right
  have hs' : s.exits = false := by simpa using hs
  obtain ⟨h1, h2, h3⟩ := starts_of (P := fun s => s.exits = false) (fun s c h => by rw [register_exits]; exact h) (fun _ h => h)
    (fun _ _ h => h) (fun _ _ h => h) hs'
  cases e with
  | spawn type label ok => exact absurd h (by rw [h1]; decide)
  | resolved i ok => exact absurd h (by rw [h2]; decide)
  | put n type => exact absurd h (by rw [h3]; decide)
  | kill label =>
    rw [Node.step] at h
    split at h <;> exact absurd h hs
  | gone b =>
    rw [Node.step] at h
    split at h
    · exact absurd h hs
    · split at h <;> exact absurd h hs
  | down b =>
    rw [Node.step] at h
    split at h
    · rename_i hb
      rw [State.down] at h
      split at h
      · exact absurd h hs
      · rename_i ht
        split at h
        · exact absurd h hs
        · rename_i c hf
          obtain ⟨hc, e⟩ := find_actor (s := s) hf
          have h : (s.exits || decide (c.type ∈ core)) = true := h
          rw [hs', Bool.false_or] at h
          exact ⟨c, hc, of_decide_eq_true h, e ▸ hb, by rw [e], by simpa using ht⟩
    · exact absurd h hs
  | exit => exact absurd h hs

end Verif.Node
