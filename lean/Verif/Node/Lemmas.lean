import Verif.Node.Spec
import Mathlib.Data.Nat.Digits.Lemmas
/-! Helper lemmas about the node. -/
namespace Verif.Node
open Spec (Generated OwnLabels PlainSingletons Orderly NoImpostor)

theorem decimal_ne_nil (n : Nat) : decimal n ≠ [] := by
  rw [decimal]
  split
  · simp
  · rename_i h
    simp [Nat.digits_eq_nil_iff_eq_zero, h]

theorem decimal_digit (n : Nat) : ∀ c ∈ decimal n, 48 ≤ c ∧ c ≤ 57 := by
  rw [decimal]
  split
  · simp
  · intro c hc
    rw [List.mem_reverse, List.mem_map] at hc
    obtain ⟨d, hd, rfl⟩ := hc
    have := Nat.digits_lt_base (by decide) hd
    omega

theorem decimal_inj {m n : Nat} (h : decimal m = decimal n) : m = n := by
  have hz : ∀ k, k ≠ 0 → ((Nat.digits 10 k).map (48 + ·)).reverse ≠ [48] := by
    intro k hk h
    have h := congrArg List.reverse h
    rw [List.reverse_reverse] at h
    simp only [List.reverse_singleton] at h
    obtain ⟨d, hd⟩ : ∃ d, Nat.digits 10 k = [d] := by
      have hl := congrArg List.length h
      rw [List.length_map] at hl
      exact List.length_eq_one_iff.mp hl
    rw [hd] at h
    simp at h
    have := Nat.ofDigits_digits 10 k
    rw [hd, h] at this
    simp at this
    exact hk this.symm
  rw [decimal, decimal] at h
  split at h <;> split at h
  · rename_i h1 h2; rw [h1, h2]
  · rename_i h2; exact absurd h.symm (hz n h2)
  · rename_i h1 _; exact absurd h (hz m h1)
  · have h := List.reverse_injective h
    have h := List.map_injective_iff.mpr (fun a b (e : 48 + a = 48 + b) => by omega) h
    exact Nat.digits_inj_iff.mp h

theorem generated_inj {t t' : Name} {n n' : Nat} (h : t ++ 45 :: decimal n = t' ++ 45 :: decimal n') : t = t' ∧ n = n' := by
  have key : ∀ (xs : Name) (m : Nat), (xs ++ 45 :: decimal m).reverse.takeWhile (· ≠ 45) = (decimal m).reverse := by
    intro xs m
    rw [List.reverse_append, List.reverse_cons, List.append_assoc, List.takeWhile_append_of_pos]
    · simp
    · intro c hc
      have := decimal_digit m c (List.mem_reverse.mp hc)
      simp; omega
  have h1 := key t n
  rw [h, key t' n'] at h1
  have hn := decimal_inj (List.reverse_injective h1).symm
  subst hn
  exact ⟨List.append_cancel_right h, rfl⟩

/-- What the node makes ends with a digit. -/
theorem generated_last {l : Name} (h : Generated l) : ∃ c, l.getLast? = some c ∧ 48 ≤ c ∧ c ≤ 57 := by
  obtain ⟨t, n, rfl⟩ := h
  have hne := decimal_ne_nil n
  refine ⟨(decimal n).getLast hne, ?_, decimal_digit n _ (List.getLast_mem hne)⟩
  rw [List.getLast?_append, List.getLast?_cons, List.getLast?_eq_some_getLast hne]
  rfl

theorem singleton_not_generated {t : Name} (ht : t ∈ singletons) : ¬ Generated t := by
  intro h
  obtain ⟨c, hc, h1, h2⟩ := generated_last h
  have : ∀ t ∈ singletons, ∀ c, t.getLast? = some c → ¬ (48 ≤ c ∧ c ≤ 57) := by
    intro t ht
    have : ∀ t ∈ singletons, (match t.getLast? with | some c => decide (¬ (48 ≤ c ∧ c ≤ 57)) | none => true) = true := by decide +kernel
    intro c hc
    have := this t ht
    rw [hc] at this
    exact of_decide_eq_true this
  exact this t ht c hc ⟨h1, h2⟩

theorem has_iff (s : State) (l : Name) : s.has l = true ↔ ∃ c ∈ s.registry, c.label = l := by
  simp [State.has]

/-- Everything but the registry. -/
theorem register_cases (s : State) (c : Component) (P : State → Prop)
    (h1 : (∃ d ∈ s.registry, d.actor = c.actor) → P { s with fault := true })
    (h2 : (∀ d ∈ s.registry, d.actor ≠ c.actor) → (∃ d ∈ s.registry, d.label = c.label) → P { s with failed := c :: s.failed })
    (h3 : (∀ d ∈ s.registry, d.actor ≠ c.actor) → (∀ d ∈ s.registry, d.label ≠ c.label) → c.actor ∈ s.gone →
      P { s with registry := s.registry ++ [c], downs := s.downs ++ [c.actor] })
    (h4 : (∀ d ∈ s.registry, d.actor ≠ c.actor) → (∀ d ∈ s.registry, d.label ≠ c.label) → c.actor ∉ s.gone →
      P { s with registry := s.registry ++ [c], monitors := c.actor :: s.monitors }) : P (s.register c) := by
  rw [State.register]
  by_cases ha : s.registry.any (·.actor = c.actor) = true
  · rw [if_pos ha]; exact h1 (by simpa using ha)
  · rw [if_neg ha]
    have ha' : ∀ d ∈ s.registry, d.actor ≠ c.actor := by simpa using ha
    by_cases hl : s.has c.label = true
    · rw [if_pos hl]; exact h2 ha' ((has_iff s c.label).mp hl)
    · rw [if_neg hl]
      have hl' : ∀ d ∈ s.registry, d.label ≠ c.label := fun d hd e => hl ((has_iff s c.label).mpr ⟨d, hd, e⟩)
      by_cases hg : c.actor ∈ s.gone
      · rw [if_pos hg]; exact h3 ha' hl' hg
      · rw [if_neg hg]; exact h4 ha' hl' hg

/-! ## Labels and actors -/

/-- The registry has every label and every actor once. -/
structure Distinct (s : State) : Prop where
  labels : (s.registry.map (·.label)).Nodup
  actors : (s.registry.map (·.actor)).Nodup

theorem Distinct.sub {s s' : State} (h : Distinct s) (hs : s'.registry.Sublist s.registry) : Distinct s' :=
  ⟨h.labels.sublist (hs.map _), h.actors.sublist (hs.map _)⟩

theorem Distinct.append {s s' : State} (h : Distinct s) (c : Component) (hs : s'.registry = s.registry ++ [c])
    (ha : ∀ d ∈ s.registry, d.actor ≠ c.actor) (hl : ∀ d ∈ s.registry, d.label ≠ c.label) : Distinct s' := by
  constructor
  · rw [hs, List.map_append, List.nodup_append]
    refine ⟨h.labels, by simp, ?_⟩
    intro x hx y hy
    simp at hy
    obtain ⟨d, hd, rfl⟩ := List.mem_map.mp hx
    rw [hy]; exact hl d hd
  · rw [hs, List.map_append, List.nodup_append]
    refine ⟨h.actors, by simp, ?_⟩
    intro x hx y hy
    simp at hy
    obtain ⟨d, hd, rfl⟩ := List.mem_map.mp hx
    rw [hy]; exact ha d hd

theorem Distinct.register {s : State} (h : Distinct s) (c : Component) : Distinct (s.register c) :=
  register_cases s c Distinct (fun _ => ⟨h.labels, h.actors⟩) (fun _ _ => ⟨h.labels, h.actors⟩) (fun ha hl _ => h.append c rfl ha hl)
    (fun ha hl _ => h.append c rfl ha hl)

theorem Distinct.start {s : State} (h : Distinct s) (type label : Name) (ok : Bool) : Distinct (s.start type label ok) := by
  rw [State.start]
  split
  · exact Distinct.register (s := { s with next := s.next + 1 }) ⟨h.labels, h.actors⟩ _
  · exact h

theorem Distinct.launch {s : State} (h : Distinct s) (type label : Name) (ok : Bool) : Distinct (s.launch type label ok) := by
  rw [State.launch]
  split
  · exact ⟨h.labels, h.actors⟩
  · exact h.start type label ok

theorem Distinct.step {s : State} (h : Distinct s) (e : Event) : Distinct (step s e) := by
  cases e with
  | spawn type label ok =>
    rw [Node.step, State.spawn.eq_def]
    split
    · exact h
    · split
      · split
        · exact h
        · split
          · exact h
          · exact h.launch _ _ _
      · split
        · exact h.launch _ _ _
        · exact Distinct.launch (s := (s.generate type).1) ⟨h.labels, h.actors⟩ _ _ _
  | resolved i ok =>
    rw [Node.step]
    split
    · exact h
    · exact Distinct.start (s := { s with resolving := s.resolving.eraseIdx i }) ⟨h.labels, h.actors⟩ _ _ _
  | put n type =>
    rw [Node.step]
    split
    · exact h
    · split
      · exact h
      · exact Distinct.register (s := (s.generate type).1) ⟨h.labels, h.actors⟩ _
  | kill label =>
    rw [Node.step]
    split
    · exact h
    · exact h.sub List.erase_sublist
  | gone a =>
    rw [Node.step]
    split
    · exact h
    · split <;> exact ⟨h.labels, h.actors⟩
  | down a =>
    rw [Node.step]
    split
    · rw [State.down]
      split
      · exact ⟨h.labels, h.actors⟩
      · split
        · exact ⟨h.labels, h.actors⟩
        · exact h.sub List.erase_sublist
    · exact h
  | exit => exact ⟨by simp [Node.step], by simp [Node.step]⟩

theorem run_distinct (es : List Event) : Distinct (run es) := by
  have : ∀ (es : List Event) (s : State), Distinct s → Distinct (es.foldl step s) := by
    intro es
    induction es with
    | nil => intro s h; exact h
    | cons e es ih => intro s h; exact ih _ (h.step e)
  exact this es initial ⟨by simp [initial], by simp [initial]⟩

/-! ## Generated labels -/

/-- All labels that look generated come from the counters, and none is used twice. -/
structure Labels (s : State) : Prop where
  reg : ∀ c ∈ s.registry, ∀ t n, c.label = t ++ 45 :: decimal n → n < s.counters t
  res : ∀ q ∈ s.resolving, ∀ t n, q.2 = t ++ 45 :: decimal n → n < s.counters t
  once : ∀ (i j : Nat) (q r : Name × Name), s.resolving[i]? = some q → s.resolving[j]? = some r → Generated q.2 → q.2 = r.2 → i = j
  apart : ∀ q ∈ s.resolving, Generated q.2 → ∀ c ∈ s.registry, c.label ≠ q.2
  failed : ∀ c ∈ s.failed, ¬ Generated c.label

/-- Nothing but components disappears. -/
theorem Labels.sub {s s' : State} (h : Labels s) (hr : ∀ c ∈ s'.registry, c ∈ s.registry) (hq : s'.resolving = s.resolving)
    (hc : s'.counters = s.counters) (hf : s'.failed = s.failed) : Labels s' :=
  ⟨fun c hm => by rw [hc]; exact h.reg c (hr c hm), by rw [hq, hc]; exact h.res, by rw [hq]; exact h.once,
    fun q hm hg c hcm => h.apart q (hq ▸ hm) hg c (hr c hcm), by rw [hf]; exact h.failed⟩

/-- A component is registered with a label that is new if it looks generated. -/
theorem Labels.register {s : State} (h : Labels s) (c : Component)
    (hn : Generated c.label → (∀ d ∈ s.registry, d.label ≠ c.label) ∧ ∀ q ∈ s.resolving, q.2 ≠ c.label)
    (hlt : ∀ t n, c.label = t ++ 45 :: decimal n → n < s.counters t) : Labels (s.register c) := by
  refine register_cases s c Labels (fun _ => h.sub (fun _ hm => hm) rfl rfl rfl) (fun _ hd => ?_) (fun _ _ _ => ?_) (fun _ _ _ => ?_)
  · refine ⟨h.reg, h.res, h.once, h.apart, ?_⟩
    intro d hm hg
    rcases List.mem_cons.mp hm with rfl | hm
    · obtain ⟨d', h1, h2⟩ := hd
      exact (hn hg).1 d' h1 h2
    · exact h.failed d hm hg
  all_goals
    refine ⟨?_, h.res, h.once, ?_, h.failed⟩
    · intro d hm t n e
      rcases List.mem_append.mp hm with hm | hm
      · exact h.reg d hm t n e
      · rw [List.mem_singleton] at hm
        subst hm
        exact hlt t n e
    · intro q hq hg d hm
      rcases List.mem_append.mp hm with hm | hm
      · exact h.apart q hq hg d hm
      · rw [List.mem_singleton] at hm
        subst hm
        intro e
        exact (hn (e ▸ hg)).2 q hq e.symm

theorem Labels.start {s : State} (h : Labels s) (type label : Name) (ok : Bool)
    (hn : Generated label → (∀ d ∈ s.registry, d.label ≠ label) ∧ ∀ q ∈ s.resolving, q.2 ≠ label)
    (hlt : ∀ t n, label = t ++ 45 :: decimal n → n < s.counters t) : Labels (s.start type label ok) := by
  rw [State.start]
  split
  · exact Labels.register (s := { s with next := s.next + 1 }) (h.sub (fun _ hm => hm) rfl rfl rfl) _ hn hlt
  · exact h

theorem Labels.launch {s : State} (h : Labels s) (type label : Name) (ok : Bool)
    (hn : Generated label → (∀ d ∈ s.registry, d.label ≠ label) ∧ ∀ q ∈ s.resolving, q.2 ≠ label)
    (hlt : ∀ t n, label = t ++ 45 :: decimal n → n < s.counters t) : Labels (s.launch type label ok) := by
  rw [State.launch]
  split
  · refine ⟨h.reg, ?_, ?_, ?_, h.failed⟩
    · intro q hq t n e
      rcases List.mem_append.mp hq with hq | hq
      · exact h.res q hq t n e
      · rw [List.mem_singleton] at hq
        subst hq
        exact hlt t n e
    · intro i j q r hi hj hg e
      simp only [List.getElem?_append] at hi hj
      by_cases h1 : i < s.resolving.length <;> by_cases h2 : j < s.resolving.length
      · rw [if_pos h1] at hi
        rw [if_pos h2] at hj
        exact h.once i j q r hi hj hg e
      · rw [if_pos h1] at hi
        rw [if_neg h2] at hj
        have : r = (type, label) := by
          have hj' := List.mem_of_getElem? hj
          simpa using hj'
        subst this
        exact absurd e ((hn (by have e' : q.2 = label := e; rw [← e']; exact hg)).2 q (List.mem_of_getElem? hi))
      · rw [if_neg h1] at hi
        rw [if_pos h2] at hj
        have : q = (type, label) := by
          have hi' := List.mem_of_getElem? hi
          simpa using hi'
        subst this
        exact absurd e.symm ((hn hg).2 r (List.mem_of_getElem? hj))
      · rw [if_neg h1] at hi
        rw [if_neg h2] at hj
        have hi' := (List.getElem?_eq_some_iff.mp hi).1
        have hj' := (List.getElem?_eq_some_iff.mp hj).1
        simp at hi' hj'
        omega
    · intro q hq hg c hc
      rcases List.mem_append.mp hq with hq | hq
      · exact h.apart q hq hg c hc
      · rw [List.mem_singleton] at hq
        subst hq
        exact (hn hg).1 c hc
  · exact h.start type label ok hn hlt

theorem eraseIdx_get {α : Type} {xs : List α} {i j : Nat} {q : α} (h : (xs.eraseIdx i)[j]? = some q) :
    xs[if j < i then j else j + 1]? = some q := by
  rw [List.getElem?_eraseIdx] at h
  by_cases hj : j < i
  · rw [if_pos hj] at h ⊢; exact h
  · rw [if_neg hj] at h ⊢; exact h

/-- The next label of a type is new. -/
theorem Labels.fresh {s : State} (h : Labels s) (type : Name) :
    (∀ d ∈ s.registry, d.label ≠ (s.generate type).2) ∧ ∀ q ∈ s.resolving, q.2 ≠ (s.generate type).2 := by
  constructor
  · intro d hd e
    exact Nat.lt_irrefl _ (h.reg d hd type _ e)
  · intro q hq e
    exact Nat.lt_irrefl _ (h.res q hq type _ e)

theorem Labels.generate {s : State} (h : Labels s) (type : Name) : Labels (s.generate type).1 := by
  have hle : ∀ t n, n < s.counters t → n < (s.generate type).1.counters t := by
    intro t n hn
    show n < if t = type then s.counters t + 1 else s.counters t
    split <;> omega
  exact ⟨fun c hc t n e => hle t n (h.reg c hc t n e), fun q hq t n e => hle t n (h.res q hq t n e), h.once, h.apart, h.failed⟩

theorem generate_lt (s : State) (type t : Name) (n : Nat) (e : (s.generate type).2 = t ++ 45 :: decimal n) :
    n < (s.generate type).1.counters t := by
  obtain ⟨rfl, rfl⟩ := generated_inj e
  show s.counters type < if type = type then s.counters type + 1 else s.counters type
  rw [if_pos rfl]; omega

theorem Labels.step {s : State} (h : Labels s) (e : Event) (he : ∀ type l ok, e = .spawn type (some l) ok → ¬ Generated l) :
    Labels (step s e) := by
  cases e with
  | spawn type label ok =>
    rw [Node.step, State.spawn.eq_def]
    split
    · exact h
    · split
      · rename_i l
        have hg := he type l ok rfl
        split
        · exact h
        · split
          · exact h
          · exact h.launch _ _ _ (fun h => absurd h hg) (fun t n e => absurd ⟨t, n, e⟩ hg)
      · split
        · rename_i ht
          have hg := singleton_not_generated ht
          exact h.launch _ _ _ (fun h => absurd h hg) (fun t n e => absurd ⟨t, n, e⟩ hg)
        · exact (h.generate type).launch _ _ _ (fun _ => h.fresh type) (generate_lt s type)
  | resolved i ok =>
    rw [Node.step]
    split
    · exact h
    · rename_i type label hi
      have hm := List.mem_of_getElem? hi
      have h' : Labels { s with resolving := s.resolving.eraseIdx i } := by
        refine ⟨h.reg, fun q hq => h.res q (List.mem_of_mem_eraseIdx hq), ?_, fun q hq => h.apart q (List.mem_of_mem_eraseIdx hq), h.failed⟩
        intro a b q r ha hb hg e
        have := h.once _ _ q r (eraseIdx_get ha) (eraseIdx_get hb) hg e
        split at this <;> split at this <;> omega
      refine h'.start type label ok (fun hg => ⟨fun d hd => h.apart (type, label) hm hg d hd, ?_⟩) (fun t n e => h.res (type, label) hm t n e)
      intro q hq e
      obtain ⟨j, hj⟩ := List.getElem?_of_mem hq
      have := h.once i _ (type, label) q hi (eraseIdx_get hj) hg e.symm
      split at this <;> omega
  | put n type =>
    rw [Node.step]
    split
    · exact h
    · split
      · exact h
      · exact (h.generate type).register _ (fun _ => h.fresh type) (generate_lt s type)
  | kill label =>
    rw [Node.step]
    split
    · exact h
    · exact h.sub (fun c hc => List.mem_of_mem_erase hc) rfl rfl rfl
  | gone a =>
    rw [Node.step]
    split
    · exact h
    · split <;> exact h.sub (fun _ hc => hc) rfl rfl rfl
  | down a =>
    rw [Node.step]
    split
    · rw [State.down]
      split
      · exact h.sub (fun _ hc => hc) rfl rfl rfl
      · split
        · exact h.sub (fun _ hc => hc) rfl rfl rfl
        · exact h.sub (fun c hc => List.mem_of_mem_erase hc) rfl rfl rfl
    · exact h
  | exit => exact h.sub (fun c hc => by simp [Node.step] at hc) rfl rfl rfl

theorem run_append (es : List Event) (e : Event) : run (es ++ [e]) = step (run es) e := by simp [run]

theorem run_labels (es : List Event) (h : OwnLabels es) : Labels (run es) := by
  induction es using List.reverseRecOn with
  | nil =>
    refine ⟨?_, by simp [run, initial], by simp [run, initial], by simp [run, initial], by simp [run, initial]⟩
    intro c hc t n e
    have hc : c = ⟨str "filesystem", .own 0, str "filesystem"⟩ := by simpa [run, initial] using hc
    subst hc
    exact absurd ⟨t, n, e⟩ (singleton_not_generated (t := str "filesystem") (by decide))
  | append_singleton es e ih =>
    rw [run_append]
    refine (ih (fun t l ok hm => h t l ok (List.mem_append_left _ hm))).step e ?_
    rintro t l ok rfl
    exact h t l ok (by simp)

/-! ## Who fails -/

/-- Only these can fail to be registered. -/
def Why (c : Component) : Prop := c.type ∈ singletons ∨ c.type ∈ queries ∨ Generated c.label

structure Fails (s : State) : Prop where
  failed : ∀ c ∈ s.failed, Why c
  resolving : ∀ q ∈ s.resolving, q.1 ∈ queries

theorem Fails.register {s : State} (h : Fails s) (c : Component) (hw : (∃ d ∈ s.registry, d.label = c.label) → Why c) :
    Fails (s.register c) := by
  refine register_cases s c Fails (fun _ => ⟨h.failed, h.resolving⟩) (fun _ hd => ⟨?_, h.resolving⟩) (fun _ _ _ => ⟨h.failed, h.resolving⟩)
    (fun _ _ _ => ⟨h.failed, h.resolving⟩)
  intro d hm
  rcases List.mem_cons.mp hm with rfl | hm
  · exact hw hd
  · exact h.failed d hm

theorem Fails.start {s : State} (h : Fails s) (type label : Name) (ok : Bool)
    (hw : (∃ d ∈ s.registry, d.label = label) → type ∈ singletons ∨ type ∈ queries ∨ Generated label) : Fails (s.start type label ok) := by
  rw [State.start]
  split
  · exact Fails.register (s := { s with next := s.next + 1 }) ⟨h.failed, h.resolving⟩ _ hw
  · exact h

theorem Fails.launch {s : State} (h : Fails s) (type label : Name) (ok : Bool)
    (hw : (∃ d ∈ s.registry, d.label = label) → type ∈ singletons ∨ type ∈ queries ∨ Generated label) : Fails (s.launch type label ok) := by
  rw [State.launch]
  split
  · rename_i hq
    refine ⟨h.failed, ?_⟩
    intro q hm
    rcases List.mem_append.mp hm with hm | hm
    · exact h.resolving q hm
    · rw [List.mem_singleton] at hm
      subst hm
      exact hq.1
  · exact h.start type label ok hw

theorem Fails.step {s : State} (h : Fails s) (e : Event) : Fails (step s e) := by
  cases e with
  | spawn type label ok =>
    rw [Node.step, State.spawn.eq_def]
    split
    · exact h
    · split
      · split
        · exact h
        · split
          · exact h
          · rename_i hh
            exact h.launch _ _ _ (fun hd => absurd ((has_iff s _).mpr hd) hh)
      · split
        · rename_i ht
          exact h.launch _ _ _ (fun _ => .inl ht)
        · exact Fails.launch (s := (s.generate type).1) ⟨h.failed, h.resolving⟩ _ _ _ (fun _ => .inr (.inr ⟨_, _, rfl⟩))
  | resolved i ok =>
    rw [Node.step]
    split
    · exact h
    · rename_i type label hi
      exact Fails.start (s := { s with resolving := s.resolving.eraseIdx i })
        ⟨h.failed, fun q hq => h.resolving q (List.mem_of_mem_eraseIdx hq)⟩ _ _ _
        (fun _ => .inr (.inl (h.resolving _ (List.mem_of_getElem? hi))))
  | put n type =>
    rw [Node.step]
    split
    · exact h
    · split
      · exact h
      · exact Fails.register (s := (s.generate type).1) ⟨h.failed, h.resolving⟩ _ (fun _ => .inr (.inr ⟨_, _, rfl⟩))
  | kill label =>
    rw [Node.step]
    split
    · exact h
    · exact ⟨h.failed, h.resolving⟩
  | gone a =>
    rw [Node.step]
    split
    · exact h
    · split <;> exact ⟨h.failed, h.resolving⟩
  | down a =>
    rw [Node.step]
    split
    · rw [State.down]
      split
      · exact ⟨h.failed, h.resolving⟩
      · split <;> exact ⟨h.failed, h.resolving⟩
    · exact h
  | exit => exact ⟨h.failed, h.resolving⟩

theorem run_fails (es : List Event) : Fails (run es) := by
  induction es using List.reverseRecOn with
  | nil => exact ⟨by simp [run, initial], by simp [run, initial]⟩
  | append_singleton es e ih => rw [run_append]; exact ih.step e

/-! ## Components that exist once -/

/-- They have their own name. -/
structure Single (s : State) : Prop where
  registry : ∀ c ∈ s.registry, c.type ∈ singletons → c.label = c.type
  resolving : ∀ q ∈ s.resolving, q.1 ∈ queries

theorem queries_not_singletons {t : Name} (h : t ∈ queries) : t ∉ singletons := by
  have : ∀ t ∈ queries, t ∉ singletons := by decide +kernel
  exact this t h

theorem Single.register {s : State} (h : Single s) (c : Component) (hc : c.type ∈ singletons → c.label = c.type) :
    Single (s.register c) := by
  refine register_cases s c Single (fun _ => ⟨h.registry, h.resolving⟩) (fun _ _ => ⟨h.registry, h.resolving⟩) (fun _ _ _ => ⟨?_, h.resolving⟩)
    (fun _ _ _ => ⟨?_, h.resolving⟩)
  all_goals
    intro d hm
    rcases List.mem_append.mp hm with hm | hm
    · exact h.registry d hm
    · rw [List.mem_singleton] at hm
      subst hm
      exact hc

theorem Single.start {s : State} (h : Single s) (type label : Name) (ok : Bool) (hc : type ∈ singletons → label = type) :
    Single (s.start type label ok) := by
  rw [State.start]
  split
  · exact Single.register (s := { s with next := s.next + 1 }) ⟨h.registry, h.resolving⟩ _ hc
  · exact h

theorem Single.launch {s : State} (h : Single s) (type label : Name) (ok : Bool) (hc : type ∈ singletons → label = type) :
    Single (s.launch type label ok) := by
  rw [State.launch]
  split
  · rename_i hq
    refine ⟨h.registry, ?_⟩
    intro q hm
    rcases List.mem_append.mp hm with hm | hm
    · exact h.resolving q hm
    · rw [List.mem_singleton] at hm
      subst hm
      exact hq.1
  · exact h.start type label ok hc

theorem Single.step {s : State} (h : Single s) (e : Event) (h1 : ∀ type l ok, e = .spawn type (some l) ok → type ∉ singletons)
    (h2 : ∀ n type, e = .put n type → type ∉ singletons) : Single (step s e) := by
  cases e with
  | spawn type label ok =>
    rw [Node.step, State.spawn.eq_def]
    split
    · exact h
    · split
      · split
        · exact h
        · split
          · exact h
          · exact h.launch _ _ _ (fun ht => absurd ht (h1 _ _ _ rfl))
      · split
        · exact h.launch _ _ _ (fun _ => rfl)
        · rename_i ht
          exact Single.launch (s := (s.generate type).1) ⟨h.registry, h.resolving⟩ _ _ _ (fun h => absurd h ht)
  | resolved i ok =>
    rw [Node.step]
    split
    · exact h
    · rename_i type label hi
      exact Single.start (s := { s with resolving := s.resolving.eraseIdx i })
        ⟨h.registry, fun q hq => h.resolving q (List.mem_of_mem_eraseIdx hq)⟩ _ _ _
        (fun ht => absurd ht (queries_not_singletons (h.resolving _ (List.mem_of_getElem? hi))))
  | put n type =>
    rw [Node.step]
    split
    · exact h
    · split
      · exact h
      · exact Single.register (s := (s.generate type).1) ⟨h.registry, h.resolving⟩ _ (fun ht => absurd ht (h2 n type rfl))
  | kill label =>
    rw [Node.step]
    split
    · exact h
    · exact ⟨fun c hc => h.registry c (List.mem_of_mem_erase hc), h.resolving⟩
  | gone a =>
    rw [Node.step]
    split
    · exact h
    · split <;> exact ⟨h.registry, h.resolving⟩
  | down a =>
    rw [Node.step]
    split
    · rw [State.down]
      split
      · exact ⟨h.registry, h.resolving⟩
      · split
        · exact ⟨h.registry, h.resolving⟩
        · exact ⟨fun c hc => h.registry c (List.mem_of_mem_erase hc), h.resolving⟩
    · exact h
  | exit => exact ⟨by simp [Node.step], h.resolving⟩

theorem run_single (es : List Event) (h : PlainSingletons es) : Single (run es) := by
  induction es using List.reverseRecOn with
  | nil => exact ⟨by simp [run, initial], by simp [run, initial]⟩
  | append_singleton es e ih =>
    rw [run_append]
    refine (ih ⟨fun t l ok hm => h.1 t l ok (List.mem_append_left _ hm), fun n t hm => h.2 n t (List.mem_append_left _ hm)⟩).step e ?_ ?_
    · rintro t l ok rfl
      exact h.1 t l ok (by simp)
    · rintro n t rfl
      exact h.2 n t (by simp)

/-! ## Names of types that exist once -/

structure Named (s : State) : Prop where
  registry : ∀ c ∈ s.registry, c.label ∈ singletons → c.type = c.label
  resolving : ∀ q ∈ s.resolving, q.2 ∉ singletons

theorem Named.register {s : State} (h : Named s) (c : Component) (hc : c.label ∈ singletons → c.type = c.label) :
    Named (s.register c) := by
  refine register_cases s c Named (fun _ => ⟨h.registry, h.resolving⟩) (fun _ _ => ⟨h.registry, h.resolving⟩) (fun _ _ _ => ⟨?_, h.resolving⟩)
    (fun _ _ _ => ⟨?_, h.resolving⟩)
  all_goals
    intro d hm
    rcases List.mem_append.mp hm with hm | hm
    · exact h.registry d hm
    · rw [List.mem_singleton] at hm
      subst hm
      exact hc

theorem Named.start {s : State} (h : Named s) (type label : Name) (ok : Bool) (hc : label ∈ singletons → type = label) :
    Named (s.start type label ok) := by
  rw [State.start]
  split
  · exact Named.register (s := { s with next := s.next + 1 }) ⟨h.registry, h.resolving⟩ _ hc
  · exact h

theorem Named.launch {s : State} (h : Named s) (type label : Name) (ok : Bool) (hc : label ∈ singletons → type = label) :
    Named (s.launch type label ok) := by
  rw [State.launch]
  split
  · rename_i hq
    refine ⟨h.registry, ?_⟩
    intro q hm
    rcases List.mem_append.mp hm with hm | hm
    · exact h.resolving q hm
    · rw [List.mem_singleton] at hm
      subst hm
      intro hl
      have := hc hl
      exact queries_not_singletons hq.1 (this ▸ hl)
  · exact h.start type label ok hc

theorem Named.step {s : State} (h : Named s) (e : Event) (h1 : ∀ type l ok, e = .spawn type (some l) ok → l ∉ singletons) :
    Named (step s e) := by
  have hg : ∀ type, (s.generate type).2 ∉ singletons := fun type h => singleton_not_generated h ⟨_, _, rfl⟩
  cases e with
  | spawn type label ok =>
    rw [Node.step, State.spawn.eq_def]
    split
    · exact h
    · split
      · split
        · exact h
        · split
          · exact h
          · exact h.launch _ _ _ (fun ht => absurd ht (h1 _ _ _ rfl))
      · split
        · exact h.launch _ _ _ (fun _ => rfl)
        · exact Named.launch (s := (s.generate type).1) ⟨h.registry, h.resolving⟩ _ _ _ (fun h => absurd h (hg type))
  | resolved i ok =>
    rw [Node.step]
    split
    · exact h
    · rename_i type label hi
      exact Named.start (s := { s with resolving := s.resolving.eraseIdx i })
        ⟨h.registry, fun q hq => h.resolving q (List.mem_of_mem_eraseIdx hq)⟩ _ _ _
        (fun ht => absurd ht (h.resolving _ (List.mem_of_getElem? hi)))
  | put n type =>
    rw [Node.step]
    split
    · exact h
    · split
      · exact h
      · exact Named.register (s := (s.generate type).1) ⟨h.registry, h.resolving⟩ _ (fun ht => absurd ht (hg type))
  | kill label =>
    rw [Node.step]
    split
    · exact h
    · exact ⟨fun c hc => h.registry c (List.mem_of_mem_erase hc), h.resolving⟩
  | gone a =>
    rw [Node.step]
    split
    · exact h
    · split <;> exact ⟨h.registry, h.resolving⟩
  | down a =>
    rw [Node.step]
    split
    · rw [State.down]
      split
      · exact ⟨h.registry, h.resolving⟩
      · split
        · exact ⟨h.registry, h.resolving⟩
        · exact ⟨fun c hc => h.registry c (List.mem_of_mem_erase hc), h.resolving⟩
    · exact h
  | exit => exact ⟨by simp [Node.step], h.resolving⟩

theorem run_named (es : List Event) (h : NoImpostor es) : Named (run es) := by
  induction es using List.reverseRecOn with
  | nil => exact ⟨by simp [run, initial], by simp [run, initial]⟩
  | append_singleton es e ih =>
    rw [run_append]
    refine (ih (fun t l ok hm => h t l ok (List.mem_append_left _ hm))).step e ?_
    rintro t l ok rfl
    exact h t l ok (by simp)

theorem nodup_map_inj {α β : Type} {f : α → β} {xs : List α} (h : (xs.map f).Nodup) {a b : α} (ha : a ∈ xs) (hb : b ∈ xs) (e : f a = f b) :
    a = b := by
  induction xs with
  | nil => cases ha
  | cons x xs ih =>
    rw [List.map_cons, List.nodup_cons] at h
    rcases List.mem_cons.mp ha with ha' | ha' <;> rcases List.mem_cons.mp hb with hb' | hb'
    · rw [ha', hb']
    · exact absurd (List.mem_map.mpr ⟨b, hb', by rw [← e, ha']⟩) h.1
    · exact absurd (List.mem_map.mpr ⟨a, ha', by rw [e, hb']⟩) h.1
    · exact ih h.2 ha' hb'

end Verif.Node
