import Verif.Shutdown.NodeLemmas

/-! # C108 and C109: shutting down in order -/

namespace Verif.Shutdown
open Verif.Shutdown.Spec

/-- A registry: labels are unique (it is a map), and so are actors (component_registry.cpp:22-25). -/
def Spec.Registry (reg : List Component) : Prop := (reg.map (·.label)).Nodup ∧ (reg.map (·.actor)).Nodup

theorem same_actor : ∀ {reg : List Component}, (reg.map (·.actor)).Nodup → ∀ {x y : Component}, x ∈ reg → y ∈ reg → x.actor = y.actor → x = y
  | c :: reg, h, x, y, hx0, hy, he => by
    rw [List.map_cons, List.nodup_cons] at h
    rcases List.mem_cons.1 hx0 with hx | hx <;> rcases List.mem_cons.1 hy with hy' | hy'
    · rw [hx, hy']
    · subst hx; exact absurd (List.mem_map.2 ⟨y, hy', he.symm⟩ : x.actor ∈ reg.map (·.actor)) h.1
    · subst hy'; exact absurd (List.mem_map.2 ⟨x, hx, he⟩ : y.actor ∈ reg.map (·.actor)) h.1
    · exact same_actor h.2 hx hy' he

theorem find_label : ∀ {reg : List Component}, (reg.map (·.label)).Nodup → ∀ {x : Component}, x ∈ reg →
    reg.find? (fun c => c.label = x.label) = some x
  | c :: reg, h, x, hx => by
    rw [List.map_cons, List.nodup_cons] at h
    rcases List.mem_cons.1 hx with hx | hx
    · subst hx; simp
    · rw [List.find?_cons_of_neg, find_label h.2 hx]
      simp only [decide_eq_true_eq]
      intro he
      exact h.1 (List.mem_map.2 ⟨x, hx, he.symm⟩)

/-- The handle of a core component, if it is registered. -/
def handleOf (reg : List Component) (name : String) : List Nat := ((reg.find? fun c => c.label = name).map (·.actor)).toList

theorem core_eq (reg : List Component) : core reg = handleOf reg "importer" ++ (handleOf reg "index" ++ handleOf reg "archive") := by
  have key : ∀ (f : String → Option Nat) (x : String) (xs : List String), (x :: xs).filterMap f = (f x).toList ++ xs.filterMap f := by
    intro f x xs
    rw [List.filterMap_cons]
    cases f x <;> rfl
  unfold core sequence
  rw [key, key, key, List.filterMap_nil, List.append_nil]
  rfl

theorem mem_handle {reg : List Component} {name : String} {a : Nat} (h : a ∈ handleOf reg name) : ∃ x ∈ reg, x.label = name ∧ x.actor = a := by
  unfold handleOf at h
  rw [Option.mem_toList, Option.map_eq_some_iff] at h
  obtain ⟨x, hx, ha⟩ := h
  exact ⟨x, List.mem_of_find?_eq_some hx, by simpa using List.find?_some hx, ha⟩

theorem handle_nodup (reg : List Component) (name : String) : (handleOf reg name).Nodup := by
  unfold handleOf
  cases (reg.find? fun c => decide (c.label = name)).map (·.actor) <;> simp

theorem handle_disjoint {reg : List Component} (h : Registry reg) {n m : String} (hn : n ≠ m) : ∀ a ∈ handleOf reg n, ∀ b ∈ handleOf reg m, a ≠ b := by
  intro a ha b hb he
  obtain ⟨x, hx, h1, h2⟩ := mem_handle ha
  obtain ⟨y, hy, h3, h4⟩ := mem_handle hb
  have := same_actor h.2 hx hy (by rw [h2, h4, he])
  subst this
  exact hn (h1.symm.trans h3)

theorem core_nodup {reg : List Component} (h : Registry reg) : (core reg).Nodup := by
  rw [core_eq]
  refine List.nodup_append.2 ⟨handle_nodup _ _, List.nodup_append.2 ⟨handle_nodup _ _, handle_nodup _ _, handle_disjoint h (by decide)⟩, ?_⟩
  intro a ha b hb
  rcases List.mem_append.1 hb with hb | hb
  · exact handle_disjoint h (by decide) a ha b hb
  · exact handle_disjoint h (by decide) a ha b hb

theorem aux_nodup {reg : List Component} (h : Registry reg) : (aux reg).Nodup :=
  ((List.filter_sublist.map _).nodup h.2)

theorem mem_aux {reg : List Component} {a : Nat} (h : a ∈ aux reg) :
    ∃ x ∈ reg, x.actor = a ∧ x.label ∉ "filesystem" :: sequence ∧ x.remote = false := by
  obtain ⟨x, hx, ha⟩ := List.mem_map.1 h
  obtain ⟨h1, h2⟩ := List.mem_filter.1 hx
  exact ⟨x, h1, ha, of_decide_eq_true h2⟩

theorem mem_core {reg : List Component} {a : Nat} (h : a ∈ core reg) : ∃ x ∈ reg, x.actor = a ∧ x.label ∈ sequence := by
  rw [core_eq, List.mem_append, List.mem_append] at h
  rcases h with h | h | h
  all_goals
    obtain ⟨x, hx, h1, h2⟩ := mem_handle h
    exact ⟨x, hx, h2, by rw [h1]; decide⟩

/-- C108, order: the index is told to terminate only after the importer has terminated, and the archive only after the importer
    and the index have terminated: for every registry, all timeouts, and whatever happens when. -/
theorem C108_order {c : Timeouts} {reg : List Component} {log : Log} {n : Node} {k : Nat} (hreg : Registry reg)
    (hl : ∀ e ∈ log, ∃ a, e = Act.gone a) (h : Run c reg (begin c reg log) n k) {x y : Component} (hx : x ∈ reg) (hy : y ∈ reg)
    (hxy : (x.label, y.label) ∈ [("importer", "index"), ("importer", "archive"), ("index", "archive")]) :
    ∀ t, Whenever n.log (.exit t y.actor) fun before => Act.gone x.actor ∈ before := by
  obtain ⟨hi, _⟩ := run_inv (aux_nodup hreg) (core_nodup hreg) hl h
  have hyl : y.label ∈ sequence := by
    simp only [List.mem_cons, Prod.mk.injEq, List.not_mem_nil, or_false] at hxy
    rcases hxy with ⟨_, h⟩ | ⟨_, h⟩ | ⟨_, h⟩ <;> rw [h] <;> decide
  have hhx : handleOf reg x.label = [x.actor] := by unfold handleOf; rw [find_label hreg.1 hx]; rfl
  have hhy : handleOf reg y.label = [y.actor] := by unfold handleOf; rw [find_label hreg.1 hy]; rfl
  have hprec : Precedes (core reg) x.actor y.actor := by
    rw [core_eq]
    simp only [List.mem_cons, Prod.mk.injEq, List.not_mem_nil, or_false] at hxy
    rcases hxy with ⟨h1, h2⟩ | ⟨h1, h2⟩ | ⟨h1, h2⟩
    · rw [h1] at hhx; rw [h2] at hhy; rw [hhx, hhy]
      exact ⟨[], [], handleOf reg "archive", rfl⟩
    · rw [h1] at hhx; rw [h2] at hhy; rw [hhx, hhy]
      exact ⟨[], handleOf reg "index", [], rfl⟩
    · rw [h1] at hhx; rw [h2] at hhy; rw [hhx, hhy]
      exact ⟨handleOf reg "importer", [], [], rfl⟩
  intro t l1 l2 hlog
  have hmem : Act.exit t y.actor ∈ n.log := hlog ▸ List.mem_append_right _ List.mem_cons_self
  rcases hi.only t y.actor (.inl hmem) with rfl | rfl
  · obtain ⟨z, hz, hza, hzl, _⟩ := mem_aux (hi.first.base.whoE _ hmem)
    have := same_actor hreg.2 hz hy hza
    subst this
    exact absurd (List.mem_cons_of_mem _ hyl) hzl
  · have hs : n.stage ≠ .aux := fun hs => (hi.fresh hs y.actor).1 hmem
    exact (hi.second hs).base.exits rfl y.actor l1 l2 hlog _ hprec

/-- C108, stages: no core component is told to terminate, or killed, before all other local components have terminated or the
    time for that is over. -/
theorem C108_stages {c : Timeouts} {reg : List Component} {log : Log} {n : Node} {k : Nat} (hreg : Registry reg)
    (hl : ∀ e ∈ log, ∃ a, e = Act.gone a) (h : Run c reg (begin c reg log) n k) {x y : Component} (hx : x ∈ reg) (hy : y ∈ reg)
    (hxr : x.remote = false) (hxl : x.label ∉ ["importer", "index", "archive", "filesystem"])
    (hyl : y.label ∈ ["importer", "index", "archive"]) {e : Act} (he : ∃ t, e = .exit t y.actor ∨ e = .kill t y.actor) :
    Whenever n.log e fun before => Act.gone x.actor ∈ before ∨ Act.late 0 ∈ before := by
  obtain ⟨hi, _⟩ := run_inv (aux_nodup hreg) (core_nodup hreg) hl h
  have hxa : x.actor ∈ aux reg := by
    refine List.mem_map.2 ⟨x, List.mem_filter.2 ⟨hx, decide_eq_true ⟨?_, hxr⟩⟩, rfl⟩
    intro hm
    apply hxl
    simp only [sequence, List.mem_cons, List.not_mem_nil, or_false] at hm ⊢
    rcases hm with h | h | h | h <;> simp [h]
  intro l1 l2 hlog
  obtain ⟨t, he⟩ := he
  have hmem : e ∈ n.log := hlog ▸ List.mem_append_right _ List.mem_cons_self
  have h0 : t = 1 := by
    have : t = 0 ∨ t = 1 := hi.only t y.actor (by rcases he with he | he <;> simp [← he, hmem])
    rcases this with rfl | rfl
    · have : y.actor ∈ aux reg := by
        rcases he with he | he
        · exact hi.first.base.whoE _ (he ▸ hmem)
        · exact hi.first.base.whoK _ (he ▸ hmem)
      obtain ⟨z, hz, hza, hzl, _⟩ := mem_aux this
      have := same_actor hreg.2 hz hy hza
      subst this
      exact absurd (List.mem_cons_of_mem _ hyl) hzl
    · rfl
  subst h0
  have key : AuxGone reg l2 := by
    rcases he with he | he
    · exact hi.stageE y.actor l1 l2 (he ▸ hlog)
    · exact hi.stageK y.actor l1 l2 (he ▸ hlog)
  exact key.imp (fun h => h _ hxa) id

/-- C108, grace: nothing is killed before the grace period of its terminator is over. -/
theorem C108_grace {c : Timeouts} {reg : List Component} {log : Log} {n : Node} {k : Nat} (hreg : Registry reg)
    (hl : ∀ e ∈ log, ∃ a, e = Act.gone a) (h : Run c reg (begin c reg log) n k) (t a : Nat) :
    Whenever n.log (.kill t a) fun before => Act.late t ∈ before := by
  obtain ⟨hi, _⟩ := run_inv (aux_nodup hreg) (core_nodup hreg) hl h
  intro l1 l2 hlog
  have hmem : Act.kill t a ∈ n.log := hlog ▸ List.mem_append_right _ List.mem_cons_self
  rcases hi.only t a (.inr hmem) with rfl | rfl
  · exact hi.first.base.kills a l1 l2 hlog
  · have hs : n.stage ≠ .aux := fun hs => (hi.fresh hs a).2 hmem
    exact (hi.second hs).base.kills a l1 l2 hlog

/-- C108, who: only registered local components and the core components are told to terminate or killed, and never the file
    system. -/
theorem C108_who {c : Timeouts} {reg : List Component} {log : Log} {n : Node} {k : Nat} (hreg : Registry reg)
    (hl : ∀ e ∈ log, ∃ a, e = Act.gone a) (h : Run c reg (begin c reg log) n k) {t a : Nat}
    (ha : Act.exit t a ∈ n.log ∨ Act.kill t a ∈ n.log) :
    ∃ x ∈ reg, x.actor = a ∧ x.label ≠ "filesystem" ∧ (x.remote = true → x.label ∈ ["importer", "index", "archive"]) := by
  obtain ⟨hi, _⟩ := run_inv (aux_nodup hreg) (core_nodup hreg) hl h
  rcases hi.only t a ha with rfl | rfl
  · have : a ∈ aux reg := ha.elim (hi.first.base.whoE a) (hi.first.base.whoK a)
    obtain ⟨x, hx, h1, h2, h3⟩ := mem_aux this
    exact ⟨x, hx, h1, fun h => h2 (h ▸ List.mem_cons_self), fun h => by rw [h3] at h; cases h⟩
  · have hs : n.stage ≠ .aux := fun hs => ha.elim (hi.fresh hs a).1 (hi.fresh hs a).2
    have : a ∈ core reg := ha.elim ((hi.second hs).base.whoE a) ((hi.second hs).base.whoK a)
    obtain ⟨x, hx, h1, h2⟩ := mem_core this
    exact ⟨x, hx, h1, fun h => by rw [h] at h2; revert h2; decide, fun _ => h2⟩

/-- C108, success: when the node terminates normally, importer, index and archive have terminated, and so have all other local
    components unless the time for them was over. -/
theorem C108_stopped {c : Timeouts} {reg : List Component} {log : Log} {n : Node} {k : Nat} (hreg : Registry reg)
    (hl : ∀ e ∈ log, ∃ a, e = Act.gone a) (h : Run c reg (begin c reg log) n k) (hs : n.stage = .stopped) {x : Component} (hx : x ∈ reg)
    (hxl : x.label ≠ "filesystem") (hxr : x.remote = false) :
    Act.gone x.actor ∈ n.log ∨ x.label ∉ ["importer", "index", "archive"] ∧ Act.late 0 ∈ n.log := by
  obtain ⟨hi, _⟩ := run_inv (aux_nodup hreg) (core_nodup hreg) hl h
  have hna : n.stage ≠ .aux := by rw [hs]; simp
  by_cases hc : x.label ∈ ["importer", "index", "archive"]
  · refine .inl ?_
    have hh : handleOf reg x.label = [x.actor] := by unfold handleOf; rw [find_label hreg.1 hx]; rfl
    have hm : x.actor ∈ core reg := by
      rw [core_eq, List.mem_append, List.mem_append]
      simp only [List.mem_cons, List.not_mem_nil, or_false] at hc
      rcases hc with hc | hc | hc <;> rw [hc] at hh <;> simp [hh]
    cases hi.second hna with
    | waiting _ hp => rw [hi.stopped hs] at hp; cases hp
    | killing _ hp => rw [hi.stopped hs] at hp; cases hp
    | failed _ hp => rw [hi.stopped hs] at hp; cases hp
    | done hb hp hr =>
      exact (hb.left _ hm).resolve_left fun h => by rw [hr] at h; cases h
  · have hxa : x.actor ∈ aux reg := by
      refine List.mem_map.2 ⟨x, List.mem_filter.2 ⟨hx, decide_eq_true ⟨?_, hxr⟩⟩, rfl⟩
      intro hm
      rcases List.mem_cons.1 hm with hm | hm
      · exact hxl hm
      · exact hc hm
    exact (hi.gone hna).imp (fun h => h _ hxa) fun h => ⟨hc, h⟩

/-- C108, failure: the process dies only after the grace period for the core components is over. -/
theorem C108_died {c : Timeouts} {reg : List Component} {log : Log} {n : Node} {k : Nat} (hreg : Registry reg)
    (hl : ∀ e ∈ log, ∃ a, e = Act.gone a) (h : Run c reg (begin c reg log) n k) (hs : n.stage = .died) : Act.late 1 ∈ n.log :=
  (run_inv (aux_nodup hreg) (core_nodup hreg) hl h).1.died hs

theorem core_length (reg : List Component) : (core reg).length ≤ 3 := List.length_filterMap_le _ _

theorem aux_length (reg : List Component) : (aux reg).length ≤ reg.length := by
  unfold aux
  rw [List.length_map]
  exact List.length_filter_le _ _

/-- C109: the node and its terminators do at most three things per component and 21 more. When they can do nothing more,
    the node has terminated or the process has died, or there is no grace period and a component that was told to terminate has
    not done so. No assertion fails. -/
theorem C109_ends_partial {c : Timeouts} {reg : List Component} {log : Log} {n : Node} {k : Nat} (hreg : Registry reg)
    (hl : ∀ e ∈ log, ∃ a, e = Act.gone a) (h : Run c reg (begin c reg log) n k) :
    k ≤ 3 * reg.length + 21 ∧
    ((¬ ∃ m, Work c reg n m) → n.stage = .stopped ∨ n.stage = .died ∨
      c.grace = false ∧ ∃ t a, Act.gone a ∉ n.log ∧ (Act.exit t a ∈ n.log ∨ Act.kill t a ∈ n.log)) ∧
    n.first.phase ≠ .fault ∧ (n.stage ≠ .aux → n.second.phase ≠ .fault) := by
  obtain ⟨hi, hk⟩ := run_inv (aux_nodup hreg) (core_nodup hreg) hl h
  refine ⟨?_, fun hn => ?_, hi.first.nofault, fun hs => (hi.second hs).nofault⟩
  · have h1 := start_measure c.first 0 ((aux reg).map some) log
    rw [filterMap_some] at h1
    have h2 := core_length reg
    have h3 := aux_length reg
    have h4 : (begin c reg log).measure reg = (start c.first 0 ((aux reg).map some) log).1.measure + 3 * (core reg).length + 7 := rfl
    omega
  · cases hs : n.stage with
    | stopped => exact .inl rfl
    | died => exact .inr (.inl rfl)
    | aux =>
      refine .inr (.inr ?_)
      cases hf : n.first.phase with
      | done => exact absurd ⟨_, .answered n hs (.inl hf)⟩ hn
      | failed => exact absurd ⟨_, .answered n hs (.inr hf)⟩ hn
      | fault => exact absurd hf hi.first.nofault
      | waiting =>
        rcases own_progress hi.first (.inl hf) with ⟨s, l, ho⟩ | ⟨hg, a, ha⟩
        · exact absurd ⟨_, .first n s l (.inl hs) ho⟩ hn
        · exact ⟨hg, 0, a, ha⟩
      | killing =>
        rcases own_progress hi.first (.inr hf) with ⟨s, l, ho⟩ | ⟨hg, a, ha⟩
        · exact absurd ⟨_, .first n s l (.inl hs) ho⟩ hn
        · exact ⟨hg, 0, a, ha⟩
    | core =>
      have hna : n.stage ≠ .aux := by rw [hs]; simp
      refine .inr (.inr ?_)
      cases hf : n.second.phase with
      | done => exact absurd ⟨_, .stopped n hs hf⟩ hn
      | failed => exact absurd ⟨_, .died n hs hf⟩ hn
      | fault => exact absurd hf (hi.second hna).nofault
      | waiting =>
        rcases own_progress (hi.second hna) (.inl hf) with ⟨s, l, ho⟩ | ⟨hg, a, ha⟩
        · exact absurd ⟨_, .second n s l hs ho⟩ hn
        · exact ⟨hg, 1, a, ha⟩
      | killing =>
        rcases own_progress (hi.second hna) (.inr hf) with ⟨s, l, ho⟩ | ⟨hg, a, ha⟩
        · exact absurd ⟨_, .second n s l hs ho⟩ hn
        · exact ⟨hg, 1, a, ha⟩

/-! ### Concrete cases -/

/-- A registry with two auxiliary components. -/
def sample : List Component :=
  [⟨"archive", 1, false⟩, ⟨"exporter-1", 2, false⟩, ⟨"filesystem", 3, false⟩, ⟨"importer", 4, false⟩, ⟨"index", 5, false⟩, ⟨"source-1", 6, true⟩]

/-- It is one, and the sequence is as expected. -/
example : Registry sample ∧ core sample = [4, 5, 1] ∧ aux sample = [2] := by
  refine ⟨⟨by decide, by decide⟩, by decide, by decide⟩

theorem all_told (t a : Nat) : ∀ (as : List Nat) (s : Term) (log : Log), a ∈ as ∨ Act.exit t a ∈ log → Act.exit t a ∈ (all t as s log).2
  | [], _, _, h => h.elim (fun h => by cases h) id
  | b :: as, s, log, h => all_told t a as _ _ (by
      rcases h with h | h
      · rcases List.mem_cons.1 h with rfl | h
        · exact .inr (by simp [next])
        · exact .inl h
      · exact .inr (by simp [next, h]))

/-- C109: the local components outside of the core are told to terminate all at once, as soon as the shutdown begins; none of them
    waits for another. -/
theorem C109_together (c : Timeouts) (reg : List Component) (log : Log) (x : Component) (hx : x ∈ reg) (hr : x.remote = false)
    (hl : x.label ∉ ["importer", "index", "archive", "filesystem"]) : Act.exit 0 x.actor ∈ (begin c reg log).log := by
  have hxa : x.actor ∈ aux reg := by
    refine List.mem_map.2 ⟨x, List.mem_filter.2 ⟨hx, decide_eq_true ⟨?_, hr⟩⟩, rfl⟩
    intro hm
    simp only [sequence, List.mem_cons, List.not_mem_nil, or_false] at hm hl
    rcases hm with h | h | h | h <;> simp [h] at hl
  have hf : ((aux reg).map some).filterMap id = aux reg := by simp
  rw [begin]
  simp only [start, hf]
  cases he : aux reg with
  | nil => rw [he] at hxa; cases hxa
  | cons a as =>
    rw [he] at hxa
    exact all_told 0 x.actor (a :: as) _ _ (.inl hxa)

/-- C109: without a grace period (`vast.shutdown-grace-period: 0s`) nothing is ever killed: a component that does not terminate
    blocks the shutdown for good. -/
theorem C109_nograce_refuted : ∃ (c : Timeouts) (n : Node), Registry sample ∧ Run c sample (begin c sample []) n 0 ∧
    (¬ ∃ m, Work c sample n m) ∧ (¬ ∃ m, Timeout c sample n m) ∧ n.stage = .aux ∧ Act.exit 1 4 ∉ n.log := by
  refine ⟨⟨false, false, fun h => h⟩, _, ⟨by decide, by decide⟩, .refl _, ?_, ?_, rfl, by decide⟩
  · rintro ⟨m, h⟩
    cases h with
    | first s log hr ho =>
      cases ho with
      | handle m ms hm _ => revert hm; exact (fun h => by cases h)
      | fire m ht _ => revert ht; exact (fun h => by cases h)
    | second s log hr ho => cases hr
    | answered hr hd => rcases hd with hd | hd <;> cases hd
    | stopped hr _ => cases hr
    | died hr _ => cases hr
  · rintro ⟨m, h⟩
    cases h with
    | first hr hg => cases hg
    | second hr hg => cases hg

/-- After the time for the auxiliary components is over, the importer is told to terminate although a component that feeds
    from it is alive. -/
example : ∃ (c : Timeouts) (n : Node), Registry sample ∧ Run c sample (begin c sample []) n 1 ∧
    Act.exit 1 4 ∈ n.log ∧ Act.gone 2 ∉ n.log ∧ Act.kill 0 2 ∉ n.log := by
  refine ⟨⟨true, true, fun h => h⟩, _, ⟨by decide, by decide⟩, .timeout _ _ _ _ (.refl _) (.first _ rfl rfl), by decide, by decide, by decide⟩

/-- A whole shutdown without timeouts. -/
example : ∃ (c : Timeouts) (n : Node) (k : Nat), Run c sample (begin c sample []) n k ∧ n.stage = .stopped ∧ Act.late 0 ∉ n.log ∧ Act.late 1 ∉ n.log := by
  have h0 := Run.gone (c := ⟨true, true, fun h => h⟩) (reg := sample) _ _ _ _ (.refl (begin ⟨true, true, fun h => h⟩ sample [])) (.gone _ 2 (by decide))
  have h1 := Run.work _ _ _ _ h0 (.first _ _ _ (.inl rfl) (.handle _ _ (.down 2) [] rfl (.inl rfl)))
  have h2 := Run.work _ _ _ _ h1 (.answered _ rfl (.inl rfl))
  have h3 := Run.gone _ _ _ _ h2 (.gone _ 4 (by decide))
  have h4 := Run.work _ _ _ _ h3 (.second _ _ _ rfl (.handle _ _ (.down 4) [] rfl (.inl rfl)))
  have h5 := Run.gone _ _ _ _ h4 (.gone _ 5 (by decide))
  have h6 := Run.work _ _ _ _ h5 (.second _ _ _ rfl (.handle _ _ (.down 5) [] rfl (.inl rfl)))
  have h7 := Run.gone _ _ _ _ h6 (.gone _ 1 (by decide))
  have h8 := Run.work _ _ _ _ h7 (.second _ _ _ rfl (.handle _ _ (.down 1) [] rfl (.inl rfl)))
  have h9 := Run.work _ _ _ _ h8 (.stopped _ rfl rfl)
  exact ⟨_, _, _, h9, rfl, by decide, by decide⟩

end Verif.Shutdown
