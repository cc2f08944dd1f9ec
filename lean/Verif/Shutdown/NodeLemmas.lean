import Verif.Shutdown.Lemmas

/-! # Invariants of the node -/

namespace Verif.Shutdown
open Verif.Shutdown.Spec

/-! ### What a terminator adds to the log -/

/-- What terminator `t` logs. -/
def Mine (t : Nat) (e : Act) : Prop := (∃ a, e = .exit t a) ∨ (∃ a, e = .kill t a) ∨ e = .late t

theorem all_log (t : Nat) : ∀ (as : List Nat) (s : Term) (log : Log), ∃ pre, (all t as s log).2 = pre ++ log ∧ ∀ e ∈ pre, Mine t e
  | [], _, _ => ⟨[], rfl, fun _ h => by cases h⟩
  | a :: as, s, log => by
    obtain ⟨pre, h1, h2⟩ := all_log t as (next t a s log).1 (next t a s log).2
    refine ⟨pre ++ [.exit t a], by rw [all, h1]; simp [next], fun e he => ?_⟩
    rcases List.mem_append.1 he with he | he
    · exact h2 e he
    · exact .inl ⟨a, List.mem_singleton.1 he⟩

theorem killAll_log (cfg : Config) (t : Nat) : ∀ (as : List Nat) (s : Term) (log : Log),
    ∃ pre, (killAll cfg t as s log).2 = pre ++ log ∧ ∀ e ∈ pre, Mine t e
  | [], _, _ => ⟨[], rfl, fun _ h => by cases h⟩
  | a :: as, s, log => by
    obtain ⟨pre, h1, h2⟩ := killAll_log cfg t as (watch cfg log a s) (.kill t a :: log)
    refine ⟨pre ++ [.kill t a], by rw [killAll, h1]; simp, fun e he => ?_⟩
    rcases List.mem_append.1 he with he | he
    · exact h2 e he
    · exact .inr (.inl ⟨a, List.mem_singleton.1 he⟩)

theorem start_log (cfg : Config) (t : Nat) (xs : List (Option Nat)) (log : Log) :
    ∃ pre, (start cfg t xs log).2 = pre ++ log ∧ ∀ e ∈ pre, Mine t e := by
  unfold start
  split
  · exact ⟨[], rfl, fun _ h => by cases h⟩
  · rename_i a as _
    cases cfg.policy with
    | sequential => exact ⟨[.exit t a], rfl, fun e he => .inl ⟨a, List.mem_singleton.1 he⟩⟩
    | parallel => exact all_log t _ _ _

theorem own_log {cfg t s log s' log'} (h : Own cfg t s log s' log') : ∃ pre, log' = pre ++ log ∧ ∀ e ∈ pre, Mine t e := by
  cases h with
  | fire m ht hr => exact ⟨[.late t], rfl, fun e he => .inr (.inr (List.mem_singleton.1 he))⟩
  | handle m ms hm hr =>
    have nil : ∃ pre, log = pre ++ log ∧ ∀ e ∈ pre, Mine t e := ⟨[], rfl, fun _ h => by cases h⟩
    cases m with
    | stop => exact nil
    | shutdown =>
      simp only [handle]
      split
      · exact nil
      · exact killAll_log cfg t _ _ _
    | down a =>
      simp only [handle]
      split
      · split
        · split
          · exact nil
          · exact ⟨[_], rfl, fun e he => .inl ⟨_, List.mem_singleton.1 he⟩⟩
          · exact nil
        · exact nil
      · split
        · split <;> exact nil
        · exact nil
      · exact nil

theorem Inv.others {cfg t xs s log} (h : Inv cfg t xs s log) {t' : Nat} (ht : t' ≠ t) : ∀ {pre : Log}, (∀ e ∈ pre, Mine t' e) →
    Inv cfg t xs s (pre ++ log)
  | [], _ => h
  | e :: pre, hp => by
    refine (Inv.others h ht fun e he => hp e (List.mem_cons_of_mem _ he)).other ?_ ?_ ?_
    all_goals
      intro a he
      rcases hp e List.mem_cons_self with ⟨b, hb⟩ | ⟨b, hb⟩ | hb <;> (rw [hb] at he; cases he)
    all_goals exact ht rfl

theorem Fresh.others {t t' : Nat} {log : Log} (h : Fresh t log) (ht : t' ≠ t) {pre : Log} (hp : ∀ e ∈ pre, Mine t' e) : Fresh t (pre ++ log) := by
  intro a
  refine ⟨fun hm => ?_, fun hm => ?_⟩
  · rcases List.mem_append.1 hm with hm | hm
    · rcases hp _ hm with ⟨b, hb⟩ | ⟨b, hb⟩ | hb <;> cases hb
      exact ht rfl
    · exact (h a).1 hm
  · rcases List.mem_append.1 hm with hm | hm
    · rcases hp _ hm with ⟨b, hb⟩ | ⟨b, hb⟩ | hb <;> cases hb
      exact ht rfl
    · exact (h a).2 hm

/-! ### How long a terminator runs -/

/-- A bound on the steps of a terminator. -/
def Term.measure (s : Term) : Nat :=
  match s.phase with
  | .waiting => s.mailbox.length + s.monitors.length + (if s.timer.isSome then 2 else 0) + 2 * s.remaining.length + 3
  | .killing => s.mailbox.length + s.monitors.length + (if s.timer.isSome then 2 else 0)
  | _ => 0

theorem monitor_length (log : Log) (a : Nat) (s : Term) :
    (monitor log a s).mailbox.length + (monitor log a s).monitors.length = s.mailbox.length + s.monitors.length + 1 := by
  unfold monitor
  split
  · simp; omega
  · simp; omega

theorem filter_length (a : Nat) (xs : List Nat) : (xs.filter (· = a)).length + (xs.filter (· ≠ a)).length = xs.length := by
  have := (filter_perm a xs).length_eq
  rw [List.length_append] at this
  omega

theorem notify_measure (a : Nat) (s : Term) : (notify a s).measure = s.measure := by
  have h := filter_length a s.monitors
  unfold Term.measure notify
  simp only [List.length_append, List.length_map]
  split <;> omega

theorem all_length (t : Nat) : ∀ (as : List Nat) (s : Term) (log : Log),
    (all t as s log).1.mailbox.length + (all t as s log).1.monitors.length = s.mailbox.length + s.monitors.length + as.length ∧
    (all t as s log).1.phase = s.phase ∧ (all t as s log).1.timer = s.timer ∧ (all t as s log).1.remaining = s.remaining
  | [], _, _ => ⟨rfl, rfl, rfl, rfl⟩
  | a :: as, s, log => by
    obtain ⟨h1, h2, h3, h4⟩ := all_length t as (next t a s log).1 (next t a s log).2
    rw [all]
    refine ⟨?_, h2.trans (monitor_phase _ _ _), h3.trans (monitor_timer _ _ _), h4.trans (monitor_remaining _ _ _)⟩
    rw [h1]
    have := monitor_length log a s
    simp only [next, List.length_cons] at this ⊢
    omega

theorem killAll_length (cfg : Config) (t : Nat) : ∀ (as : List Nat) (s : Term) (log : Log),
    (killAll cfg t as s log).1.mailbox.length + (killAll cfg t as s log).1.monitors.length ≤ s.mailbox.length + s.monitors.length + as.length
  | [], _, _ => Nat.le_refl _
  | a :: as, s, log => by
    rw [killAll]
    refine Nat.le_trans (killAll_length cfg t as _ _) ?_
    unfold watch
    cases cfg.policy with
    | sequential =>
      have := monitor_length log a s
      simp only [List.length_cons]
      omega
    | parallel =>
      simp only [List.length_cons]
      omega

theorem start_measure (cfg : Config) (t : Nat) (xs : List (Option Nat)) (log : Log) :
    (start cfg t xs log).1.measure ≤ 3 * (xs.filterMap id).length + 5 := by
  unfold start
  split
  · exact Nat.zero_le _
  · rename_i a as h
    rw [h]
    generalize (if cfg.grace then some Msg.shutdown else none) = tm
    cases cfg.policy with
    | sequential =>
      show (monitor log a { remaining := a :: as, timer := tm }).measure ≤ _
      have h1 := monitor_length log a { remaining := a :: as, timer := tm }
      unfold Term.measure
      rw [monitor_phase, monitor_timer, monitor_remaining]
      simp only [List.length_cons, List.length_nil] at h1 ⊢
      split <;> omega
    | parallel =>
      obtain ⟨h1, h2, h3, h4⟩ := all_length t (a :: as) { remaining := a :: as, timer := tm } log
      show (all t (a :: as) { remaining := a :: as, timer := tm } log).1.measure ≤ _
      unfold Term.measure
      rw [h2, h3, h4]
      simp only [List.length_cons, List.length_nil] at h1 ⊢
      split <;> omega

theorem erase_length {a : Nat} {xs : List Nat} (h : a ∈ xs) : (erase a xs).length + 1 = xs.length := by
  rw [(erase_perm a xs).length_eq, List.length_erase_of_mem h]
  have := List.length_pos_of_mem h
  omega

theorem own_measure {cfg t xs s log s' log'} (h : Inv cfg t xs s log) (ho : Own cfg t s log s' log') : s'.measure < s.measure := by
  cases ho with
  | fire m ht hr =>
    unfold Term.measure
    rw [ht]
    rcases hr with hr | hr <;> simp [hr] <;> omega
  | handle m ms hm hr =>
    have pos : 0 < s.measure := by
      unfold Term.measure
      rcases hr with hr | hr <;> simp [hr, hm]
      omega
    have ifs : (if s.timer.isSome then 2 else 0) ≤ 2 := by split <;> omega
    cases m with
    | stop => exact pos
    | shutdown =>
      cases h with
      | done _ hp => rcases hr with hr | hr <;> (rw [hp] at hr; cases hr)
      | failed _ hp => rcases hr with hr | hr <;> (rw [hp] at hr; cases hr)
      | killing hb hp hl hrem hs ht hw => exact absurd (hm ▸ List.mem_cons_self) hs
      | waiting hb hp ht hw =>
        have hl := killAll_length cfg t s.remaining.reverse { s with mailbox := ms } log
        have ht0 : (killAll cfg t s.remaining.reverse { s with mailbox := ms } log).1.timer = none := by
          obtain ⟨_, _, _, i4, _, _⟩ := killAll_spec (cfg := cfg) (t := t) (xs := xs) s.remaining.reverse { s with mailbox := ms } log
            (fun a ha => hb.sub a (List.mem_reverse.1 ha)) (hb.taken hm (p := s.phase)) (hb.lates (hm ▸ List.mem_cons_self))
          rw [i4]
          have h2 := ht.2
          rw [hm] at h2
          rcases h2 with ⟨_, h⟩ | ⟨h1, _⟩ | ⟨_, _, h⟩
          · exact absurd List.mem_cons_self h
          · exact h1
          · exact absurd List.mem_cons_self h
        simp only [handle]
        rw [if_neg hw.1]
        simp only [List.length_reverse] at hl
        have hms : s.measure = ms.length + 1 + s.monitors.length + (if s.timer.isSome then 2 else 0) + 2 * s.remaining.length + 3 := by
          unfold Term.measure
          rw [hp, hm]; rfl
        rw [hms]
        unfold Term.measure
        by_cases hk : cfg.kill = true
        · simp only [hk, if_true, Option.isSome_some]
          omega
        · simp only [hk, Bool.false_eq_true, if_false, ht0, Option.isSome_none, List.length_append, List.length_cons, List.length_nil]
          omega
    | down a =>
      cases h with
      | done _ hp => rcases hr with hr | hr <;> (rw [hp] at hr; cases hr)
      | failed _ hp => rcases hr with hr | hr <;> (rw [hp] at hr; cases hr)
      | killing hb hp hl hrem hs ht hw =>
        simp only [handle, hp]
        split
        · rename_i har
          have hle := erase_length har
          split
          · exact pos
          · unfold Term.measure
            rw [hp, hm]
            simp only [List.length_cons]
            omega
        · unfold Term.measure
          rw [hp, hm]
          simp only [hp, List.length_cons]
          omega
      | waiting hb hp ht hw =>
        simp only [handle, hp]
        split
        · rename_i har
          have hle := erase_length har
          split
          · exact pos
          · rename_i b bs heq _
            rw [heq] at hle
            have hml := monitor_length log b { s with mailbox := ms, remaining := b :: bs, phase := .waiting }
            show (monitor log b { s with mailbox := ms, remaining := b :: bs, phase := .waiting }).measure < _
            unfold Term.measure
            rw [monitor_phase, monitor_timer, monitor_remaining, hp, hm]
            simp only [List.length_cons] at hml hle ⊢
            omega
          · rename_i b bs heq _
            rw [heq] at hle
            unfold Term.measure
            rw [hp, hm]
            simp only [List.length_cons] at hle ⊢
            omega
        · exact pos

/-- As long as it runs and has a timeout, or has a message, a terminator goes on; otherwise it waits for someone. -/
theorem own_progress {cfg t xs s log} (h : Inv cfg t xs s log) (hr : s.running) :
    (∃ s' log', Own cfg t s log s' log') ∨
    cfg.grace = false ∧ ∃ a, Act.gone a ∉ log ∧ (Act.exit t a ∈ log ∨ Act.kill t a ∈ log) := by
  cases hm : s.mailbox with
  | cons m ms => exact .inl ⟨_, _, .handle s log m ms hm hr⟩
  | nil =>
    cases htm : s.timer with
    | some m => exact .inl ⟨_, _, .fire s log m htm hr⟩
    | none =>
      refine .inr ?_
      cases h with
      | done _ hp => rcases hr with hr | hr <;> (rw [hp] at hr; cases hr)
      | failed _ hp => rcases hr with hr | hr <;> (rw [hp] at hr; cases hr)
      | killing hb hp hl hrem hs ht hw =>
        rcases ht with ht | ⟨_, ht⟩
        · rw [htm] at ht; cases ht
        · rw [hm] at ht; cases ht
      | waiting hb hp ht hw =>
        have hg : cfg.grace = false := by
          rcases ht.2 with ⟨h, _⟩ | ⟨_, h⟩ | ⟨h, _, _⟩
          · rw [htm] at h; cases h
          · rw [hm] at h; simp at h
          · exact h
        refine ⟨hg, ?_⟩
        have hmon : ∃ a, a ∈ s.monitors := by
          have htr : s.tracked = s.monitors := by
            unfold Term.tracked
            rw [hm]
            simp
          have h2 := hw.2
          cases hc : cfg.policy with
          | sequential =>
            rw [hc] at h2
            obtain ⟨_, b, bs, _, h4⟩ := h2
            exact ⟨b, htr ▸ h4.mem_iff.2 List.mem_cons_self⟩
          | parallel =>
            rw [hc] at h2
            obtain ⟨b, bs, hb'⟩ := List.exists_cons_of_ne_nil hw.1
            exact ⟨b, htr ▸ h2.mem_iff.2 (hb' ▸ List.mem_cons_self)⟩
        obtain ⟨a, ha⟩ := hmon
        exact ⟨a, hb.mons a ha, hb.told a ha⟩

/-! ### The node -/

/-- The auxiliary components are gone, or it took too long. -/
def AuxGone (reg : List Component) (log : Log) : Prop := (∀ a ∈ aux reg, Act.gone a ∈ log) ∨ Act.late 0 ∈ log

theorem AuxGone.more {reg : List Component} {log : Log} (h : AuxGone reg log) (pre : Log) : AuxGone reg (pre ++ log) :=
  h.imp (fun h a ha => List.mem_append_right _ (h a ha)) (List.mem_append_right _)

/-- What holds of the node. -/
structure NInv (c : Timeouts) (reg : List Component) (n : Node) : Prop where
  first : Inv c.first 0 (aux reg) n.first n.log
  second : n.stage ≠ .aux → Inv c.second 1 (core reg) n.second n.log
  fresh : n.stage = .aux → Fresh 1 n.log
  gone : n.stage ≠ .aux → AuxGone reg n.log
  stageE : ∀ a, Whenever n.log (.exit 1 a) (AuxGone reg)
  stageK : ∀ a, Whenever n.log (.kill 1 a) (AuxGone reg)
  stopped : n.stage = .stopped → n.second.phase = .done
  died : n.stage = .died → Act.late 1 ∈ n.log
  only : ∀ t a, Act.exit t a ∈ n.log ∨ Act.kill t a ∈ n.log → t = 0 ∨ t = 1

theorem whenever_more {log : Log} {x : Act} {P : Log → Prop} (h : Whenever log x P) (hP : ∀ pre, P (pre ++ log)) :
    ∀ pre, Whenever (pre ++ log) x P
  | [] => h
  | _ :: pre => whenever_cons (whenever_more h hP pre) fun _ => hP pre

theorem whenever_others {log : Log} {x : Act} {P : Log → Prop} (h : Whenever log x P) :
    ∀ {pre : Log}, (∀ e ∈ pre, e ≠ x) → Whenever (pre ++ log) x P
  | [], _ => h
  | e :: _, hp => whenever_cons (whenever_others h fun e he => hp e (List.mem_cons_of_mem _ he)) fun he => absurd he (hp e List.mem_cons_self)

theorem only_more {log pre : Log} {t' : Nat} (h : ∀ t a, Act.exit t a ∈ log ∨ Act.kill t a ∈ log → t = 0 ∨ t = 1)
    (hp : ∀ e ∈ pre, Mine t' e) (ht : t' = 0 ∨ t' = 1) :
    ∀ t a, Act.exit t a ∈ pre ++ log ∨ Act.kill t a ∈ pre ++ log → t = 0 ∨ t = 1 := by
  intro t a hm
  have key : ∀ e, (e = Act.exit t a ∨ e = Act.kill t a) → e ∈ pre → t = 0 ∨ t = 1 := by
    intro e he hm
    rcases hp e hm with ⟨b, hb⟩ | ⟨b, hb⟩ | hb <;> rcases he with he | he <;> (rw [he] at hb; cases hb) <;> exact ht
  rcases hm with hm | hm
  · rcases List.mem_append.1 hm with hm | hm
    · exact key _ (.inl rfl) hm
    · exact h t a (.inl hm)
  · rcases List.mem_append.1 hm with hm | hm
    · exact key _ (.inr rfl) hm
    · exact h t a (.inr hm)

theorem filterMap_some (xs : List Nat) : (xs.map some).filterMap id = xs := by
  induction xs with
  | nil => rfl
  | cons x xs ih => rw [List.map_cons, List.filterMap_cons, ih]; rfl

theorem begin_inv (c : Timeouts) (reg : List Component) (log : Log) (hx : (aux reg).Nodup) (hl : ∀ e ∈ log, ∃ a, e = Act.gone a) :
    NInv c reg (begin c reg log) := by
  have hf : ∀ t, Fresh t log := fun t a => ⟨fun h => (by obtain ⟨b, hb⟩ := hl _ h; cases hb), fun h => (by obtain ⟨b, hb⟩ := hl _ h; cases hb)⟩
  obtain ⟨pre, h1, h2⟩ := start_log c.first 0 ((aux reg).map some) log
  have hi := start_inv c.first 0 ((aux reg).map some) log (by rw [filterMap_some]; exact hx) (hf 0)
  rw [filterMap_some] at hi
  have hfr : Fresh 1 (start c.first 0 ((aux reg).map some) log).2 := h1 ▸ (hf 1).others (by decide) h2
  refine ⟨hi, fun h => absurd rfl h, fun _ => hfr, fun h => absurd rfl h, fun a => whenever_of_not_mem (hfr a).1,
    fun a => whenever_of_not_mem (hfr a).2, (fun h => by cases h), (fun h => by cases h), ?_⟩
  show ∀ t a, Act.exit t a ∈ (start c.first 0 ((aux reg).map some) log).2 ∨ Act.kill t a ∈ (start c.first 0 ((aux reg).map some) log).2 → _
  rw [h1]
  refine only_more (fun t a h => ?_) h2 (.inl rfl)
  rcases h with h | h
  · exact absurd h (hf t a).1
  · exact absurd h (hf t a).2

theorem core_inv {c : Timeouts} {reg : List Component} {n : Node} (hc : (core reg).Nodup) (h : NInv c reg n) (hs : n.stage = .aux)
    (hg : AuxGone reg n.log) : NInv c reg (beginCore c reg n) := by
  obtain ⟨pre, h1, h2⟩ := start_log c.second 1 ((core reg).map some) n.log
  have hi := start_inv c.second 1 ((core reg).map some) n.log (by rw [filterMap_some]; exact hc) (h.fresh hs)
  rw [filterMap_some] at hi
  have hlog : (beginCore c reg n).log = pre ++ n.log := h1
  refine ⟨?_, fun _ => hi, (fun h => by cases h), fun _ => ?_, fun a => ?_, fun a => ?_, (fun h => by cases h), (fun h => by cases h), ?_⟩
  · rw [hlog]; exact h.first.others (by decide) h2
  · rw [hlog]; exact hg.more pre
  · rw [hlog]; exact whenever_more (h.stageE a) hg.more pre
  · rw [hlog]; exact whenever_more (h.stageK a) hg.more pre
  · rw [hlog]; exact only_more h.only h2 (.inr rfl)

theorem late_inv {c : Timeouts} {reg : List Component} {n : Node} (t : Nat) (h : NInv c reg n) : NInv c reg { n with log := .late t :: n.log } where
  first := h.first.other (fun _ h => by cases h) (fun _ h => by cases h) (fun _ h => by cases h)
  second hs := (h.second hs).other (fun _ h => by cases h) (fun _ h => by cases h) (fun _ h => by cases h)
  fresh hs a := ⟨fun hm => by
      rcases List.mem_cons.1 hm with hm | hm
      · cases hm
      · exact (h.fresh hs a).1 hm, fun hm => by
      rcases List.mem_cons.1 hm with hm | hm
      · cases hm
      · exact (h.fresh hs a).2 hm⟩
  gone hs := (h.gone hs).more [.late t]
  stageE a := whenever_cons (h.stageE a) fun he => by cases he
  stageK a := whenever_cons (h.stageK a) fun he => by cases he
  stopped := h.stopped
  died hs := List.mem_cons_of_mem _ (h.died hs)
  only s a ha := by
    refine h.only s a (ha.imp (fun hm => ?_) (fun hm => ?_))
    all_goals
      rcases List.mem_cons.1 hm with hm | hm
      · cases hm
      · exact hm

theorem gone_inv {c : Timeouts} {reg : List Component} {n : Node} (a : Nat) (h : NInv c reg n) :
    NInv c reg { n with log := .gone a :: n.log, first := notify a n.first, second := notify a n.second } where
  first := h.first.gone a
  second hs := (h.second hs).gone a
  fresh hs b := ⟨fun hm => by
      rcases List.mem_cons.1 hm with hm | hm
      · cases hm
      · exact (h.fresh hs b).1 hm, fun hm => by
      rcases List.mem_cons.1 hm with hm | hm
      · cases hm
      · exact (h.fresh hs b).2 hm⟩
  gone hs := (h.gone hs).more [.gone a]
  stageE b := whenever_cons (h.stageE b) fun he => by cases he
  stageK b := whenever_cons (h.stageK b) fun he => by cases he
  stopped := h.stopped
  died hs := List.mem_cons_of_mem _ (h.died hs)
  only s b hb := by
    refine h.only s b (hb.imp (fun hm => ?_) (fun hm => ?_))
    all_goals
      rcases List.mem_cons.1 hm with hm | hm
      · cases hm
      · exact hm

theorem mine_ne {t t' a : Nat} (h : t' ≠ t) {pre : Log} (hp : ∀ e ∈ pre, Mine t' e) : (∀ e ∈ pre, e ≠ .exit t a) ∧ ∀ e ∈ pre, e ≠ .kill t a := by
  refine ⟨fun e he hx => ?_, fun e he hx => ?_⟩
  all_goals
    rcases hp e he with ⟨b, hb⟩ | ⟨b, hb⟩ | hb <;> (rw [hx] at hb; cases hb)
    exact h rfl

/-- A bound on what the node still does. -/
def Node.measure (reg : List Component) (n : Node) : Nat :=
  match n.stage with
  | .aux => n.first.measure + 3 * (core reg).length + 7
  | .core => n.first.measure + n.second.measure + 1
  | _ => 0

theorem work_inv {c : Timeouts} {reg : List Component} {n m : Node} (ha : (aux reg).Nodup) (hc : (core reg).Nodup) (h : NInv c reg n)
    (hw : Work c reg n m) : NInv c reg m ∧ m.measure reg < n.measure reg := by
  cases hw with
  | first s log hr ho =>
    obtain ⟨pre, hl, hm⟩ := own_log ho
    have hmu := own_measure h.first ho
    refine ⟨⟨own_inv ha h.first ho, fun hs => hl ▸ (h.second hs).others (by decide) hm, fun hs => hl ▸ (h.fresh hs).others (by decide) hm,
      fun hs => hl ▸ (h.gone hs).more pre, fun a => hl ▸ whenever_others (h.stageE a) (mine_ne (by decide) hm).1,
      fun a => hl ▸ whenever_others (h.stageK a) (mine_ne (by decide) hm).2, h.stopped, fun hs => hl ▸ List.mem_append_right _ (h.died hs),
      hl ▸ only_more h.only hm (.inl rfl)⟩, ?_⟩
    unfold Node.measure
    rcases hr with hr | hr <;> simp only [hr] <;> omega
  | second s log hr ho =>
    have hs : n.stage ≠ .aux := by rw [hr]; simp
    obtain ⟨pre, hl, hm⟩ := own_log ho
    have hmu := own_measure (h.second hs) ho
    refine ⟨⟨hl ▸ h.first.others (by decide) hm, fun _ => own_inv hc (h.second hs) ho, fun hs' => absurd hs' hs,
      fun hs => hl ▸ (h.gone hs).more pre, fun a => hl ▸ whenever_more (h.stageE a) (h.gone hs).more pre,
      fun a => hl ▸ whenever_more (h.stageK a) (h.gone hs).more pre, fun hs' => ?_, fun hs => hl ▸ List.mem_append_right _ (h.died hs),
      hl ▸ only_more h.only hm (.inr rfl)⟩, ?_⟩
    · have hs' : n.stage = .stopped := hs'
      rw [hr] at hs'; cases hs'
    · unfold Node.measure
      simp only [hr]; omega
  | answered hr hd =>
    refine ⟨core_inv hc h hr ?_, ?_⟩
    · cases hf : h.first with
      | waiting _ hp => rcases hd with hd | hd <;> (rw [hp] at hd; cases hd)
      | killing _ hp => rcases hd with hd | hd <;> (rw [hp] at hd; cases hd)
      | done hb hp hrem =>
        refine .inl fun a ha => (hb.left a ha).resolve_left fun hm => ?_
        rw [hrem] at hm; cases hm
      | failed _ _ hl => exact .inr hl
    · have := start_measure c.second 1 ((core reg).map some) n.log
      rw [filterMap_some] at this
      unfold Node.measure
      simp only [hr, beginCore]
      omega
  | stopped hr hd =>
    refine ⟨⟨h.first, fun _ => h.second (by rw [hr]; simp), (fun h => by cases h), fun _ => h.gone (by rw [hr]; simp), h.stageE, h.stageK, fun _ => hd,
      (fun h => by cases h), h.only⟩, ?_⟩
    unfold Node.measure
    simp only [hr]; omega
  | died hr hd =>
    refine ⟨⟨h.first, fun _ => h.second (by rw [hr]; simp), (fun h => by cases h), fun _ => h.gone (by rw [hr]; simp), h.stageE, h.stageK,
      (fun h => by cases h), fun _ => ?_, h.only⟩, ?_⟩
    · cases h.second (by rw [hr]; simp) with
      | waiting _ hp => rw [hp] at hd; cases hd
      | killing _ hp => rw [hp] at hd; cases hd
      | done _ hp => rw [hp] at hd; cases hd
      | failed _ _ hl => exact hl
    · unfold Node.measure
      simp only [hr]; omega

theorem timeout_inv {c : Timeouts} {reg : List Component} {n m : Node} (hc : (core reg).Nodup) (h : NInv c reg n)
    (hw : Timeout c reg n m) : NInv c reg m ∧ m.measure reg < n.measure reg := by
  cases hw with
  | first hr hg =>
    refine ⟨core_inv hc (late_inv 0 h) hr (.inr List.mem_cons_self), ?_⟩
    have := start_measure c.second 1 ((core reg).map some) (.late 0 :: n.log)
    rw [filterMap_some] at this
    unfold Node.measure
    simp only [hr, beginCore]
    omega
  | second hr hg =>
    have h' := late_inv 1 h
    refine ⟨⟨h'.first, fun _ => h'.second (by show n.stage ≠ _; rw [hr]; simp), (fun h => by cases h), fun _ => h'.gone (by show n.stage ≠ _; rw [hr]; simp), h'.stageE, h'.stageK,
      (fun h => by cases h), fun _ => List.mem_cons_self, h'.only⟩, ?_⟩
    unfold Node.measure
    simp only [hr]; omega

theorem run_inv {c : Timeouts} {reg : List Component} {log : Log} {n : Node} {k : Nat} (ha : (aux reg).Nodup) (hc : (core reg).Nodup)
    (hl : ∀ e ∈ log, ∃ a, e = Act.gone a) (h : Run c reg (begin c reg log) n k) :
    NInv c reg n ∧ k + n.measure reg ≤ (begin c reg log).measure reg := by
  generalize hb : begin c reg log = n0 at h
  induction h with
  | refl => subst hb; exact ⟨begin_inv c reg log ha hl, by omega⟩
  | work m o k _ hs ih =>
    obtain ⟨i1, i2⟩ := ih
    obtain ⟨j1, j2⟩ := work_inv ha hc i1 hs
    exact ⟨j1, by omega⟩
  | timeout m o k _ hs ih =>
    obtain ⟨i1, i2⟩ := ih
    obtain ⟨j1, j2⟩ := timeout_inv hc i1 hs
    exact ⟨j1, by omega⟩
  | gone m o k _ hs ih =>
    obtain ⟨i1, i2⟩ := ih
    cases hs with
    | gone a hg =>
      refine ⟨gone_inv a i1, ?_⟩
      have : ({ m with log := .gone a :: m.log, first := notify a m.first, second := notify a m.second } : Node).measure reg = m.measure reg := by
        unfold Node.measure
        simp only [notify_measure]
      omega

end Verif.Shutdown
