import Verif.Shutdown.Spec

/-! # Invariants of terminators -/

namespace Verif.Shutdown
open Verif.Shutdown.Spec

theorem whenever_cons {log : Log} {e x : Act} {P : Log → Prop} (h : Whenever log x P) (he : e = x → P log) :
    Whenever (e :: log) x P := by
  intro l1 l2 hl
  cases l1 with
  | nil => cases hl; exact he rfl
  | cons b l1 => cases hl; exact h l1 l2 rfl

/-- The actors of DOWN messages. -/
def downOf : Msg → Option Nat
  | .down a => some a
  | _ => none

/-- Monitored actors, and those with a DOWN message. -/
def Term.tracked (s : Term) : List Nat := s.monitors ++ s.mailbox.filterMap downOf

/-- What holds in all phases. -/
structure Base (cfg : Config) (t : Nat) (xs : List Nat) (s : Term) (log : Log) : Prop where
  left : ∀ z ∈ xs, z ∈ s.remaining ∨ Act.gone z ∈ log
  sub : ∀ z ∈ s.remaining, z ∈ xs
  nodup : s.remaining.Nodup
  downs : ∀ a, Msg.down a ∈ s.mailbox → Act.gone a ∈ log
  mons : ∀ a ∈ s.monitors, Act.gone a ∉ log
  told : ∀ a ∈ s.monitors, Act.exit t a ∈ log ∨ Act.kill t a ∈ log
  lates : Msg.shutdown ∈ s.mailbox → Act.late t ∈ log
  kills : ∀ a, Whenever log (.kill t a) fun l => Act.late t ∈ l
  exits : cfg.policy = .sequential → ∀ a, Whenever log (.exit t a) fun l => ∀ z, Precedes xs z a → Act.gone z ∈ l
  whoE : ∀ a, Act.exit t a ∈ log → a ∈ xs
  whoK : ∀ a, Act.kill t a ∈ log → a ∈ xs

/-- What holds of the timer and its message while waiting. -/
def WaitTimer (cfg : Config) (s : Term) : Prop :=
  Msg.stop ∉ s.mailbox ∧
  ((s.timer = some .shutdown ∧ Msg.shutdown ∉ s.mailbox) ∨ (s.timer = none ∧ s.mailbox.count .shutdown = 1) ∨
    (cfg.grace = false ∧ s.timer = none ∧ Msg.shutdown ∉ s.mailbox))

/-- What is monitored while waiting. -/
def WaitTracked (cfg : Config) (xs : List Nat) (s : Term) : Prop :=
  s.remaining ≠ [] ∧
  match cfg.policy with
  | .sequential => s.remaining <:+ xs ∧ ∃ b bs, s.remaining = b :: bs ∧ s.tracked.Perm [b]
  | .parallel => s.tracked.Perm s.remaining

/-- What holds of a terminator. -/
inductive Inv (cfg : Config) (t : Nat) (xs : List Nat) (s : Term) (log : Log) : Prop where
  | waiting (hb : Base cfg t xs s log) (hp : s.phase = .waiting) (ht : WaitTimer cfg s) (hw : WaitTracked cfg xs s)
  | killing (hb : Base cfg t xs s log) (hp : s.phase = .killing) (hl : Act.late t ∈ log) (hr : s.remaining ≠ [])
      (hs : Msg.shutdown ∉ s.mailbox)
      (ht : s.timer = some .stop ∨ s.timer = none ∧ Msg.stop ∈ s.mailbox) (hw : ∀ a ∈ s.remaining, a ∈ s.tracked)
  | done (hb : Base cfg t xs s log) (hp : s.phase = .done) (hr : s.remaining = [])
  | failed (hb : Base cfg t xs s log) (hp : s.phase = .failed) (hl : Act.late t ∈ log)

theorem Inv.base {cfg t xs s log} (h : Inv cfg t xs s log) : Base cfg t xs s log := by
  cases h with | waiting hb => exact hb | killing hb => exact hb | done hb => exact hb | failed hb => exact hb

theorem Inv.nofault {cfg t xs s log} (h : Inv cfg t xs s log) : s.phase ≠ .fault := by
  cases h with
  | waiting _ hp => rw [hp]; simp
  | killing _ hp => rw [hp]; simp
  | done _ hp => rw [hp]; simp
  | failed _ hp => rw [hp]; simp

/-! ### What others do -/

/-- Something that is none of this terminator's business happens. -/
theorem Base.other {cfg t xs s log} (h : Base cfg t xs s log) {e : Act} (h1 : ∀ a, e ≠ .exit t a) (h2 : ∀ a, e ≠ .kill t a)
    (h3 : ∀ a, e ≠ .gone a) : Base cfg t xs s (e :: log) where
  left z hz := (h.left z hz).imp id (List.mem_cons_of_mem _)
  sub := h.sub
  nodup := h.nodup
  downs a ha := List.mem_cons_of_mem _ (h.downs a ha)
  mons a ha hg := by
    rcases List.mem_cons.1 hg with hg | hg
    · exact h3 a hg.symm
    · exact h.mons a ha hg
  told a ha := (h.told a ha).imp (List.mem_cons_of_mem _) (List.mem_cons_of_mem _)
  lates hm := List.mem_cons_of_mem _ (h.lates hm)
  kills a := whenever_cons (h.kills a) fun he => absurd he (h2 a)
  exits hp a := whenever_cons (h.exits hp a) fun he => absurd he (h1 a)
  whoE a ha := by
    rcases List.mem_cons.1 ha with ha | ha
    · exact absurd ha.symm (h1 a)
    · exact h.whoE a ha
  whoK a ha := by
    rcases List.mem_cons.1 ha with ha | ha
    · exact absurd ha.symm (h2 a)
    · exact h.whoK a ha

theorem Inv.other {cfg t xs s log} (h : Inv cfg t xs s log) {e : Act} (h1 : ∀ a, e ≠ .exit t a) (h2 : ∀ a, e ≠ .kill t a)
    (h3 : ∀ a, e ≠ .gone a) : Inv cfg t xs s (e :: log) := by
  cases h with
  | waiting hb hp ht hw => exact .waiting (hb.other h1 h2 h3) hp ht hw
  | killing hb hp hl hr hs ht hw => exact .killing (hb.other h1 h2 h3) hp (List.mem_cons_of_mem _ hl) hr hs ht hw
  | done hb hp hr => exact .done (hb.other h1 h2 h3) hp hr
  | failed hb hp hl => exact .failed (hb.other h1 h2 h3) hp (List.mem_cons_of_mem _ hl)

theorem filterMap_downs : ∀ (xs : List Nat), (xs.map Msg.down).filterMap downOf = xs
  | [] => rfl
  | x :: xs => by rw [List.map_cons, List.filterMap_cons, filterMap_downs xs]; rfl

theorem filter_perm (a : Nat) : ∀ (xs : List Nat), (xs.filter (· ≠ a) ++ xs.filter (· = a)).Perm xs
  | [] => .nil
  | x :: xs => by
    by_cases h : x = a
    · rw [List.filter_cons_of_neg (by simp [h]), List.filter_cons_of_pos (by simp [h])]
      exact List.perm_middle.trans ((filter_perm a xs).cons x)
    · rw [List.filter_cons_of_pos (by simp [h]), List.filter_cons_of_neg (by simp [h]), List.cons_append]
      exact (filter_perm a xs).cons x

theorem notify_tracked (a : Nat) (s : Term) : (notify a s).tracked.Perm s.tracked := by
  unfold Term.tracked notify
  simp only [List.filterMap_append, filterMap_downs]
  refine (List.Perm.append_left _ List.perm_append_comm).trans ?_
  rw [← List.append_assoc]
  exact List.Perm.append_right _ (filter_perm a s.monitors)

theorem notify_mem {a : Nat} {s : Term} {m : Msg} (hm : ∀ b, m ≠ .down b) : m ∈ (notify a s).mailbox ↔ m ∈ s.mailbox := by
  unfold notify
  simp only [List.mem_append, List.mem_map]
  constructor
  · rintro (h | ⟨b, _, h⟩)
    · exact h
    · exact absurd h.symm (hm b)
  · exact .inl

theorem notify_count (a : Nat) (s : Term) : (notify a s).mailbox.count .shutdown = s.mailbox.count .shutdown := by
  unfold notify
  simp only [List.count_append]
  rw [List.count_eq_zero (l := List.map Msg.down _) |>.2 (by simp), Nat.add_zero]

theorem Base.gone {cfg t xs s log} (h : Base cfg t xs s log) (a : Nat) : Base cfg t xs (notify a s) (.gone a :: log) where
  left z hz := (h.left z hz).imp id (List.mem_cons_of_mem _)
  sub := h.sub
  nodup := h.nodup
  downs b hb := by
    unfold notify at hb
    simp only [List.mem_append, List.mem_map, List.mem_filter, decide_eq_true_eq] at hb
    rcases hb with hb | ⟨c, ⟨_, rfl⟩, hc⟩
    · exact List.mem_cons_of_mem _ (h.downs b hb)
    · cases hc; exact List.mem_cons_self
  mons b hb hg := by
    unfold notify at hb
    simp only [List.mem_filter, decide_eq_true_eq] at hb
    rcases List.mem_cons.1 hg with hg | hg
    · cases hg; exact hb.2 rfl
    · exact h.mons b hb.1 hg
  told b hb := (h.told b (List.mem_filter.1 (show b ∈ s.monitors.filter _ from hb)).1).imp (List.mem_cons_of_mem _) (List.mem_cons_of_mem _)
  lates hm := List.mem_cons_of_mem _ (h.lates ((notify_mem (fun _ h => by cases h)).1 hm))
  kills a := whenever_cons (h.kills a) fun he => by cases he
  exits hp a := whenever_cons (h.exits hp a) fun he => by cases he
  whoE a ha := by
    rcases List.mem_cons.1 ha with ha | ha
    · cases ha
    · exact h.whoE a ha
  whoK a ha := by
    rcases List.mem_cons.1 ha with ha | ha
    · cases ha
    · exact h.whoK a ha

theorem Inv.gone {cfg t xs s log} (h : Inv cfg t xs s log) (a : Nat) : Inv cfg t xs (notify a s) (.gone a :: log) := by
  have n1 : ∀ b, Msg.shutdown ≠ .down b := fun _ h => by cases h
  have n2 : ∀ b, Msg.stop ≠ .down b := fun _ h => by cases h
  cases h with
  | waiting hb hp ht hw =>
    refine .waiting (hb.gone a) hp ⟨fun h => ht.1 ((notify_mem n2).1 h), ?_⟩ ⟨hw.1, ?_⟩
    · rw [notify_count, notify_mem n1]; exact ht.2
    · have h2 := hw.2
      cases hc : cfg.policy with
      | sequential =>
        rw [hc] at h2
        obtain ⟨h2, b, bs, h3, h4⟩ := h2
        exact ⟨h2, b, bs, h3, (notify_tracked a s).trans h4⟩
      | parallel =>
        rw [hc] at h2
        exact (notify_tracked a s).trans h2
  | killing hb hp hl hr hs ht hw =>
    refine .killing (hb.gone a) hp (List.mem_cons_of_mem _ hl) hr (fun h => hs ((notify_mem n1).1 h)) ?_
      (fun b hb => (notify_tracked a s).mem_iff.2 (hw b hb))
    rw [notify_mem n2]; exact ht
  | done hb hp hr => exact .done (hb.gone a) hp hr
  | failed hb hp hl => exact .failed (hb.gone a) hp (List.mem_cons_of_mem _ hl)

/-! ### What the terminator does -/

theorem monitor_tracked (log : Log) (a : Nat) (s : Term) : (monitor log a s).tracked.Perm (a :: s.tracked) := by
  unfold monitor
  split
  · unfold Term.tracked
    simp only [List.filterMap_append, List.filterMap_cons, List.filterMap_nil, downOf]
    rw [← List.append_assoc]
    exact List.perm_append_singleton _ _
  · exact List.Perm.refl _

theorem monitor_remaining (log : Log) (a : Nat) (s : Term) : (monitor log a s).remaining = s.remaining := by
  unfold monitor; split <;> rfl
theorem monitor_timer (log : Log) (a : Nat) (s : Term) : (monitor log a s).timer = s.timer := by
  unfold monitor; split <;> rfl
theorem monitor_phase (log : Log) (a : Nat) (s : Term) : (monitor log a s).phase = s.phase := by
  unfold monitor; split <;> rfl
theorem monitor_mem {log : Log} {a : Nat} {s : Term} {m : Msg} (hm : ∀ b, m ≠ .down b) :
    m ∈ (monitor log a s).mailbox ↔ m ∈ s.mailbox := by
  unfold monitor
  split
  · simp [hm]
  · rfl
theorem monitor_count (log : Log) (a : Nat) (s : Term) : (monitor log a s).mailbox.count .shutdown = s.mailbox.count .shutdown := by
  unfold monitor
  split
  · simp
  · rfl

/-- Monitoring an actor that is told to terminate. -/
theorem Base.monitor {cfg t xs s log} (h : Base cfg t xs s log) (a : Nat) {e : Act} (ha : a ∈ xs)
    (he : e = .exit t a ∨ e = .kill t a) (hk : e = .kill t a → Act.late t ∈ log)
    (hx : cfg.policy = .sequential → e = .exit t a → ∀ z, Precedes xs z a → Act.gone z ∈ log) :
    Base cfg t xs (monitor log a s) (e :: log) where
  left z hz := by rw [monitor_remaining]; exact (h.left z hz).imp id (List.mem_cons_of_mem _)
  sub := by rw [monitor_remaining]; exact h.sub
  nodup := by rw [monitor_remaining]; exact h.nodup
  downs b hb := by
    refine List.mem_cons_of_mem _ ?_
    unfold Shutdown.monitor at hb
    split at hb
    · rename_i hg
      rcases List.mem_append.1 hb with hb | hb
      · exact h.downs b hb
      · rw [List.mem_singleton] at hb; cases hb; exact hg
    · exact h.downs b hb
  mons b hb hg := by
    have hg : Act.gone b ∈ log := by
      rcases List.mem_cons.1 hg with hg | hg
      · rcases he with he | he <;> (rw [he] at hg; cases hg)
      · exact hg
    unfold Shutdown.monitor at hb
    split at hb
    · exact h.mons b hb hg
    · rename_i hn
      rcases List.mem_cons.1 hb with rfl | hb
      · exact hn hg
      · exact h.mons b hb hg
  told b hb := by
    have key : b = a ∨ b ∈ s.monitors := by
      unfold Shutdown.monitor at hb
      split at hb
      · exact .inr hb
      · exact List.mem_cons.1 hb
    rcases key with rfl | hb
    · rcases he with he | he
      · exact .inl (he ▸ List.mem_cons_self)
      · exact .inr (he ▸ List.mem_cons_self)
    · exact (h.told b hb).imp (List.mem_cons_of_mem _) (List.mem_cons_of_mem _)
  lates hm := List.mem_cons_of_mem _ (h.lates ((monitor_mem (fun _ h => by cases h)).1 hm))
  kills b := whenever_cons (h.kills b) fun hb => by
    rcases he with he | he
    · rw [he] at hb; cases hb
    · exact hk he
  exits hp b := whenever_cons (h.exits hp b) fun hb => by
    rcases he with he | he
    · rw [he] at hb; cases hb; exact hx hp he
    · rw [he] at hb; cases hb
  whoE b hb := by
    rcases List.mem_cons.1 hb with hb | hb
    · rcases he with he | he <;> (rw [he] at hb; cases hb); exact ha
    · exact h.whoE b hb
  whoK b hb := by
    rcases List.mem_cons.1 hb with hb | hb
    · rcases he with he | he <;> (rw [he] at hb; cases hb); exact ha
    · exact h.whoK b hb

/-- The next one in sequence. -/
theorem next_seq {cfg t xs s log} (hc : cfg.policy = .sequential) (hx : xs.Nodup) (h : Base cfg t xs s log) {b : Nat} {bs : List Nat}
    (hr : s.remaining = b :: bs) (hs : s.remaining <:+ xs) (hp : s.phase = .waiting) (ht : WaitTimer cfg s) (hw : s.tracked = []) :
    Inv cfg t xs (next t b s log).1 (next t b s log).2 := by
  have n1 : ∀ b, Msg.shutdown ≠ .down b := fun _ h => by cases h
  have n2 : ∀ b, Msg.stop ≠ .down b := fun _ h => by cases h
  have hbx : b ∈ xs := h.sub b (hr ▸ List.mem_cons_self)
  refine .waiting (h.monitor b hbx (.inl rfl) (fun e => by cases e) fun _ _ z hz => ?_) ((monitor_phase _ _ _).trans hp) ⟨?_, ?_⟩ ⟨?_, ?_⟩
  · obtain ⟨p, m, q, hxs⟩ := hz
    refine (h.left z (hxs ▸ by simp)).resolve_left fun hzr => ?_
    obtain ⟨p0, hp0⟩ := hs
    rw [hr] at hp0 hzr
    rw [hxs] at hx
    have e : p ++ z :: (m ++ b :: q) = (p ++ z :: m) ++ b :: q := by simp
    rw [hxs, e] at hp0
    rw [e] at hx
    -- the part before `b` is the same in both
    have hd := List.nodup_append.1 hx
    have hbn : b ∉ p ++ z :: m := fun hb => hd.2.2 b hb b List.mem_cons_self rfl
    have hlen : p0.length = (p ++ z :: m).length := by
      have hx0 := hp0 ▸ hx
      have hd0 := List.nodup_append.1 hx0
      have hbn0 : b ∉ p0 := fun hb => hd0.2.2 b hb b List.mem_cons_self rfl
      have i1 : (p0 ++ b :: bs).idxOf b = p0.length := by
        rw [List.idxOf_append, if_neg hbn0]; simp
      have i2 : ((p ++ z :: m) ++ b :: q).idxOf b = (p ++ z :: m).length := by
        rw [List.idxOf_append, if_neg hbn]; simp
      rw [← i1, hp0, i2]
    have heq := (List.append_inj hp0 hlen).2
    cases heq
    exact hd.2.2 z (by simp) z hzr rfl
  · rw [show (next t b s log).1 = monitor log b s from rfl, monitor_mem n2]; exact ht.1
  · rw [show (next t b s log).1 = monitor log b s from rfl, monitor_mem n1, monitor_count, monitor_timer]; exact ht.2
  · rw [show (next t b s log).1 = monitor log b s from rfl, monitor_remaining, hr]; simp
  · rw [hc]
    rw [show (next t b s log).1 = monitor log b s from rfl, monitor_remaining]
    refine ⟨hs, b, bs, hr, ?_⟩
    have := monitor_tracked log b s
    rw [hw] at this
    exact this

theorem all_par {cfg t xs} (hc : cfg.policy = .parallel) : ∀ (as : List Nat) (s : Term) (log : Log),
    (∀ a ∈ as, a ∈ xs) → Base cfg t xs s log → s.phase = .waiting → WaitTimer cfg s →
    Base cfg t xs (all t as s log).1 (all t as s log).2 ∧ (all t as s log).1.phase = .waiting ∧ WaitTimer cfg (all t as s log).1 ∧
    (all t as s log).1.remaining = s.remaining ∧ (all t as s log).1.tracked.Perm (as ++ s.tracked)
  | [], s, log, _, h, hp, ht => ⟨h, hp, ht, rfl, .refl _⟩
  | a :: as, s, log, ha, h, hp, ht => by
    have n1 : ∀ b, Msg.shutdown ≠ .down b := fun _ h => by cases h
    have n2 : ∀ b, Msg.stop ≠ .down b := fun _ h => by cases h
    have hb := h.monitor a (ha a List.mem_cons_self) (e := .exit t a) (.inl rfl) (fun e => by cases e)
      (fun h' => by rw [hc] at h'; cases h')
    have ht' : WaitTimer cfg (monitor log a s) := by
      refine ⟨?_, ?_⟩
      · rw [monitor_mem n2]; exact ht.1
      · rw [monitor_mem n1, monitor_count, monitor_timer]; exact ht.2
    obtain ⟨i1, i2, i3, i4, i5⟩ := all_par hc as (monitor log a s) (.exit t a :: log) (fun b hb => ha b (List.mem_cons_of_mem _ hb)) hb
      ((monitor_phase _ _ _).trans hp) ht'
    refine ⟨i1, i2, i3, i4.trans (monitor_remaining _ _ _), i5.trans ?_⟩
    exact (List.Perm.append_left as (monitor_tracked log a s)).trans List.perm_middle

/-- A log without anything of this terminator. -/
def Fresh (t : Nat) (log : Log) : Prop := ∀ a, Act.exit t a ∉ log ∧ Act.kill t a ∉ log

theorem whenever_of_not_mem {log : Log} {x : Act} {P : Log → Prop} (h : x ∉ log) : Whenever log x P := fun _ _ hl =>
  absurd (hl ▸ List.mem_append_right _ List.mem_cons_self) h

theorem start_inv (cfg : Config) (t : Nat) (xs : List (Option Nat)) (log : Log) (hx : (xs.filterMap id).Nodup) (hf : Fresh t log) :
    Inv cfg t (xs.filterMap id) (start cfg t xs log).1 (start cfg t xs log).2 := by
  have base : ∀ s : Term, s.remaining = xs.filterMap id → s.mailbox = [] → s.monitors = [] → Base cfg t (xs.filterMap id) s log := by
    intro s h1 h2 h3
    refine ⟨fun z hz => .inl (h1 ▸ hz), fun z hz => h1 ▸ hz, h1 ▸ hx, ?_, ?_, ?_, ?_, ?_, ?_, ?_, ?_⟩
    · intro a ha; rw [h2] at ha; cases ha
    · intro a ha; rw [h3] at ha; cases ha
    · intro a ha; rw [h3] at ha; cases ha
    · intro ha; rw [h2] at ha; cases ha
    · intro a; exact whenever_of_not_mem (hf a).2
    · intro _ a; exact whenever_of_not_mem (hf a).1
    · intro a ha; exact absurd ha (hf a).1
    · intro a ha; exact absurd ha (hf a).2
  unfold start
  split
  · rename_i h
    exact .done (base _ h.symm rfl rfl) rfl rfl
  · rename_i a as h
    have hb := base { remaining := a :: as, timer := if cfg.grace then some .shutdown else none } h.symm rfl rfl
    have ht : WaitTimer cfg { remaining := a :: as, timer := if cfg.grace then some .shutdown else none } := by
      refine ⟨by simp, ?_⟩
      cases hg : cfg.grace
      · exact .inr (.inr ⟨rfl, rfl, by simp⟩)
      · exact .inl ⟨rfl, by simp⟩
    cases hc : cfg.policy with
    | sequential =>
      exact next_seq hc hx hb rfl (h ▸ List.suffix_refl _) rfl ht rfl
    | parallel =>
      obtain ⟨i1, i2, i3, i4, i5⟩ := all_par hc (a :: as) _ log (fun b hb => h ▸ hb) hb rfl ht
      refine .waiting i1 i2 i3 ⟨by rw [i4]; simp, ?_⟩
      rw [hc]
      show List.Perm _ _
      rw [i4]
      have : ([] : List Nat) = Term.tracked { remaining := a :: as, timer := if cfg.grace then some .shutdown else none } := rfl
      rw [← this, List.append_nil] at i5
      exact i5

theorem erase_mem {a b : Nat} {xs : List Nat} (h : xs.Nodup) : b ∈ erase a xs ↔ b ≠ a ∧ b ∈ xs := by
  unfold erase
  rw [List.mem_reverse, List.Nodup.mem_erase_iff ((List.reverse_perm xs).nodup_iff.2 h), List.mem_reverse]

theorem erase_nodup {a : Nat} {xs : List Nat} (h : xs.Nodup) : (erase a xs).Nodup :=
  (List.reverse_perm _).nodup_iff.2 (((List.reverse_perm xs).nodup_iff.2 h).erase a)

theorem erase_perm (a : Nat) (xs : List Nat) : (erase a xs).Perm (xs.erase a) :=
  (List.reverse_perm _).trans ((List.reverse_perm xs).erase a)

theorem erase_head {b : Nat} {bs : List Nat} (h : (b :: bs).Nodup) : erase b (b :: bs) = bs := by
  unfold erase
  rw [List.reverse_cons, List.erase_append_right _ (by rw [List.mem_reverse]; exact (List.nodup_cons.1 h).1)]
  simp

/-- A DOWN message of `a` is out of the mailbox and the actor is out of the vector. -/
theorem Base.down {cfg t xs s log} (h : Base cfg t xs s log) {a : Nat} {ms : List Msg} {p : Phase} (hm : s.mailbox = .down a :: ms) :
    Base cfg t xs { s with mailbox := ms, remaining := erase a s.remaining, phase := p } log where
  left z hz := by
    by_cases hza : z = a
    · exact .inr (hza ▸ h.downs a (hm ▸ List.mem_cons_self))
    · exact (h.left z hz).imp (fun hr => (erase_mem h.nodup).2 ⟨hza, hr⟩) id
  sub z hz := h.sub z ((erase_mem h.nodup).1 hz).2
  nodup := erase_nodup h.nodup
  downs b hb := h.downs b (hm ▸ List.mem_cons_of_mem _ hb)
  mons := h.mons
  told := h.told
  lates hb := h.lates (hm ▸ List.mem_cons_of_mem _ hb)
  kills := h.kills
  exits := h.exits
  whoE := h.whoE
  whoK := h.whoK

/-- A message is out of the mailbox. -/
theorem Base.taken {cfg t xs s log} (h : Base cfg t xs s log) {m : Msg} {ms : List Msg} {p : Phase} (hm : s.mailbox = m :: ms) :
    Base cfg t xs { s with mailbox := ms, phase := p } log where
  left := h.left
  sub := h.sub
  nodup := h.nodup
  downs b hb := h.downs b (hm ▸ List.mem_cons_of_mem _ hb)
  mons := h.mons
  told := h.told
  lates hb := h.lates (hm ▸ List.mem_cons_of_mem _ hb)
  kills := h.kills
  exits := h.exits
  whoE := h.whoE
  whoK := h.whoK

theorem killAll_spec {cfg t xs} : ∀ (as : List Nat) (s : Term) (log : Log),
    (∀ a ∈ as, a ∈ xs) → Base cfg t xs s log → Act.late t ∈ log →
    Base cfg t xs (killAll cfg t as s log).1 (killAll cfg t as s log).2 ∧ Act.late t ∈ (killAll cfg t as s log).2 ∧
    (killAll cfg t as s log).1.remaining = s.remaining ∧
    (killAll cfg t as s log).1.timer = s.timer ∧
    (∀ m : Msg, (∀ b, m ≠ .down b) → (m ∈ (killAll cfg t as s log).1.mailbox ↔ m ∈ s.mailbox)) ∧
    (killAll cfg t as s log).1.tracked.Perm ((match cfg.policy with | .sequential => as.reverse | .parallel => []) ++ s.tracked)
  | [], s, log, _, h, hl => by
    refine ⟨h, hl, rfl, rfl, fun _ _ => Iff.rfl, ?_⟩
    rw [killAll]
    cases cfg.policy <;> exact .refl _
  | a :: as, s, log, ha, h, hl => by
    have has := fun b hb => ha b (List.mem_cons_of_mem _ hb)
    cases hc : cfg.policy with
    | sequential =>
      have hb := h.monitor a (ha a List.mem_cons_self) (e := .kill t a) (.inr rfl) (fun _ => hl) (fun _ h' => by cases h')
      obtain ⟨i1, i2, i3, i4, i5, i6⟩ := killAll_spec as (monitor log a s) (.kill t a :: log) has hb (List.mem_cons_of_mem _ hl)
      rw [killAll, watch, hc]
      refine ⟨i1, i2, i3.trans (monitor_remaining _ _ _), i4.trans (monitor_timer _ _ _), fun m hm => (i5 m hm).trans (monitor_mem hm), ?_⟩
      rw [hc] at i6
      refine i6.trans ?_
      simp only [List.reverse_cons, List.append_assoc]
      exact List.Perm.append_left _ (monitor_tracked log a s)
    | parallel =>
      have hb : Base cfg t xs s (.kill t a :: log) := by
        refine ⟨fun z hz => (h.left z hz).imp id (List.mem_cons_of_mem _), h.sub, h.nodup, fun b hb => List.mem_cons_of_mem _ (h.downs b hb),
          ?_, fun b hb => (h.told b hb).imp (List.mem_cons_of_mem _) (List.mem_cons_of_mem _), fun hm => List.mem_cons_of_mem _ (h.lates hm),
          fun b => whenever_cons (h.kills b) fun _ => hl, fun hp b => whenever_cons (h.exits hp b) fun he => (by cases he), ?_, ?_⟩
        · intro b hb hg
          rcases List.mem_cons.1 hg with hg | hg
          · cases hg
          · exact h.mons b hb hg
        · intro b hb
          rcases List.mem_cons.1 hb with hb | hb
          · cases hb
          · exact h.whoE b hb
        · intro b hb
          rcases List.mem_cons.1 hb with hb | hb
          · cases hb; exact ha a List.mem_cons_self
          · exact h.whoK b hb
      obtain ⟨i1, i2, i3, i4, i5, i6⟩ := killAll_spec as s (.kill t a :: log) has hb (List.mem_cons_of_mem _ hl)
      rw [killAll, watch, hc]
      refine ⟨i1, i2, i3, i4, i5, ?_⟩
      rw [hc] at i6
      exact i6

theorem tracked_cons_down {s : Term} {a : Nat} {ms : List Msg} (hm : s.mailbox = .down a :: ms) :
    s.tracked.Perm (a :: Term.tracked { s with mailbox := ms }) := by
  unfold Term.tracked
  rw [hm]
  exact List.perm_middle

theorem tracked_cons {s : Term} {m : Msg} {ms : List Msg} (hm : s.mailbox = m :: ms) (hd : ∀ a, m ≠ .down a) :
    Term.tracked { s with mailbox := ms } = s.tracked := by
  unfold Term.tracked
  rw [hm, List.filterMap_cons]
  cases m with
  | down a => exact absurd rfl (hd a)
  | shutdown => rfl
  | stop => rfl

theorem own_inv {cfg t xs s log s' log'} (hx : xs.Nodup) (h : Inv cfg t xs s log) (ho : Own cfg t s log s' log') :
    Inv cfg t xs s' log' := by
  cases ho with
  | fire m ht hr =>
    cases h with
    | waiting hb hp hw htr =>
      have hm : m = .shutdown ∧ Msg.shutdown ∉ s.mailbox := by
        rcases hw.2 with ⟨h1, h2⟩ | ⟨h1, _⟩ | ⟨_, h1, _⟩
        · rw [h1] at ht; cases ht; exact ⟨rfl, h2⟩
        · rw [h1] at ht; cases ht
        · rw [h1] at ht; cases ht
      obtain ⟨rfl, hn⟩ := hm
      have hb' := hb.other (e := .late t) (fun _ h => by cases h) (fun _ h => by cases h) (fun _ h => by cases h)
      refine .waiting ⟨hb'.left, hb'.sub, hb'.nodup, ?_, hb'.mons, hb'.told, fun _ => List.mem_cons_self, hb'.kills, hb'.exits, hb'.whoE, hb'.whoK⟩
        hp ⟨?_, .inr (.inl ⟨rfl, ?_⟩)⟩ ⟨htr.1, ?_⟩
      · intro a ha
        rcases List.mem_append.1 ha with ha | ha
        · exact hb'.downs a ha
        · rw [List.mem_singleton] at ha; cases ha
      · intro hs
        rcases List.mem_append.1 hs with hs | hs
        · exact hw.1 hs
        · rw [List.mem_singleton] at hs; cases hs
      · show (s.mailbox ++ [Msg.shutdown]).count .shutdown = 1
        rw [List.count_append, List.count_eq_zero.2 hn]; rfl
      · have : Term.tracked { s with timer := none, mailbox := s.mailbox ++ [Msg.shutdown] } = s.tracked := by
          unfold Term.tracked
          simp [downOf]
        rw [this]
        exact htr.2
    | killing hb hp hl hrem hs htm hw =>
      have hm : m = .stop := by
        rcases htm with h1 | ⟨h1, _⟩
        · rw [h1] at ht; cases ht; rfl
        · rw [h1] at ht; cases ht
      subst hm
      have hb' := hb.other (e := .late t) (fun _ h => by cases h) (fun _ h => by cases h) (fun _ h => by cases h)
      refine .killing ⟨hb'.left, hb'.sub, hb'.nodup, ?_, hb'.mons, hb'.told, fun _ => List.mem_cons_self, hb'.kills, hb'.exits, hb'.whoE, hb'.whoK⟩
        hp List.mem_cons_self hrem ?_ (.inr ⟨rfl, by simp⟩) ?_
      · intro a ha
        rcases List.mem_append.1 ha with ha | ha
        · exact hb'.downs a ha
        · rw [List.mem_singleton] at ha; cases ha
      · intro hs'
        rcases List.mem_append.1 hs' with hs' | hs'
        · exact hs hs'
        · rw [List.mem_singleton] at hs'; cases hs'
      · have : Term.tracked { s with timer := none, mailbox := s.mailbox ++ [Msg.stop] } = s.tracked := by
          unfold Term.tracked
          simp [downOf]
        rw [this]
        exact hw
    | done _ hp => rcases hr with hr | hr <;> (rw [hp] at hr; cases hr)
    | failed _ hp => rcases hr with hr | hr <;> (rw [hp] at hr; cases hr)
  | handle m ms hm hr =>
    cases h with
    | done _ hp => rcases hr with hr | hr <;> (rw [hp] at hr; cases hr)
    | failed _ hp => rcases hr with hr | hr <;> (rw [hp] at hr; cases hr)
    | waiting hb hp ht hw =>
      cases m with
      | stop => exact absurd (hm ▸ List.mem_cons_self) ht.1
      | down a =>
        have ht' : ∀ r : List Nat, WaitTimer cfg { s with mailbox := ms, remaining := r } := by
          intro r
          refine ⟨fun h => ht.1 (hm ▸ List.mem_cons_of_mem _ h), ?_⟩
          have h2 := ht.2
          rw [hm] at h2
          simpa using h2
        have ha : a ∈ s.tracked := (tracked_cons_down hm).mem_iff.2 List.mem_cons_self
        simp only [handle, hp]
        cases hc : cfg.policy with
        | sequential =>
          have h2 := hw.2
          rw [hc] at h2
          obtain ⟨h2, b, bs, h3, h4⟩ := h2
          have hab : a = b := List.mem_singleton.1 (h4.mem_iff.1 ha)
          subst hab
          have htr : Term.tracked { s with mailbox := ms } = [] := by
            have := ((tracked_cons_down hm).symm.trans h4).cons_inv
            exact List.perm_nil.1 this
          rw [if_pos (h3 ▸ List.mem_cons_self)]
          have he : erase a s.remaining = bs := by rw [h3]; exact erase_head (h3 ▸ hb.nodup)
          have hbd := hb.down hm (p := .waiting)
          rw [he] at hbd ⊢
          cases bs with
          | nil => exact .done (by have := hb.down hm (p := .done); rw [he] at this; exact this) rfl rfl
          | cons c cs =>
            have hsf : c :: cs <:+ xs := (List.suffix_cons a (c :: cs)).trans (h3 ▸ h2)
            have := next_seq hc hx hbd rfl hsf rfl (by rw [← hp]; exact ht' _) htr
            rw [← hp] at this
            simpa only [hp] using this
        | parallel =>
          have h2 := hw.2
          rw [hc] at h2
          have har : a ∈ s.remaining := h2.mem_iff.1 ha
          rw [if_pos har]
          have htr : (Term.tracked { s with mailbox := ms }).Perm (erase a s.remaining) := by
            have h5 := (tracked_cons_down hm).symm.trans h2
            have h6 := h5.erase a
            rw [List.erase_cons_head] at h6
            exact h6.trans (erase_perm a s.remaining).symm
          have hbd := hb.down hm (p := .waiting)
          have hbe := hb.down hm (p := .done)
          have ht'' := ht' (erase a s.remaining)
          cases he : erase a s.remaining with
          | nil => rw [he] at hbe; exact .done hbe rfl rfl
          | cons c cs =>
            rw [he] at hbd htr ht''
            refine .waiting ?_ rfl ?_ ⟨by simp, ?_⟩
            · exact hbd
            · exact ht''
            · rw [hc]
              exact htr
      | shutdown =>
        have hl : Act.late t ∈ log := hb.lates (hm ▸ List.mem_cons_self)
        have h2 := ht.2
        have hn : s.timer = none ∧ Msg.shutdown ∉ ms := by
          rw [hm] at h2
          rcases h2 with ⟨_, h⟩ | ⟨h1, h⟩ | ⟨_, _, h⟩
          · exact absurd List.mem_cons_self h
          · rw [List.count_cons_self] at h
            exact ⟨h1, List.count_eq_zero.1 (by omega)⟩
          · exact absurd List.mem_cons_self h
        have hbt := hb.taken hm (p := s.phase)
        obtain ⟨i1, i2, i3, i4, i5, i6⟩ := killAll_spec (cfg := cfg) (t := t) (xs := xs) s.remaining.reverse { s with mailbox := ms } log
          (fun a ha => hb.sub a (List.mem_reverse.1 ha)) hbt hl
        have htr : ∀ a ∈ s.remaining, a ∈ (killAll cfg t s.remaining.reverse { s with mailbox := ms } log).1.tracked := by
          intro a ha
          rw [i6.mem_iff]
          rw [tracked_cons hm (fun _ h => by cases h)]
          cases hc : cfg.policy with
          | sequential => simp [ha]
          | parallel =>
            have h3 := hw.2
            rw [hc] at h3
            exact List.mem_append_right _ (h3.mem_iff.2 ha)
        simp only [handle]
        rw [if_neg hw.1]
        have n1 : ∀ b, Msg.shutdown ≠ .down b := fun _ h => by cases h
        split
        · refine .killing ⟨i1.left, i1.sub, i1.nodup, i1.downs, i1.mons, i1.told, i1.lates, i1.kills, i1.exits, i1.whoE, i1.whoK⟩ rfl i2
            (by rw [show ∀ x : Term, ({ x with phase := Phase.killing, timer := some Msg.stop } : Term).remaining = x.remaining from fun _ => rfl, i3]; exact hw.1) (fun h => hn.2 ((i5 _ n1).1 h)) (.inl rfl) ?_
          intro a ha
          exact htr a (i3 ▸ ha)
        · refine .killing ⟨i1.left, i1.sub, i1.nodup, ?_, i1.mons, i1.told, ?_, i1.kills, i1.exits, i1.whoE, i1.whoK⟩ rfl i2
            (by
              show (killAll cfg t s.remaining.reverse { s with mailbox := ms } log).1.remaining ≠ []
              rw [i3]; exact hw.1) ?_ (.inr ⟨?_, ?_⟩) ?_
          · intro a ha
            rcases List.mem_append.1 ha with ha | ha
            · exact i1.downs a ha
            · rw [List.mem_singleton] at ha; cases ha
          · intro _; exact i2
          · intro h
            rcases List.mem_append.1 h with h | h
            · exact hn.2 ((i5 _ n1).1 h)
            · rw [List.mem_singleton] at h; cases h
          · exact i4.trans hn.1
          · exact List.mem_append_right _ (List.mem_singleton.2 rfl)
          · intro a ha
            have := htr a (i3 ▸ ha)
            unfold Term.tracked at this ⊢
            simp only [List.filterMap_append, List.mem_append] at this ⊢
            exact this.imp id .inl
    | killing hb hp hl hrem hs ht hw =>
      cases m with
      | shutdown => exact absurd (hm ▸ List.mem_cons_self) hs
      | stop =>
        simp only [handle]
        exact .failed (hb.taken hm) rfl hl
      | down a =>
        have hs' : Msg.shutdown ∉ ms := fun h => hs (hm ▸ List.mem_cons_of_mem _ h)
        have ht' : s.timer = some .stop ∨ s.timer = none ∧ Msg.stop ∈ ms := by
          rcases ht with ht | ⟨h1, h2⟩
          · exact .inl ht
          · rw [hm] at h2
            rcases List.mem_cons.1 h2 with h2 | h2
            · cases h2
            · exact .inr ⟨h1, h2⟩
        simp only [handle, hp]
        split
        · have hbd := hb.down hm (p := .killing)
          have hbe := hb.down hm (p := .done)
          have hmem := fun c => erase_mem (a := a) (b := c) hb.nodup
          cases he : erase a s.remaining with
          | nil => rw [he] at hbe; exact .done hbe rfl rfl
          | cons c cs =>
            rw [he] at hbd hmem
            refine .killing hbd rfl hl (by simp) hs' ht' ?_
            intro z hz
            have hz' := (hmem z).1 hz
            have h5 := (tracked_cons_down hm).mem_iff.1 (hw z hz'.2)
            rcases List.mem_cons.1 h5 with h5 | h5
            · exact absurd h5 hz'.1
            · exact h5
        · rename_i hna
          have := hb.taken hm (p := s.phase)
          rw [hp] at this
          refine .killing this rfl hl hrem hs' ht' ?_
          intro z hz
          have h5 := (tracked_cons_down hm).mem_iff.1 (hw z hz)
          rcases List.mem_cons.1 h5 with h5 | h5
          · exact absurd (h5 ▸ hz) hna
          · exact h5

end Verif.Shutdown
