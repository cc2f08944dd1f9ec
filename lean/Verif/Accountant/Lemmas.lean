import Verif.Accountant.Spec
/-!
# Lemmas about the accountant
-/
namespace Verif.Accountant
open Verif.Data Verif.Accountant.Spec

variable {R : Type}

/-- All rows, delivered or not. -/
def State.contents (s : State R) : List (Row R) := s.sent.flatten ++ s.buffer.flatten ++ s.builder

/-- The row for a metric. -/
def State.rowOf (s : State R) (m : Nat × Int × Str × R) : Row R := ⟨m.2.1, (s.names m.1).getD [], m.2.2.1, m.2.2.2⟩

/-- The rows that a metric adds for the importer. -/
def State.selfRows (D : Dbl R) (s : State R) (ms : List (Nat × Int × Str × R)) : List (Row R) :=
  if s.cfg.selfEnable then (ms.map s.rowOf).filter (fun r => D.finite r.value) else []

/-- The lines that metrics add. -/
def State.lines (s : State R) (ms : List (Nat × Int × Str × R)) : List (Str × Row R × Bool) :=
  match s.file with
  | some (p, true) => ms.map fun m => (p, s.rowOf m, s.cfg.fileRealTime)
  | _ => []

def State.streamed (s : State R) (ms : List (Nat × Int × Str × R)) : List (Str × Row R × Bool) :=
  match s.uds with
  | some p => ms.map fun m => (p, s.rowOf m, s.cfg.udsRealTime)
  | none => []

def State.datagrammed (s : State R) (ms : List (Nat × Int × Str × R)) : List (Str × Row R) :=
  match s.dgram with
  | some p => ms.map fun m => (p, s.rowOf m)
  | none => []

/-- Few rows wait, if the slice size is `n`, and slices are not empty and have at most `n` rows. -/
def State.Few (n : Nat) (s : State R) : Prop :=
  s.builder.length < n ∧ ∀ sl ∈ s.sent ++ s.buffer, 1 ≤ sl.length ∧ sl.length ≤ n

structure Adds (D : Dbl R) (s s' : State R) (ms : List (Nat × Int × Str × R)) : Prop where
  names : ∀ a, (s'.names a).getD [] = (s.names a).getD []
  cfg : s'.cfg = s.cfg
  alive : s'.alive = s.alive
  file : s'.file = s.file
  uds : s'.uds = s.uds
  dgram : s'.dgram = s.dgram
  sent : s'.sent = s.sent
  contents : s'.contents = s.contents ++ s.selfRows D ms
  files : toFiles s'.out = toFiles s.out ++ s.lines ms
  streams : toStreams s'.out = toStreams s.out ++ s.streamed ms
  dgrams : toDatagrams s'.out = toDatagrams s.out ++ s.datagrammed ms
  few : ∀ n : Nat, s.cfg.sliceSize = n → 1 ≤ n → n < 2 ^ 64 → s.Few n → s'.Few n

theorem Adds.refl (D : Dbl R) (s : State R) : Adds D s s [] := by
  constructor <;> simp [State.selfRows, State.lines, State.streamed, State.datagrammed]
  all_goals first | (split <;> rfl) | skip

theorem Adds.rowOf {D : Dbl R} {s s' : State R} {ms} (h : Adds D s s' ms) : s'.rowOf = s.rowOf := by
  funext m; simp [State.rowOf, h.names]

theorem Adds.trans {D : Dbl R} {s s' s'' : State R} {ms ms'} (h : Adds D s s' ms) (h' : Adds D s' s'' ms') :
    Adds D s s'' (ms ++ ms') where
  names a := (h'.names a).trans (h.names a)
  cfg := h'.cfg.trans h.cfg
  alive := h'.alive.trans h.alive
  file := h'.file.trans h.file
  uds := h'.uds.trans h.uds
  dgram := h'.dgram.trans h.dgram
  sent := h'.sent.trans h.sent
  contents := by
    rw [h'.contents, h.contents]
    simp only [State.selfRows, h.cfg, h.rowOf]
    split <;> simp
  files := by
    rw [h'.files, h.files]
    simp only [State.lines, h.cfg, h.rowOf, h.file]
    split <;> simp
  streams := by
    rw [h'.streams, h.streams]
    simp only [State.streamed, h.cfg, h.rowOf, h.uds]
    split <;> simp
  dgrams := by
    rw [h'.dgrams, h.dgrams]
    simp only [State.datagrammed, h.cfg, h.rowOf, h.dgram]
    split <;> simp
  few n hn h1 h2 hf := h'.few n (by rw [h.cfg]; exact hn) h1 h2 (h.few n hn h1 h2 hf)

theorem finish_contents (s : State R) : s.finish.contents = s.contents := by
  unfold State.finish; split <;> simp [State.contents]

theorem getD_same (f : Nat → Option Str) (a b : Nat) :
    ((if b = a then some ((f a).getD []) else f b) : Option Str).getD [] = (f b).getD [] := by
  split
  · rename_i h; rw [h]; rfl
  · rfl

theorem full_iff (rows n : Nat) (hn : n < 2 ^ 64) : full rows (n : Int) = true ↔ rows = n := by
  unfold full
  rw [beq_iff_eq]
  omega

/-- A metric, as far as the importer sees it. -/
theorem internally_adds (D : Dbl R) (s : State R) (a : Nat) (k : Str) (x : R) (ts : Int) :
    let s' := s.internally D a k x ts
    (∀ b, (s'.names b).getD [] = (s.names b).getD []) ∧ s'.cfg = s.cfg ∧ s'.alive = s.alive ∧ s'.file = s.file
      ∧ s'.uds = s.uds ∧ s'.dgram = s.dgram ∧ s'.sent = s.sent ∧ s'.out = s.out
      ∧ s'.contents = s.contents ++ (([(a, ts, k, x)].map s.rowOf).filter fun r => D.finite r.value)
      ∧ (∀ n : Nat, s.cfg.sliceSize = n → 1 ≤ n → n < 2 ^ 64 → s.Few n → s'.Few n) := by
  intro s'
  by_cases hx : D.finite x = true
  · have hs' : s' = (let t : State R := { s with names := fun i => if i = a then some ((s.names a).getD []) else s.names i,
                                                 builder := s.builder ++ [⟨ts, (s.names a).getD [], k, x⟩] };
        if full t.builder.length t.cfg.sliceSize then t.finish else t) := by
      show s.internally D a k x ts = _
      unfold State.internally; rw [hx]; rfl
    simp only at hs'
    refine ⟨?_, ?_, ?_, ?_, ?_, ?_, ?_, ?_, ?_, ?_⟩
    · intro b; rw [hs']; split
      · unfold State.finish; split <;> exact getD_same _ _ _
      · exact getD_same _ _ _
    all_goals try (rw [hs']; split <;> first | rfl | (unfold State.finish; split <;> rfl))
    · rw [hs']
      have : ∀ (t : State R) (b : Bool), (if b then t.finish else t).contents = t.contents := by
        intro t b; cases b
        · rfl
        · exact finish_contents t
      rw [this]
      simp [State.contents, State.rowOf, hx]
    · intro n hn h1 h2 hf
      rw [hs']
      simp only [hn]
      split
      · rename_i hfull
        rw [full_iff _ _ h2] at hfull
        simp only [List.length_append, List.length_singleton] at hfull
        unfold State.finish
        simp only [List.length_append, List.length_singleton]
        rw [if_neg (by omega)]
        refine ⟨by simp only [List.length_nil]; omega, ?_⟩
        intro sl hsl
        simp only [List.mem_append, List.mem_singleton] at hsl
        rcases hsl with hsl | hsl | hsl
        · exact hf.2 sl (by simp [hsl])
        · exact hf.2 sl (by simp [hsl])
        · subst hsl; simp only [List.length_append, List.length_singleton]; omega
      · rename_i hfull
        rw [full_iff _ _ h2] at hfull
        simp only [List.length_append, List.length_singleton] at hfull
        refine ⟨?_, hf.2⟩
        have := hf.1
        simp only [List.length_append, List.length_singleton]; omega
  · have hs' : s' = s := by
      show s.internally D a k x ts = _
      unfold State.internally; simp [hx]
    rw [hs']
    refine ⟨fun _ => rfl, rfl, rfl, rfl, rfl, rfl, rfl, rfl, ?_, fun n _ _ _ h => h⟩
    simp [State.rowOf, hx]

/-- A write. -/
theorem write_frame (s : State R) (c : Chan) (rt : Bool) (a : Nat) (k : Str) (x : R) (ts : Int) :
    let s' := s.write c rt a k x ts
    (∀ b, (s'.names b).getD [] = (s.names b).getD []) ∧ s'.cfg = s.cfg ∧ s'.alive = s.alive ∧ s'.file = s.file
      ∧ s'.uds = s.uds ∧ s'.dgram = s.dgram ∧ s'.sent = s.sent ∧ s'.buffer = s.buffer ∧ s'.builder = s.builder
      ∧ s'.out = s.out ++ [(c, s.rowOf (a, ts, k, x), rt)] :=
  ⟨fun _ => getD_same _ _ _, rfl, rfl, rfl, rfl, rfl, rfl, rfl, rfl, rfl⟩

/-- States that differ in names that are not announced and in what was written. -/
structure Frame (s s' : State R) : Prop where
  names : ∀ b, (s'.names b).getD [] = (s.names b).getD []
  cfg : s'.cfg = s.cfg
  alive : s'.alive = s.alive
  file : s'.file = s.file
  uds : s'.uds = s.uds
  dgram : s'.dgram = s.dgram
  sent : s'.sent = s.sent
  buffer : s'.buffer = s.buffer
  builder : s'.builder = s.builder

theorem Frame.refl (s : State R) : Frame s s := ⟨fun _ => rfl, rfl, rfl, rfl, rfl, rfl, rfl, rfl, rfl⟩

theorem Frame.rowOf {s s' : State R} (h : Frame s s') : s'.rowOf = s.rowOf := by
  funext m; simp [State.rowOf, h.names]

theorem write_isFrame (s : State R) (c : Chan) (rt : Bool) (a : Nat) (k : Str) (x : R) (ts : Int) :
    Frame s (s.write c rt a k x ts) := by
  obtain ⟨h1, h2, h3, h4, h5, h6, h7, h8, h9, -⟩ := write_frame s c rt a k x ts
  exact ⟨h1, h2, h3, h4, h5, h6, h7, h8, h9⟩

theorem toFile_frame (s : State R) (a : Nat) (k : Str) (x : R) (ts : Int) :
    Frame s (s.toFile a k x ts) ∧ toFiles (s.toFile a k x ts).out = toFiles s.out ++ s.lines [(a, ts, k, x)]
      ∧ toStreams (s.toFile a k x ts).out = toStreams s.out ∧ toDatagrams (s.toFile a k x ts).out = toDatagrams s.out := by
  unfold State.toFile State.lines
  split
  · rename_i heq
    refine ⟨write_isFrame .., ?_, ?_, ?_⟩ <;> rw [(write_frame ..).2.2.2.2.2.2.2.2.2] <;>
      simp [toFiles, toStreams, toDatagrams, List.filterMap_append, heq]
  · exact ⟨Frame.refl _, by simp, rfl, rfl⟩

theorem toStream_frame (s : State R) (a : Nat) (k : Str) (x : R) (ts : Int) :
    Frame s (s.toStream a k x ts) ∧ toFiles (s.toStream a k x ts).out = toFiles s.out
      ∧ toStreams (s.toStream a k x ts).out = toStreams s.out ++ s.streamed [(a, ts, k, x)]
      ∧ toDatagrams (s.toStream a k x ts).out = toDatagrams s.out := by
  unfold State.toStream State.streamed
  split
  · rename_i heq
    refine ⟨write_isFrame .., ?_, ?_, ?_⟩ <;> rw [(write_frame ..).2.2.2.2.2.2.2.2.2] <;>
      simp [toFiles, toStreams, toDatagrams, List.filterMap_append, heq]
  · rename_i heq; exact ⟨Frame.refl _, rfl, by simp [heq], rfl⟩

theorem toDgram_frame (s : State R) (a : Nat) (k : Str) (x : R) (ts : Int) :
    Frame s (s.toDgram a k x ts) ∧ toFiles (s.toDgram a k x ts).out = toFiles s.out
      ∧ toStreams (s.toDgram a k x ts).out = toStreams s.out
      ∧ toDatagrams (s.toDgram a k x ts).out = toDatagrams s.out ++ s.datagrammed [(a, ts, k, x)] := by
  unfold State.toDgram State.datagrammed
  split
  · rename_i heq
    refine ⟨write_isFrame .., ?_, ?_, ?_⟩ <;> rw [(write_frame ..).2.2.2.2.2.2.2.2.2] <;>
      simp [toFiles, toStreams, toDatagrams, List.filterMap_append, heq]
  · rename_i heq; exact ⟨Frame.refl _, rfl, rfl, by simp [heq]⟩

theorem Frame.adds {s s' : State R} (h : Frame s s') :
    s'.contents = s.contents ∧ ∀ n, s.Few n → s'.Few n := by
  refine ⟨by simp [State.contents, h.sent, h.buffer, h.builder], fun n hf => ?_⟩
  unfold State.Few at *
  rw [h.builder, h.sent, h.buffer]; exact hf

/-- A metric. -/
theorem record_adds (D : Dbl R) (s : State R) (a : Nat) (k : Str) (x : R) (ts : Int) :
    Adds D s (s.record D a k x ts) [(a, ts, k, x)] := by
  unfold State.record
  -- the importer
  have H : ∃ t : State R, (if s.cfg.selfEnable = true then s.internally D a k x ts else s) = t ∧
      (∀ b, (t.names b).getD [] = (s.names b).getD []) ∧ t.cfg = s.cfg ∧ t.alive = s.alive ∧ t.file = s.file
      ∧ t.uds = s.uds ∧ t.dgram = s.dgram ∧ t.sent = s.sent ∧ t.out = s.out
      ∧ t.contents = s.contents ++ s.selfRows D [(a, ts, k, x)]
      ∧ (∀ n : Nat, s.cfg.sliceSize = n → 1 ≤ n → n < 2 ^ 64 → s.Few n → t.Few n) := by
    by_cases he : s.cfg.selfEnable = true
    · refine ⟨s.internally D a k x ts, by rw [if_pos he], ?_⟩
      have := internally_adds D s a k x ts
      simp only [State.selfRows, he, if_true]
      exact this
    · refine ⟨s, by rw [if_neg he], fun _ => rfl, rfl, rfl, rfl, rfl, rfl, rfl, rfl, ?_, fun n _ _ _ h => h⟩
      simp [State.selfRows, he]
  obtain ⟨t, ht, n1, n2, n3, n4, n5, n6, n7, n8, n9, n10⟩ := H
  simp only [ht]
  have f1 := toFile_frame t a k x ts
  have f2 := toStream_frame (t.toFile a k x ts) a k x ts
  have f3 := toDgram_frame ((t.toFile a k x ts).toStream a k x ts) a k x ts
  have hrow : t.rowOf = s.rowOf := by funext m; simp [State.rowOf, n1]
  have c1 := f1.1.adds
  have c2 := f2.1.adds
  have c3 := f3.1.adds
  refine ⟨?_, ?_, ?_, ?_, ?_, ?_, ?_, ?_, ?_, ?_, ?_, ?_⟩
  · intro b; rw [f3.1.names, f2.1.names, f1.1.names, n1]
  · rw [f3.1.cfg, f2.1.cfg, f1.1.cfg, n2]
  · rw [f3.1.alive, f2.1.alive, f1.1.alive, n3]
  · rw [f3.1.file, f2.1.file, f1.1.file, n4]
  · rw [f3.1.uds, f2.1.uds, f1.1.uds, n5]
  · rw [f3.1.dgram, f2.1.dgram, f1.1.dgram, n6]
  · rw [f3.1.sent, f2.1.sent, f1.1.sent, n7]
  · rw [c3.1, c2.1, c1.1, n9]
  · rw [f3.2.1, f2.2.1, f1.2.1, n8]; simp only [State.lines, n4, n2, hrow]
  · rw [f3.2.2.1, f2.2.2.1, f1.2.2.1, n8]; simp only [State.streamed, f1.1.uds, f1.1.cfg, f1.1.rowOf, n5, n2, hrow]
  · rw [f3.2.2.2, f2.2.2.2, f1.2.2.2, n8]
    simp only [State.datagrammed, f2.1.dgram, f2.1.rowOf, f1.1.dgram, f1.1.cfg, f1.1.rowOf, n6, n2, hrow]
  · intro n hn h1 h2 hf
    exact c3.2 n (c2.2 n (c1.2 n (n10 n hn h1 h2 hf)))

theorem number_eq (D : Dbl R) (v : Value R) : D.toReal v = number D v := by cases v <;> rfl

theorem rate_eq (D : Dbl R) (m : Measurement) : D.recordedRate m = rate D m := by
  unfold Dbl.recordedRate Dbl.ratePerSec rate
  by_cases h0 : m.events = 0
  · simp [h0]
  · by_cases hn : 0 < m.ns
    · have : ¬ m.ns ≤ 0 := by omega
      simp [h0, hn, this]
    · have : m.ns ≤ 0 := by omega
      simp [h0, hn, this]

theorem report_adds (D : Dbl R) (a : Nat) (ts : Int) (ps : List (Str × Value R)) :
    ∀ s : State R, Adds D s (s.report D a ts ps) (metrics D (.report a ts ps)) := by
  induction ps with
  | nil => intro s; exact Adds.refl D s
  | cons p ps ih =>
    intro s
    obtain ⟨k, v⟩ := p
    have h1 := record_adds D s a k (D.toReal v) ts
    have h2 := ih (s.record D a k (D.toReal v) ts)
    have := h1.trans h2
    rw [number_eq] at this
    unfold State.report
    rw [number_eq]
    exact this

theorem performance_adds (D : Dbl R) (a : Nat) (ts : Int) (ps : List (Str × Measurement)) :
    ∀ s : State R, Adds D s (s.performance D a ts ps) (metrics D (.performance a ts ps)) := by
  induction ps with
  | nil => intro s; exact Adds.refl D s
  | cons p ps ih =>
    intro s
    obtain ⟨k, m⟩ := p
    unfold State.performance
    have h1 := record_adds D s a (k ++ str ".events") (D.toReal (.count m.events)) ts
    have h2 := record_adds D (s.record D a (k ++ str ".events") (D.toReal (.count m.events)) ts) a (k ++ str ".duration")
      (D.toReal (.duration m.ns)) ts
    have h3 := record_adds D ((s.record D a (k ++ str ".events") (D.toReal (.count m.events)) ts).record D a (k ++ str ".duration")
      (D.toReal (.duration m.ns)) ts) a (k ++ str ".rate") (D.recordedRate m) ts
    have h4 := ((h1.trans h2).trans h3).trans (ih _)
    have e : metrics D (.performance a ts ((k, m) :: ps)) =
        [(a, ts, k ++ str ".events", D.toReal (.count m.events))] ++ [(a, ts, k ++ str ".duration", D.toReal (.duration m.ns))]
          ++ [(a, ts, k ++ str ".rate", D.recordedRate m)] ++ metrics D (.performance a ts ps) := by
      simp [metrics, rate_eq, Dbl.toReal]
    rw [e]; exact h4

theorem pullLoop_eq (n : Nat) : ∀ (b t : List (List (Row R))),
    pullLoop n b t = (b.drop n, t ++ b.take n) := by
  induction n with
  | zero => intro b t; simp [pullLoop]
  | succ n ih =>
    intro b t
    cases b with
    | nil => simp [pullLoop]
    | cons x b => simp [pullLoop, ih]

/-- The messages with metrics. -/
theorem metrics_adds (D : Dbl R) (W : World) (s : State R) (ha : s.alive = true) (e : Ev R)
    (he : (∃ a ts k v, e = .metric a ts k v) ∨ (∃ a ts ps, e = .report a ts ps) ∨ (∃ a ts ps, e = .performance a ts ps)) :
    Adds D s (step D W s e) (metrics D e) := by
  rcases he with ⟨a, ts, k, v, rfl⟩ | ⟨a, ts, ps, rfl⟩ | ⟨a, ts, ps, rfl⟩
  · have := record_adds D s a k (D.toReal v) ts
    simp only [step, ha, Bool.not_true, Bool.false_eq_true, if_false, metrics, ← number_eq]
    exact this
  · simp only [step, ha, Bool.not_true, Bool.false_eq_true, if_false]; exact report_adds D a ts ps s
  · simp only [step, ha, Bool.not_true, Bool.false_eq_true, if_false]; exact performance_adds D a ts ps s

/-- The state after some messages, the last one first. -/
structure Good (c : Cfg) (past : List (Ev R)) (s : State R) : Prop where
  alive : s.alive = true
  names : ∀ a, (s.names a).getD [] = nameAfter a past
  cfg : s.cfg = cfgAfter c past

/-- What a metric is, given the past. -/
def item (c : Cfg) (past : List (Ev R)) (m : Nat × Int × Str × R) : Cfg × Row R :=
  (cfgAfter c past, ⟨m.2.1, nameAfter m.1 past, m.2.2.1, m.2.2.2⟩)

theorem Good.item {c : Cfg} {past : List (Ev R)} {s : State R} (h : Good c past s) (m : Nat × Int × Str × R) :
    item c past m = (s.cfg, s.rowOf m) := by
  unfold Accountant.item State.rowOf
  rw [h.cfg, h.names]

theorem dead (D : Dbl R) (W : World) (es : List (Ev R)) : ∀ s : State R, s.alive = false → es.foldl (step D W) s = s := by
  induction es with
  | nil => intro s _; rfl
  | cons e es ih =>
    intro s h
    have : step D W s e = s := by simp [step, h]
    rw [List.foldl_cons, this]
    exact ih s h

theorem reported_cons (D : Dbl R) (c : Cfg) (past : List (Ev R)) (e : Ev R) (he : e ≠ .exit) (es : List (Ev R)) :
    reported D c past (e :: es) = (metrics D e).map (item c past) ++ reported D c (e :: past) es := by
  cases e <;> first | rfl | exact absurd rfl he

theorem nil_of_other (D : Dbl R) (e : Ev R)
    (he : ¬ ((∃ a ts k v, e = .metric a ts k v) ∨ (∃ a ts ps, e = .report a ts ps) ∨ (∃ a ts ps, e = .performance a ts ps))) :
    metrics D e = [] := by
  cases e <;> first | rfl | exact absurd (by simp) he

/-- Other messages leave the contents as they are. -/
theorem other_contents (D : Dbl R) (W : World) (s : State R) (e : Ev R)
    (he : ¬ ((∃ a ts k v, e = .metric a ts k v) ∨ (∃ a ts ps, e = .report a ts ps) ∨ (∃ a ts ps, e = .performance a ts ps))) :
    (step D W s e).contents = s.contents ∧ (step D W s e).out = s.out := by
  unfold step
  cases e
  case metric => exact absurd (by simp) he
  case report => exact absurd (by simp) he
  case performance => exact absurd (by simp) he
  all_goals split
  all_goals try exact ⟨rfl, rfl⟩
  case pull.isFalse n _ =>
    refine ⟨?_, rfl⟩
    simp only [pullLoop_eq, State.contents]
    rw [List.flatten_append, List.append_assoc s.sent.flatten, ← List.flatten_append, List.take_append_drop]
  case exit.isFalse =>
    refine ⟨finish_contents s, ?_⟩
    show s.finish.out = s.out
    unfold State.finish; split <;> rfl

/-- Messages preserve what is known of the past. -/
theorem Good.step {D : Dbl R} {W : World} {c : Cfg} {past : List (Ev R)} {s : State R} (h : Good c past s) (e : Ev R)
    (he : e ≠ .exit) : Good c (e :: past) (step D W s e) := by
  by_cases hm : (∃ a ts k v, e = .metric a ts k v) ∨ (∃ a ts ps, e = .report a ts ps) ∨ (∃ a ts ps, e = .performance a ts ps)
  · have A := metrics_adds D W s h.alive e hm
    refine ⟨A.alive.trans h.alive, fun a => (A.names a).trans ?_, A.cfg.trans ?_⟩
    · rw [h.names]; rcases hm with ⟨_, _, _, _, rfl⟩ | ⟨_, _, _, rfl⟩ | ⟨_, _, _, rfl⟩ <;> rfl
    · rw [h.cfg]; rcases hm with ⟨_, _, _, _, rfl⟩ | ⟨_, _, _, rfl⟩ | ⟨_, _, _, rfl⟩ <;> rfl
  · have ha := h.alive
    cases e
    case metric => exact absurd (by simp) hm
    case report => exact absurd (by simp) hm
    case performance => exact absurd (by simp) hm
    case exit => exact absurd rfl he
    all_goals simp only [Accountant.step, ha, Bool.not_true, Bool.false_eq_true, if_false]
    case announce b n =>
      refine ⟨rfl, fun a => ?_, h.cfg⟩
      simp only [nameAfter]
      by_cases hab : a = b
      · subst hab; simp
      · have : b ≠ a := fun h => hab h.symm
        simp [hab, this, h.names]
    case down b =>
      refine ⟨rfl, fun a => ?_, h.cfg⟩
      simp only [nameAfter]
      by_cases hab : a = b
      · subst hab; simp
      · have : b ≠ a := fun h => hab h.symm
        simp [hab, this, h.names]
    case pull n => exact ⟨rfl, h.names, h.cfg⟩
    case config c' => exact ⟨ha, h.names, rfl⟩

theorem good_init (W : World) (c : Cfg) : Good c [] (init R W c) :=
  ⟨rfl, fun _ => rfl, rfl⟩

/-- The rows of an accountant. -/
theorem run_contents (D : Dbl R) (W : World) (c : Cfg) (es : List (Ev R)) : ∀ (past : List (Ev R)) (s : State R), Good c past s →
    (es.foldl (step D W) s).contents
      = s.contents ++ ((reported D c past es).filter fun (cfg, r) => cfg.selfEnable && D.finite r.value).map (·.2) := by
  induction es with
  | nil => intro past s _; simp [reported]
  | cons e es ih =>
    intro past s h
    rw [List.foldl_cons]
    by_cases hex : e = .exit
    · subst hex
      have ha : (step D W s .exit).alive = false := by simp [step, h.alive]
      rw [dead D W es _ ha]
      have := (other_contents D W s .exit (by simp)).1
      rw [this]
      simp [reported]
    · rw [ih _ _ (h.step e hex), reported_cons D c past e hex]
      simp only [List.filter_append, List.map_append, ← List.append_assoc]
      congr 1
      by_cases hm : (∃ a ts k v, e = .metric a ts k v) ∨ (∃ a ts ps, e = .report a ts ps) ∨ (∃ a ts ps, e = .performance a ts ps)
      · rw [(metrics_adds D W s h.alive e hm).contents]
        congr 1
        unfold State.selfRows
        have : (metrics D e).map (item c past) = (metrics D e).map (fun m => (s.cfg, s.rowOf m)) :=
          List.map_congr_left fun m _ => h.item m
        rw [this]
        cases hc : s.cfg.selfEnable
        · simp [List.filter_map, Function.comp_def, hc]
        · simp [List.filter_map, Function.comp_def, hc]
      · rw [(other_contents D W s e hm).1, nil_of_other D e hm]; simp

end Verif.Accountant
