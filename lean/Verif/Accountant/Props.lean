import Verif.Accountant.Sinks
/-!
# C132, C133 and C134: metrics
-/
namespace Verif.Accountant
open Verif.Data Verif.Accountant.Spec

variable {R : Type}

/-- C132: whatever happens and however the configuration changes, the rows that were delivered to the importer and those that wait are all
finite metrics reported while metrics are ingested: each once, in the order of the reports, with the number that was reported
and the name that the reporter had then. -/
theorem C132_rows (D : Dbl R) (W : World) (c : Cfg) (es : List (Ev R)) :
    let s := run D W c es
    s.sent.flatten ++ s.buffer.flatten ++ s.builder = rows D c es := by
  have h := run_contents D W c es [] (init R W c) (good_init W c)
  have e : (init R W c).contents = [] := rfl
  rw [e, List.nil_append] at h
  exact h

/-- C132, partial: if the slice size is always `n`, then as soon as the importer takes what is offered,
fewer than `n` rows, the last ones, have not been delivered. No slice is empty or has more than `n` rows. -/
theorem C132_prompt_partial (D : Dbl R) (W : World) (c : Cfg) (es : List (Ev R)) (n : Nat) (h1 : 1 ≤ n) (h2 : n < 2 ^ 64)
    (hn : ∀ c' ∈ configs c es, c'.sliceSize = n) (hex : ∀ e ∈ es, e ≠ Ev.exit) (k : Nat) (hk : (run D W c es).buffer.length ≤ k) :
    let s := run D W c (es ++ [.pull k])
    (∃ rest, rest.length < n ∧ s.sent.flatten ++ rest = rows D c es) ∧ ∀ sl ∈ s.sent, 1 ≤ sl.length ∧ sl.length ≤ n := by
  intro s
  have hrun : s = step D W (run D W c es) (.pull k) := by
    show (es ++ [Ev.pull k]).foldl (step D W) (init R W c) = _
    rw [List.foldl_append]; rfl
  have hfew : (run D W c es).Few n := by
    refine run_few D W n h1 h2 es _ (hn c (by simp [configs])) (fun c' h => hn c' (List.mem_cons_of_mem _ h)) ⟨?_, ?_⟩
    · show 0 < n; omega
    · intro sl hsl; cases hsl
  have halive : ∀ (es : List (Ev R)) (t : State R) past, Good c past t → (∀ e ∈ es, e ≠ Ev.exit) →
      (es.foldl (step D W) t).alive = true := by
    intro es
    induction es with
    | nil => intro t past h _; exact h.alive
    | cons e es ih =>
      intro t past h he
      exact ih _ _ (h.step e (he e (by simp))) fun e' h' => he e' (List.mem_cons_of_mem _ h')
  have ha : (run D W c es).alive = true := halive es _ [] (good_init W c) hex
  have hs : s.sent = (run D W c es).sent ++ (run D W c es).buffer ∧ s.buffer = [] ∧ s.builder = (run D W c es).builder := by
    rw [hrun]
    simp only [step, ha, Bool.not_true, Bool.false_eq_true, if_false, pullLoop_eq]
    rw [List.take_of_length_le hk, List.drop_of_length_le hk]
    exact ⟨rfl, rfl, trivial⟩
  refine ⟨⟨s.builder, by rw [hs.2.2]; exact hfew.1, ?_⟩, ?_⟩
  · have := C132_rows D W c es
    simp only at this
    rw [hs.1, hs.2.2, List.flatten_append]; exact this
  · intro sl hsl
    rw [hs.1] at hsl
    exact hfew.2 sl hsl

/-- Numbers for examples: finite numbers and one that is not. -/
def exD : Dbl (Option Int) :=
  { finite := Option.isSome, ms := fun ns => some (ns / 1000000), ofInt := some, ofNat := fun n => some n, zero := some 0,
    max := some (10 ^ 30), rate := fun e ns => some (e * 1000000000 / ns) }

/-- A world for examples. -/
def exW : World := { writable := fun p => p == str "/tmp/m.log" || p == str "/tmp/n.log", connectable := fun _ => true }

/-- Slices of two rows. -/
def exC : Cfg := { Cfg.default with sliceSize := 2 }

/-- Two components report. -/
def exEs : List (Ev (Option Int)) :=
  [.announce 1 (str "index"), .metric 1 10 (str "m") (.duration 5000000), .metric 2 11 (str "x") (.real none),
   .performance 2 12 [(str "p", ⟨500000000, 7⟩)], .down 1, .metric 1 13 (str "m") (.integer (-1))]

example : (rows exD exC exEs).map (fun r => (r.actor, r.value)) =
    [(str "index", some 5), ([], some 7), ([], some 500), ([], some 14), ([], some (-1))] := by decide +kernel

example : (∀ c' ∈ configs exC exEs, c'.sliceSize = 2) ∧ (∀ e ∈ exEs, e ≠ Ev.exit) ∧ (run exD exW exC exEs).buffer.length = 2 := by
  refine ⟨by decide, ?_, by decide +kernel⟩
  intro e he h
  subst h
  simp [exEs] at he

/-- C132: an accountant that exits leaves no row behind in a slice that is not finished. -/
theorem C132_exit (D : Dbl R) (W : World) (c : Cfg) (es : List (Ev R)) :
    let s := run D W c (es ++ [.exit])
    s.builder = [] ∧ s.sent.flatten ++ s.buffer.flatten = rows D c es := by
  intro s
  have hb : s.builder = [] := by
    have hrun : s = step D W (run D W c es) .exit := by
      show (es ++ [Ev.exit]).foldl (step D W) (init R W c) = _
      rw [List.foldl_append]; rfl
    have key : ∀ (es : List (Ev R)) (t : State R), (t.alive = false → t.builder = []) →
        ((es.foldl (step D W) t).alive = false → (es.foldl (step D W) t).builder = []) := by
      intro es
      induction es with
      | nil => intro t h; exact h
      | cons e es ih =>
        intro t h
        refine ih _ ?_
        by_cases ha : t.alive = true
        · by_cases hm : HasMetrics e
          · intro h'
            rw [(metrics_adds D W t ha e hm).alive, ha] at h'
            cases h'
          · cases e
            case metric => exact absurd (by simp [HasMetrics]) hm
            case report => exact absurd (by simp [HasMetrics]) hm
            case performance => exact absurd (by simp [HasMetrics]) hm
            case exit =>
              intro _
              simp only [step, ha, Bool.not_true, Bool.false_eq_true, if_false]
              unfold State.finish
              split
              · rename_i h0; exact List.eq_nil_of_length_eq_zero h0
              · rfl
            all_goals
              simp only [step, ha, Bool.not_true, Bool.false_eq_true, if_false]
              intro h'
              first
              | (simp only [State.apply, ha] at h'; cases h')
              | (rw [ha] at h'; cases h')
              | cases h'
        · have : step D W t e = t := by simp [step, ha]
          rw [this]; exact h
    by_cases ha : (run D W c es).alive = true
    · rw [hrun]
      simp only [step, ha, Bool.not_true, Bool.false_eq_true, if_false]
      unfold State.finish
      split
      · rename_i h0; exact List.eq_nil_of_length_eq_zero h0
      · rfl
    · have e1 : step D W (run D W c es) .exit = run D W c es := by simp [step, ha]
      rw [hrun, e1]
      refine key es (init R W c) ?_ ?_
      · intro h; cases h
      · cases h : (run D W c es).alive
        · exact h
        · exact absurd h ha
  refine ⟨hb, ?_⟩
  have h := C132_rows D W c (es ++ [.exit])
  simp only at h
  rw [show (run D W c (es ++ [.exit])).builder = [] from hb, List.append_nil] at h
  have e : rows D c (es ++ [.exit]) = rows D c es := by
    unfold rows
    have : ∀ (es past : List (Ev R)), reported D c past (es ++ [.exit]) = reported D c past es := by
      intro es
      induction es with
      | nil => intro past; rfl
      | cons e es ih =>
        intro past
        rw [List.cons_append]
        by_cases hex : e = .exit
        · subst hex; rfl
        · rw [reported_cons D c past e hex, reported_cons D c past e hex, ih]
    rw [this]
  rw [e] at h
  exact h

example : let s := run exD exW exC (exEs ++ [.pull 1, .exit])
    s.sent.length = 1 ∧ s.buffer.length = 2 := by decide +kernel

/-- C132, refuted at exits: rows that the importer has not asked for are lost, and so they all are if the importer is not there. -/
theorem C132_exit_refuted :
    ∃ es : List (Ev (Option Int)), let s := run exD exW exC (es ++ [.exit, .pull 100])
      rows exD exC es ≠ [] ∧ s.sent = [] := by
  refine ⟨[.metric 1 10 (str "m") (.count 1)], by decide +kernel, by decide +kernel⟩

/-- C132, refuted for smaller slice sizes: after a change to a slice size that is smaller than the number of waiting rows, no
slice is finished, whatever is reported: here for any number of metrics. -/
theorem C132_shrink_refuted (m : Nat) :
    let es : List (Ev (Option Int)) :=
      (List.replicate 3 (.metric 1 10 (str "m") (.count 1)) ++ [.config { Cfg.default with sliceSize := 2 }])
        ++ List.replicate m (.metric 1 10 (str "m") (.count 1)) ++ [.pull 100]
    let s := run exD exW { Cfg.default with sliceSize := 8 } es
    s.sent = [] ∧ s.builder.length = 3 + m := by
  intro es s
  have key : ∀ (m : Nat) (t : State (Option Int)), t.alive = true → t.cfg.selfEnable = true → t.cfg.sliceSize = 2 → t.file = none → t.uds = none →
      t.dgram = none → t.sent = [] → t.buffer = [] → 3 ≤ t.builder.length →
      let t' := (List.replicate m (Ev.metric 1 10 (str "m") (.count 1))).foldl (step exD exW) t
      t'.alive = true ∧ t'.sent = [] ∧ t'.buffer = [] ∧ t'.builder.length = t.builder.length + m := by
    intro m
    induction m with
    | zero => intro t ha _ _ _ _ _ hs hb _; exact ⟨ha, hs, hb, rfl⟩
    | succ m ih =>
      intro t ha he hc hf hu hd hs hb hl
      simp only [List.replicate_succ, List.foldl_cons]
      have e1 : step exD exW t (.metric 1 10 (str "m") (.count 1)) =
          { t with names := fun i => if i = 1 then some ((t.names 1).getD []) else t.names i,
                   builder := t.builder ++ [⟨10, (t.names 1).getD [], str "m", some 1⟩] } := by
        have hfull : full (t.builder.length + 1) 2 = false := by
          cases h : full (t.builder.length + 1) 2
          · rfl
          · rw [show (2 : Int) = ((2 : Nat) : Int) from rfl, full_iff _ _ (by decide)] at h; omega
        have e0 : t.internally exD 1 (str "m") (some 1) 10 =
            { t with names := fun i => if i = 1 then some ((t.names 1).getD []) else t.names i,
                     builder := t.builder ++ [⟨10, (t.names 1).getD [], str "m", some 1⟩] } := by
          unfold State.internally
          simp only [exD, Option.isSome_some, Bool.not_true, Bool.false_eq_true, if_false, List.length_append, List.length_singleton, hc, hfull]
        have e2 : t.record exD 1 (str "m") (some 1) 10 = t.internally exD 1 (str "m") (some 1) 10 := by
          unfold State.record
          simp only [he, if_true, e0, State.toFile, State.toStream, State.toDgram, hf, hu, hd]
        have e3 : step exD exW t (.metric 1 10 (str "m") (.count 1)) = t.record exD 1 (str "m") (some 1) 10 := by
          simp only [step, ha, Bool.not_true, Bool.false_eq_true, if_false]
          rfl
        rw [e3, e2, e0]
      rw [e1]
      have := ih { t with names := fun i => if i = 1 then some ((t.names 1).getD []) else t.names i,
                          builder := t.builder ++ [⟨10, (t.names 1).getD [], str "m", some 1⟩] }
        ha he hc hf hu hd hs hb (by simp only [List.length_append]; omega)
      refine ⟨this.1, this.2.1, this.2.2.1, ?_⟩
      rw [this.2.2.2]
      simp only [List.length_append, List.length_singleton]; omega
  have h0 : ∃ t, t = run exD exW { Cfg.default with sliceSize := 8 } (List.replicate 3 (.metric 1 10 (str "m") (.count 1))
      ++ [.config { Cfg.default with sliceSize := 2 }]) := ⟨_, rfl⟩
  obtain ⟨t, ht⟩ := h0
  have p1 : t.alive = true := by rw [ht]; decide +kernel
  have p2 : t.cfg.selfEnable = true := by rw [ht]; decide +kernel
  have p2' : t.cfg.sliceSize = 2 := by rw [ht]; decide +kernel
  have p3 : t.file = none := by rw [ht]; decide +kernel
  have p4 : t.uds = none := by rw [ht]; decide +kernel
  have p5 : t.dgram = none := by rw [ht]; decide +kernel
  have p6 : t.sent = [] := by rw [ht]; decide +kernel
  have p7 : t.buffer = [] := by rw [ht]; decide +kernel
  have p8 : t.builder.length = 3 := by rw [ht]; decide +kernel
  have k := key m t p1 p2 p2' p3 p4 p5 p6 p7 (by omega)
  have hs : s = step exD exW ((List.replicate m (Ev.metric 1 10 (str "m") (.count 1))).foldl (step exD exW) t) (.pull 100) := by
    rw [ht]
    show List.foldl _ _ (_ ++ _ ++ _) = _
    rw [List.foldl_append, List.foldl_append]; rfl
  rw [hs]
  simp only [step, k.1, Bool.not_true, Bool.false_eq_true, if_false, pullLoop_eq, k.2.1, k.2.2.1]
  refine ⟨by simp, ?_⟩
  rw [k.2.2.2, p8]

/-- C133, partial, for files: if no change of the configuration gives another path to a file that stays enabled, then what is written to files
are exactly the metrics reported while the file is enabled, finite or not, each once and in order, to the configured path, provided it can be
written to. -/
theorem C133_file_partial (D : Dbl R) (W : World) (c : Cfg) (es : List (Ev R))
    (h : Successive (fun a b => a.fileEnable = true → b.fileEnable = true → a.filePath = b.filePath) (configs c es)) :
    toFiles (run D W c es).out = fileLines D W c es := by
  have := run_sink D W c toFiles (fun s ms => s.lines ms) (fun _ _ _ A => A.files)
    (fun cfg f _ _ => f = if cfg.fileEnable then some (cfg.filePath, W.writable cfg.filePath) else none)
    (fun a b => a.fileEnable = true → b.fileEnable = true → a.filePath = b.filePath)
    (fun x => if x.1.fileEnable && W.writable x.1.filePath then some (x.1.filePath, x.2, x.1.fileRealTime) else none)
    (by
      intro old new f u d hP hi
      simp only [applyFile]
      rw [hi]
      cases ho : old.fileEnable <;> cases hn : new.fileEnable <;> simp
      rw [hP ho hn]; exact ⟨rfl, rfl⟩)
    (by
      intro s ms hi
      rw [filterMap_cond (s.cfg.fileEnable && W.writable s.cfg.filePath)]
      unfold State.lines
      rw [hi]
      cases he : s.cfg.fileEnable
      · simp
      · cases hw : W.writable s.cfg.filePath <;> simp)
    es [] (init R W c) (good_init W c)
    (by
      show applyFile W Cfg.default c none = _
      unfold applyFile
      cases hc : c.fileEnable <;> simp [Cfg.default, init, State.apply, hc])
    h
  rw [run, this]
  have e : toFiles (init R W c).out = [] := rfl
  rw [e, List.nil_append]
  unfold fileLines
  rw [map_filter_eq]

/-- C133, partial, for stream sockets: if the type of an enabled socket is always given and no change of the configuration
gives another path or type to a socket that stays enabled. -/
theorem C133_stream_partial (D : Dbl R) (W : World) (c : Cfg) (es : List (Ev R))
    (ht : ∀ c' ∈ configs c es, c'.udsEnable = true → c'.udsType ≠ none)
    (h : Successive (fun a b => a.udsEnable = true → b.udsEnable = true → a.udsPath = b.udsPath ∧ a.udsType = b.udsType) (configs c es)) :
    toStreams (run D W c es).out = streamLines D W c es := by
  have _ := ht
  have := run_sink D W c toStreams (fun s ms => s.streamed ms) (fun _ _ _ A => A.streams)
    (fun cfg _ u _ => u = if cfg.udsEnable && decide (cfg.udsType ≠ some .datagram) && W.connectable cfg.udsPath then some cfg.udsPath else none)
    (fun a b => a.udsEnable = true → b.udsEnable = true → a.udsPath = b.udsPath ∧ a.udsType = b.udsType)
    (fun x => if x.1.udsEnable && decide (x.1.udsType ≠ some .datagram) && W.connectable x.1.udsPath
      then some (x.1.udsPath, x.2, x.1.udsRealTime) else none)
    (by
      intro old new f u d hP hi
      simp only [applyUds]
      rw [hi]
      cases ho : old.udsEnable <;> cases hn : new.udsEnable <;> simp
      have := hP ho hn
      rw [this.1, this.2])
    (by
      intro s ms hi
      rw [filterMap_cond (s.cfg.udsEnable && decide (s.cfg.udsType ≠ some .datagram) && W.connectable s.cfg.udsPath)]
      unfold State.streamed
      rw [hi]
      cases he : s.cfg.udsEnable
      · simp
      · by_cases hw : W.connectable s.cfg.udsPath = true <;> by_cases htt : s.cfg.udsType = some .datagram <;> simp [hw, htt])
    es [] (init R W c) (good_init W c)
    (by
      show applyUds W Cfg.default c none = _
      unfold applyUds
      cases hc : c.udsEnable <;> by_cases htt : c.udsType = some .datagram <;> cases hw : W.connectable c.udsPath <;> simp [htt, hw, Cfg.default, init, State.apply, hc])
    h
  rw [run, this]
  have e : toStreams (init R W c).out = [] := rfl
  rw [e, List.nil_append]
  unfold streamLines
  rw [map_filter_eq]

/-- C133, partial, for datagram sockets: if, further, a datagram socket is never disabled. -/
theorem C133_datagram_partial (D : Dbl R) (W : World) (c : Cfg) (es : List (Ev R))
    (ht : ∀ c' ∈ configs c es, c'.udsEnable = true → c'.udsType ≠ none)
    (h : Successive (fun a b => a.udsEnable = true → b.udsEnable = true → a.udsPath = b.udsPath ∧ a.udsType = b.udsType) (configs c es))
    (hd : Successive (fun a b => a.udsEnable = true → a.udsType = some .datagram → b.udsEnable = true) (configs c es)) :
    toDatagrams (run D W c es).out = datagrams D c es := by
  have _ := ht
  have both : ∀ l, Successive (fun a b => a.udsEnable = true → b.udsEnable = true → a.udsPath = b.udsPath ∧ a.udsType = b.udsType) l →
      Successive (fun a b => a.udsEnable = true → a.udsType = some .datagram → b.udsEnable = true) l →
      Successive (fun a b => (a.udsEnable = true → b.udsEnable = true → a.udsPath = b.udsPath ∧ a.udsType = b.udsType)
        ∧ (a.udsEnable = true → a.udsType = some .datagram → b.udsEnable = true)) l := by
    intro l
    induction l with
    | nil => intro _ _; trivial
    | cons a l ih =>
      cases l with
      | nil => intro _ _; trivial
      | cons b l => intro p q; exact ⟨⟨p.1, q.1⟩, ih p.2 q.2⟩
  have := run_sink D W c toDatagrams (fun s ms => s.datagrammed ms) (fun _ _ _ A => A.dgrams)
    (fun cfg _ _ d => d = if cfg.udsEnable && decide (cfg.udsType = some .datagram) then some cfg.udsPath else none)
    _
    (fun x => if x.1.udsEnable && decide (x.1.udsType = some .datagram) then some (x.1.udsPath, x.2) else none)
    (by
      intro old new f u d hP hi
      simp only [applyDgram]
      rw [hi]
      cases ho : old.udsEnable <;> cases hn : new.udsEnable
      · simp
      · simp
      · simp only [Bool.false_and, Bool.true_and]
        have : old.udsType ≠ some .datagram := fun h' => by
          have := hP.2 ho h'
          rw [hn] at this; cases this
        simp [this]
      · have := hP.1 ho hn
        simp [this.1, this.2])
    (by
      intro s ms hi
      rw [filterMap_cond (s.cfg.udsEnable && decide (s.cfg.udsType = some .datagram))]
      unfold State.datagrammed
      rw [hi]
      cases he : s.cfg.udsEnable
      · simp
      · by_cases htt : s.cfg.udsType = some .datagram <;> simp [htt])
    es [] (init R W c) (good_init W c)
    (by
      show applyDgram Cfg.default c none = _
      unfold applyDgram
      cases hc : c.udsEnable <;> by_cases htt : c.udsType = some .datagram <;> simp [htt, Cfg.default, init, State.apply, hc])
    (both _ h hd)
  rw [run, this]
  have e : toDatagrams (init R W c).out = [] := rfl
  rw [e, List.nil_append]
  unfold datagrams
  rw [map_filter_eq]

/-- A configuration with a file and a socket. -/
def exF : Cfg := { Cfg.default with fileEnable := true, filePath := str "/tmp/m.log", udsEnable := true, udsPath := str "/tmp/m.sock", udsType := some .datagram }

example : (toFiles (run exD exW exF (exEs ++ [.config { exF with fileEnable := false }] ++ exEs)).out).length = 6 ∧
    (toDatagrams (run exD exW exF (exEs ++ [.config { exF with fileEnable := false }] ++ exEs)).out).length = 12 := by
  decide +kernel

example : Successive (fun a b => a.fileEnable = true → b.fileEnable = true → a.filePath = b.filePath)
    (configs exF (exEs ++ [.config { exF with fileEnable := false }] ++ exEs)) ∧
    Successive (fun a b => a.udsEnable = true → b.udsEnable = true → a.udsPath = b.udsPath ∧ a.udsType = b.udsType)
    (configs exF (exEs ++ [.config { exF with fileEnable := false }] ++ exEs)) ∧
    Successive (fun a b => a.udsEnable = true → a.udsType = some .datagram → b.udsEnable = true)
    (configs exF (exEs ++ [.config { exF with fileEnable := false }] ++ exEs)) := by
  refine ⟨⟨?_, trivial⟩, ⟨?_, trivial⟩, ⟨?_, trivial⟩⟩ <;> decide

/-- C133, refuted: another path for the file has no effect. -/
theorem C133_path_refuted :
    ∃ (c c' : Cfg) (e : Ev (Option Int)), c'.fileEnable = true ∧ c'.filePath ≠ c.filePath ∧ exW.writable c'.filePath = true ∧
      ∃ r rt, toFiles (run exD exW c [.config c', e]).out = [(c.filePath, r, rt)] ∧
        fileLines exD exW c [.config c', e] = [(c'.filePath, r, rt)] := by
  refine ⟨exF, { exF with filePath := str "/tmp/n.log" }, .metric 1 1 (str "m") (.count 3), rfl, by decide, by decide,
    ⟨1, [], str "m", some 3⟩, false, ?_, ?_⟩ <;> decide +kernel

/-- C133, refuted: a datagram socket that was disabled keeps receiving metrics. -/
theorem C133_disable_refuted :
    ∃ (c c' : Cfg) (e : Ev (Option Int)), c'.udsEnable = false ∧
      toDatagrams (run exD exW c [.config c', e]).out ≠ [] ∧ datagrams exD c [.config c', e] = [] := by
  refine ⟨exF, { exF with udsEnable := false }, .metric 1 1 (str "m") (.count 3), rfl, ?_, ?_⟩ <;> decide +kernel

/-- C134, partial: an option that is set to a value of its type takes effect, for all documented options except
`file-sink.real-time`. -/
theorem C134_options_partial (opts : Str → Option CV) :
    (∀ b, Sets opts "self-sink.enable" (.bool b) → (toConfig opts).selfEnable = b) ∧
    (∀ i, Sets opts "self-sink.slice-size" (.int i) → (toConfig opts).sliceSize = i) ∧
    (Sets opts "self-sink.slice-type" (.str (str "arrow")) → (toConfig opts).sliceType = .arrow) ∧
    (Sets opts "self-sink.slice-type" (.str (str "msgpack")) → (toConfig opts).sliceType = .msgpack) ∧
    (∀ b, Sets opts "file-sink.enable" (.bool b) → (toConfig opts).fileEnable = b) ∧
    (∀ p, Sets opts "file-sink.path" (.str p) → (toConfig opts).filePath = p) ∧
    (∀ b, Sets opts "uds-sink.enable" (.bool b) → (toConfig opts).udsEnable = b) ∧
    (∀ p, Sets opts "uds-sink.path" (.str p) → (toConfig opts).udsPath = p) ∧
    (∀ b, Sets opts "uds-sink.real-time" (.bool b) → (toConfig opts).udsRealTime = b) ∧
    (Sets opts "uds-sink.type" (.str (str "datagram")) → (toConfig opts).udsType = some .datagram) ∧
    (Sets opts "uds-sink.type" (.str (str "stream")) → (toConfig opts).udsType = some .stream) ∧
    (Sets opts "uds-sink.type" (.str (str "fd")) → (toConfig opts).udsType = some .fd) := by
  refine ⟨?_, ?_, ?_, ?_, ?_, ?_, ?_, ?_, ?_, ?_, ?_, ?_⟩
  all_goals first
    | (rintro b ⟨h⟩; simp [toConfig, h, extract, CV.bool?, CV.int?, CV.str?])
    | (rintro ⟨h⟩
       simp only [toConfig, h, extract, CV.parsed?]
       decide)

/-- C134: without options, metrics are ingested in slices of 128 rows and nothing is written. -/
theorem C134_defaults :
    (toConfig fun _ => none).selfEnable = true ∧ (toConfig fun _ => none).sliceSize = 128 ∧
      (toConfig fun _ => none).fileEnable = false ∧ (toConfig fun _ => none).udsEnable = false := ⟨rfl, rfl, rfl, rfl⟩

example : ∃ opts, Sets opts "self-sink.slice-size" (.int 5) ∧ Sets opts "uds-sink.type" (.str (str "fd")) :=
  ⟨fun k => if k = str "self-sink.slice-size" then some (.int 5) else if k = str "uds-sink.type" then some (.str (str "fd")) else none,
    ⟨by decide⟩, ⟨by decide⟩⟩

/-- C134, refuted: the option `file-sink.real-time` has no effect, whatever else is set, unless another option that is not
documented is set. -/
theorem C134_real_time_refuted (opts : Str → Option CV) (h : opts (str "file_sink.real-time") = none) :
    (toConfig opts).fileRealTime = false := by
  simp [toConfig, h, extract, Cfg.default]

example : ∃ opts : Str → Option CV, opts (str "file_sink.real-time") = none ∧ Sets opts "file-sink.real-time" (.bool true) :=
  ⟨fun k => if k = str "file-sink.real-time" then some (.bool true) else none, by decide, ⟨by decide⟩⟩

/-- C134, refuted: a value that is not valid is not reported but replaced by the default, which for the type of the socket is indeterminate. -/
theorem C134_invalid_refuted (opts : Str → Option CV) (b : Bool) (t : Str)
    (h1 : Sets opts "self-sink.slice-size" (.bool b)) (h2 : Sets opts "uds-sink.type" (.str t)) (ht : t = str "Stream") :
    (toConfig opts).sliceSize = 128 ∧ (toConfig opts).udsType = none := by
  obtain ⟨h1⟩ := h1
  obtain ⟨h2⟩ := h2
  subst ht
  refine ⟨by simp [toConfig, h1, extract, CV.int?, Cfg.default], ?_⟩
  simp only [toConfig, h2, extract, CV.parsed?]
  decide

end Verif.Accountant
