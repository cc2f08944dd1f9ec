import Verif.Reader.SourceProps
import Verif.Reader.Datagram
/-!
# C74: every event in a datagram is forwarded

-/
namespace Verif.Reader

variable {L R : Type} [DecidableEq L]

theorem loop_still (classify : List UInt8 → Parsed L R) {onEvent : State L R → L → R → State L R} (maxEvents : Nat)
    (clock : Nat → Bool) (hc : ∀ i, clock i = false) :
    ∀ (f i produced : Nat) (s : State L R), (loop classify onEvent maxEvents clock f i produced s).2 ≠ .timeout := by
  intro f
  induction f with
  | zero => intro i produced s; simp [loop]
  | succ f ih =>
    intro i produced s
    simp only [loop, hc, Bool.and_false, Bool.false_eq_true, ↓reduceIte]
    split
    · split
      · simp
      · split
        · simp
        · split
          · exact ih _ _ _
          · split
            · exact ih _ _ _
            · exact ih _ _ _
            · simp
    · simp

theorem bytes_map (bs : List UInt8) : bytes (bs.map .byte) = bs := by
  induction bs with
  | nil => rfl
  | cons x r ih => simp [bytes, ih]

theorem eventsIn_of_count (classify : List UInt8 → Parsed L R) (k : L) (ls : List (List UInt8))
    (h : eventCount classify ls = 0) : eventsIn classify k ls = [] := by
  induction ls with
  | nil => rfl
  | cons x r ih =>
    have e1 : x :: r = [x] ++ r := rfl
    rw [e1, eventCount_append] at h
    rw [e1, eventsIn_append, ih (by omega), List.append_nil]
    cases hx : classify x with
    | event l y => simp [eventCount, hx] at h
    | invalid => simp [eventsIn, hx]
    | fatal => simp [eventsIn, hx]

/-- A datagram with capacity for all its events is read completely. -/
theorem receive_spec (cfg : Cfg L R) (hm : 0 < cfg.sliceSize) (hf : ∀ x, cfg.classify x ≠ .fatal) (s : Udp L R)
    (d : Datagram) (hb : BInv cfg.sliceSize s.reader) (h0 : buffered s.reader = 0)
    (he : ∀ k, rowsOf s.reader.builders k = [])
    (hs : s.sent = forwarded cfg s.reader.out) (ha : s.abort = false)
    (hc : 0 < d.capacity) (hw : d.capacity * cfg.sliceSize < 2 ^ 64)
    (hn : eventCount cfg.classify (linesOf d.payload) ≤ d.capacity * cfg.sliceSize) (hk : ∀ i, d.clock i = false) :
    BInv cfg.sliceSize (receive cfg s d).reader ∧ buffered (receive cfg s d).reader = 0 ∧
    (∀ k, rowsOf (receive cfg s d).reader.builders k = []) ∧
    (receive cfg s d).sent = forwarded cfg (receive cfg s d).reader.out ∧ (receive cfg s d).abort = false ∧
    (∀ k, rowsIn k (receive cfg s d).reader.out = rowsIn k s.reader.out ++ eventsIn cfg.classify k (linesOf d.payload)) := by
  have hpos : 0 < d.capacity * cfg.sliceSize := Nat.mul_pos hc hm
  have hmod : d.capacity * cfg.sliceSize % 2 ^ 64 = d.capacity * cfg.sliceSize := Nat.mod_eq_of_lt hw
  have hne : ¬ d.capacity * cfg.sliceSize = 0 := by omega
  have hns : NoStall (d.payload.map .byte) := by simp [NoStall]
  have hb1 : BInv cfg.sliceSize { s.reader with lines := .init (d.payload.map .byte) } :=
    ⟨hb.nodup, hb.room, hb.size, hb.batch⟩
  have hl1 : Inv (LineRange.init (d.payload.map .byte)) := inv_init _ (crOk_of_noStall hns)
  obtain ⟨A, A'⟩ := readImpl_spec hm cfg.classify (json_takes hm) (d.capacity * cfg.sliceSize) d.clock
    { s.reader with lines := .init (d.payload.map .byte) } hl1 hb1
  have hq := (loop_quiet cfg.classify (json_takes hm) (d.capacity * cfg.sliceSize) d.clock hm
    ((d.payload.map Arr.byte).length + 4) 0 0 { s.reader with lines := .init (d.payload.map .byte) } hb1 ⟨hns, rfl⟩).1
  have ht := loop_still cfg.classify (onEvent := jsonEvent cfg.sliceSize) (d.capacity * cfg.sliceSize) d.clock hk
    ((d.payload.map Arr.byte).length + 4) 0 0 { s.reader with lines := .init (d.payload.map .byte) }
  have hr := loop_error cfg.classify hf (onEvent := jsonEvent cfg.sliceSize) (d.capacity * cfg.sliceSize) d.clock
    ((d.payload.map Arr.byte).length + 4) 0 0 { s.reader with lines := .init (d.payload.map .byte) }
  have hcap : ¬ d.capacity = 0 := by omega
  simp only [receive, ha, hcap, hmod, hne, ↓reduceIte, Bool.false_eq_true]
  change (readImpl cfg.classify (jsonEvent cfg.sliceSize) (d.capacity * cfg.sliceSize) d.clock { s.reader with lines := .init (d.payload.map .byte) }).2 ≠ .stalled at hq
  change (readImpl cfg.classify (jsonEvent cfg.sliceSize) (d.capacity * cfg.sliceSize) d.clock { s.reader with lines := .init (d.payload.map .byte) }).2 ≠ .timeout at ht
  change (readImpl cfg.classify (jsonEvent cfg.sliceSize) (d.capacity * cfg.sliceSize) d.clock { s.reader with lines := .init (d.payload.map .byte) }).2 ≠ .error at hr
  generalize readImpl cfg.classify (jsonEvent cfg.sliceSize) (d.capacity * cfg.sliceSize) d.clock { s.reader with lines := .init (d.payload.map .byte) } = p at *
  obtain ⟨r, res⟩ := p
  simp only at *
  obtain ⟨f1, f2⟩ := A.flushed hq A'
  obtain ⟨w, hw'⟩ := A.grows
  have hdrop : r.out.drop s.reader.out.length = w := by rw [← hw']; simp
  refine ⟨A.binv, f1, f2, ?_, ?_⟩
  · rw [hdrop, ← hw', hs]; simp [forwarded]
  · refine ⟨trivial, fun k => ?_⟩
    have hlast : eventsIn cfg.classify k (pending r.lines) = [] := by
      cases res with
      | running => exact absurd rfl A'
      | stalled => exact absurd rfl hq
      | timeout => exact absurd rfl ht
      | error => exact absurd rfl hr
      | endOfInput => rw [pending_done _ (A.ended rfl)]; rfl
      | ok =>
        apply eventsIn_of_count
        have h1 := A.full rfl
        have h2 := A.tally
        rw [pending_init, bytes_map] at h2
        simp only [buffered] at h0 h1 h2 f1
        omega
    have hacc := A.account k
    simp only [account, f2 k, hlast, he k, pending_init, bytes_map] at hacc
    simpa using hacc

theorem receive_dropped (cfg : Cfg L R) (s : Udp L R) (d : Datagram) (h : s.abort = false) :
    (receive cfg s d).droppedPackets = s.droppedPackets + if d.capacity = 0 then 1 else 0 := by
  unfold receive
  rw [h]
  simp only [Bool.false_eq_true, if_false]
  split
  · rfl
  · split <;> rfl

/-- For every sequence of datagrams: those that arrive while there is no capacity are counted as dropped, and all events in
all the others are forwarded, in order, as far as the filter keeps them.  Hypotheses: no line makes the reader give up; if
there is capacity, then there is enough for the events of the datagram; and the batch timeout does not expire while a
datagram is being read. -/
theorem C74_datagrams_partial (cfg : Cfg L R) (hm : 0 < cfg.sliceSize) (hf : ∀ x, cfg.classify x ≠ .fatal)
    (ds : List Datagram)
    (hds : ∀ d ∈ ds, 0 < d.capacity → d.capacity * cfg.sliceSize < 2 ^ 64 ∧
      eventCount cfg.classify (linesOf d.payload) ≤ d.capacity * cfg.sliceSize ∧ ∀ i, d.clock i = false) :
    (receiveAll cfg ds).droppedPackets = (ds.filter fun d => d.capacity = 0).length ∧
    ∀ k : L, rowsIn k (slicesOf (receiveAll cfg ds).sent) =
      ((ds.filter fun d => d.capacity ≠ 0).flatMap fun d => eventsIn cfg.classify k (linesOf d.payload)).filter (cfg.keep k) := by
  have main : ∀ (ds : List Datagram) (s : Udp L R), BInv cfg.sliceSize s.reader → buffered s.reader = 0 →
      (∀ k, rowsOf s.reader.builders k = []) →
      s.sent = forwarded cfg s.reader.out → s.abort = false →
      (∀ d ∈ ds, 0 < d.capacity → d.capacity * cfg.sliceSize < 2 ^ 64 ∧
        eventCount cfg.classify (linesOf d.payload) ≤ d.capacity * cfg.sliceSize ∧ ∀ i, d.clock i = false) →
      (ds.foldl (receive cfg) s).droppedPackets = s.droppedPackets + (ds.filter fun d => d.capacity = 0).length ∧
      ∀ k, rowsIn k (slicesOf (ds.foldl (receive cfg) s).sent) =
        (rowsIn k s.reader.out ++
          (ds.filter fun d => d.capacity ≠ 0).flatMap fun d => eventsIn cfg.classify k (linesOf d.payload)).filter (cfg.keep k) := by
    intro ds
    induction ds with
    | nil =>
      intro s _ _ _ hs _ _
      refine ⟨rfl, fun k => ?_⟩
      simp only [List.foldl_nil, List.filter_nil, List.flatMap_nil, List.append_nil]
      rw [hs, slicesOf_forwarded]
    | cons d ds ih =>
      intro s h1 h2 h3 h4 h5 hd
      by_cases hcap : d.capacity = 0
      · have hr : receive cfg s d = { s with droppedPackets := s.droppedPackets + 1 } := by
          unfold receive
          rw [h5]
          simp only [Bool.false_eq_true, if_false, hcap, if_true]
        have := ih (receive cfg s d) (by rw [hr]; exact h1) (by rw [hr]; exact h2) (by rw [hr]; exact h3) (by rw [hr]; exact h4)
          (by rw [hr]; exact h5) fun x hx => hd x (by simp [hx])
        simp only [List.foldl_cons]
        refine ⟨?_, fun k => ?_⟩
        · rw [this.1, receive_dropped cfg s d h5, if_pos hcap, List.filter_cons_of_pos (by simpa using hcap)]
          simp; omega
        · rw [this.2 k, List.filter_cons_of_neg (by simpa using hcap), hr]
      · obtain ⟨d2, d3, d4⟩ := hd d (by simp) (by omega)
        obtain ⟨g1, g2, g3, g4, g5, g6⟩ := receive_spec cfg hm hf s d h1 h2 h3 h4 h5 (by omega) d2 d3 d4
        have := ih _ g1 g2 g3 g4 g5 fun x hx => hd x (by simp [hx])
        simp only [List.foldl_cons]
        refine ⟨?_, fun k => ?_⟩
        · rw [this.1, receive_dropped cfg s d h5, if_neg hcap, List.filter_cons_of_neg (by simpa using hcap)]
          simp
        · rw [this.2 k, g6 k, List.append_assoc, List.filter_cons_of_pos (by simpa using hcap), List.flatMap_cons]
  have := main ds .init (init_binv hm []) rfl (fun _ => rfl) rfl rfl hds
  refine ⟨by rw [receiveAll, this.1]; simp [Udp.init], this.2⟩

/-- A datagram without capacity between two others. -/
example : (receiveAll (demoCfg none) [⟨[97, 49, 10], 3, still⟩, ⟨[97, 50], 0, still⟩, ⟨[97, 51], 3, still⟩]).droppedPackets = 1
    ∧ slicesOf (receiveAll (demoCfg none) [⟨[97, 49, 10], 3, still⟩, ⟨[97, 50], 0, still⟩, ⟨[97, 51], 3, still⟩]).sent
      = [(97, [[49]]), (97, [[51]])] := by decide

/-- Two datagrams with three events. -/
example : slicesOf (receiveAll (demoCfg none) [⟨[97, 49, 10, 97, 50, 10], 3, still⟩, ⟨[97, 51], 3, still⟩]).sent
    = [(97, [[49], [50]]), (97, [[51]])] := by decide

/-- If the last batch was sent longer ago than the batch timeout, all but the first event of a datagram are
lost, whatever the capacity. -/
theorem C74_idle_refuted : ∃ d : Datagram, d.payload = [97, 49, 10, 97, 50, 10, 97, 51, 10] ∧ d.capacity = 100 ∧
    eventsIn demo 97 (linesOf d.payload) = [[49], [50], [51]] ∧
    rowsIn 97 (slicesOf (receiveAll (demoCfg none) [d, ⟨[], 100, still⟩]).sent) = [[49]] :=
  ⟨⟨[97, 49, 10, 97, 50, 10, 97, 51, 10], 100, fun _ => true⟩, rfl, rfl, by decide, by decide⟩

/-- A datagram with more events than the stream has capacity for is cut off. -/
theorem C74_capacity_refuted : ∃ d : Datagram, (∀ i, d.clock i = false) ∧ d.capacity = 1 ∧
    eventsIn demo 97 (linesOf d.payload) = [[49], [50], [51]] ∧
    rowsIn 97 (slicesOf (receiveAll (demoCfg none) [d, ⟨[], 100, still⟩]).sent) = [[49], [50]] :=
  ⟨⟨[97, 49, 10, 97, 50, 10, 97, 51, 10], 1, still⟩, fun _ => rfl, rfl, by decide, by decide⟩

end Verif.Reader
