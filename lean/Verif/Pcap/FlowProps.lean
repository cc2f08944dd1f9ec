import Verif.Pcap.Props
/-!
# C79: the cutoff and the limits of the flow table
-/
namespace Verif.Pcap

/-! ## The table -/

theorem entry_ensure (x c : Conn) (fs : List Entry) :
    entryOf x (ensure c fs) = match entryOf x fs with
      | some e => some e
      | none => if x = c then some ⟨c, 0, 0⟩ else none := by
  simp only [ensure, entryOf]
  split
  · rename_i h
    cases hf : fs.find? (·.conn == x) with
    | some e => rfl
    | none =>
      rw [if_neg]
      rintro rfl
      rw [List.find?_eq_none] at hf
      simp only [List.any_eq_true] at h
      obtain ⟨e, he, h⟩ := h
      exact hf e he h
  · rw [List.find?_append]
    cases hf : fs.find? (·.conn == x) with
    | some e => rfl
    | none =>
      by_cases h : x = c
      · subst h; simp
      · simp [h, Ne.symm h]

theorem entry_conn {x : Conn} {fs : List Entry} {e : Entry} (h : entryOf x fs = some e) : e.conn = x ∧ e ∈ fs := by
  simp only [entryOf] at h
  have := List.find?_some h
  exact ⟨by simpa using this, List.mem_of_find?_eq_some h⟩

theorem entry_set (x : Conn) (e : Entry) (fs : List Entry) :
    entryOf x (setEntry e fs) = if x = e.conn then (entryOf x fs).map fun _ => e else entryOf x fs := by
  induction fs with
  | nil => simp [entryOf, setEntry]
  | cons f fs ih =>
    simp only [entryOf, setEntry, List.map_cons, List.find?_cons] at ih ⊢
    by_cases h1 : f.conn = e.conn <;> by_cases h2 : x = e.conn <;> by_cases h3 : f.conn = x <;>
      simp_all [beq_iff_eq] <;> grind

theorem entry_filter (x : Conn) (p : Entry → Bool) (fs : List Entry) :
    (∀ e, entryOf x fs = some e → p e = true → entryOf x (fs.filter p) = some e)
      ∧ (entryOf x fs = none → entryOf x (fs.filter p) = none) := by
  induction fs with
  | nil => simp [entryOf]
  | cons f fs ih =>
    simp only [entryOf] at ih ⊢
    cases h1 : f.conn == x
    · rw [List.find?_cons_of_neg (by simp [h1]), List.filter_cons]
      split
      · rw [List.find?_cons_of_neg (by simp [h1])]; exact ih
      · exact ih
    · rw [List.find?_cons_of_pos (by simpa using h1), List.filter_cons]
      refine ⟨?_, by simp⟩
      intro e he hp
      obtain rfl := Option.some.inj he
      rw [if_pos hp, List.find?_cons_of_pos (by simpa using h1)]

/-- The flows in the table. -/
def keys (fs : List Entry) : List Conn := fs.map (·.conn)

theorem keys_ensure (c : Conn) (fs : List Entry) :
    keys (ensure c fs) = if c ∈ keys fs then keys fs else keys fs ++ [c] := by
  simp only [ensure, keys, List.mem_map, List.any_eq_true, beq_iff_eq]
  split <;> simp

theorem keys_set (e : Entry) (fs : List Entry) : keys (setEntry e fs) = keys fs := by
  simp only [keys, setEntry, List.map_map]
  apply List.map_congr_left
  intro f _
  simp only [Function.comp]
  split
  · rename_i h; simpa using (beq_iff_eq.mp h).symm
  · rfl

theorem keys_filter (p : Entry → Bool) (fs : List Entry) : (keys (fs.filter p)).Sublist (keys fs) :=
  List.Sublist.map _ (List.filter_sublist)

theorem nodup_ensure (c : Conn) (fs : List Entry) (h : (keys fs).Nodup) : (keys (ensure c fs)).Nodup := by
  rw [keys_ensure]
  split
  · exact h
  · rename_i hc
    rw [List.nodup_append]
    refine ⟨h, by simp, ?_⟩
    intro a ha b hb
    simp only [List.mem_singleton] at hb
    subst hb
    intro hab
    exact hc (hab ▸ ha)

theorem nodup_length {α : Type} [DecidableEq α] : ∀ (l F : List α), l.Nodup → (∀ a ∈ l, a ∈ F) → l.length ≤ F.length
  | [], F, _, _ => by simp
  | a :: l, F, hn, hs => by
    have ha : a ∈ F := hs a (by simp)
    have h := nodup_length l (F.erase a) (List.nodup_cons.mp hn).2 (by
      intro b hb
      have hne : b ≠ a := by
        rintro rfl
        exact (List.nodup_cons.mp hn).1 hb
      exact (List.mem_erase_of_ne hne).mpr (hs b (by simp [hb])))
    rw [List.length_erase_of_mem ha] at h
    have := List.length_pos_of_mem ha
    simp only [List.length_cons]
    omega

theorem update_ok (cfg : Cfg) (c : Conn) (t : UInt64) (n : Nat) (fs : List Entry)
    (hb : ∀ e ∈ fs, e.bytes ≤ cfg.cutoff) :
    ∃ e, entryOf c (ensure c fs) = some e ∧ e.bytes ≤ cfg.cutoff
      ∧ updateFlow cfg c t n fs = some (setEntry ⟨c, min (e.bytes + n) cfg.cutoff, t⟩ (ensure c fs), decide (e.bytes < cfg.cutoff)) := by
  have hx : ∃ e, entryOf c (ensure c fs) = some e ∧ e.bytes ≤ cfg.cutoff := by
    rw [entry_ensure]
    cases h : entryOf c fs with
    | some e => exact ⟨e, rfl, hb e (entry_conn h).2⟩
    | none => exact ⟨⟨c, 0, 0⟩, by simp, by simp⟩
  obtain ⟨e, he, hle⟩ := hx
  refine ⟨e, he, hle, ?_⟩
  simp only [updateFlow, he]
  by_cases h : e.bytes = cfg.cutoff
  · rw [if_pos h]
    have : min (e.bytes + n) cfg.cutoff = e.bytes := by omega
    rw [this]
    simp [h]
  · rw [if_neg h, if_pos (by omega)]
    have : min (e.bytes + n) cfg.cutoff = e.bytes + min n (cfg.cutoff - e.bytes) := by omega
    rw [this]
    simp only [Option.some.injEq, Prod.mk.injEq, true_and]
    simp; omega

theorem bytes_ensure (cfg : Cfg) (c : Conn) (fs : List Entry) (hb : ∀ e ∈ fs, e.bytes ≤ cfg.cutoff) :
    ∀ e ∈ ensure c fs, e.bytes ≤ cfg.cutoff := by
  intro e he
  simp only [ensure] at he
  split at he
  · exact hb e he
  · simp only [List.mem_append, List.mem_singleton] at he
    rcases he with he | rfl
    · exact hb e he
    · simp

theorem bytes_set (cfg : Cfg) (f : Entry) (fs : List Entry) (hb : ∀ e ∈ fs, e.bytes ≤ cfg.cutoff)
    (hf : f.bytes ≤ cfg.cutoff) : ∀ e ∈ setEntry f fs, e.bytes ≤ cfg.cutoff := by
  intro e he
  simp only [setEntry, List.mem_map] at he
  obtain ⟨g, hg, rfl⟩ := he
  split
  · exact hf
  · exact hb g hg

theorem shrink_some (cfg : Cfg) (pick : Nat → Nat) (h0 : 0 < cfg.maxFlows) :
    ∀ (f : Nat) (fs : List Entry), fs.length ≤ f →
      ∃ gs, shrink cfg pick f fs = some gs ∧ gs.length < cfg.maxFlows ∧ gs.Sublist fs
  | 0, fs, h => by
    have : fs.length < cfg.maxFlows := by omega
    exact ⟨fs, by simp [shrink, this], this, List.Sublist.refl _⟩
  | f + 1, fs, h => by
    simp only [shrink]
    by_cases h1 : fs.length < cfg.maxFlows
    · exact ⟨fs, by simp [h1], h1, List.Sublist.refl _⟩
    · rw [if_neg h1, if_neg (by omega)]
      have hl : (fs.eraseIdx (pick f % fs.length)).length ≤ f := by
        rw [List.length_eraseIdx_of_lt (Nat.mod_lt _ (by omega))]
        omega
      obtain ⟨gs, e, h2, h3⟩ := shrink_some cfg pick h0 f _ hl
      exact ⟨gs, e, h2, h3.trans (List.eraseIdx_sublist _ _)⟩

theorem shrink_small (cfg : Cfg) (pick : Nat → Nat) (f : Nat) (fs : List Entry) (h : fs.length < cfg.maxFlows) :
    shrink cfg pick f fs = some fs := by
  cases f <;> simp [shrink, h]

/-! ## One packet -/

/-- The rows delivered or about to be. -/
def State.events (s : State) : List Parsed := s.out.flatten ++ s.rows

theorem finish_events (s : State) : s.finish.events = s.events ∧ s.finish.flows = s.flows
    ∧ s.finish.lastExpire = s.lastExpire := by
  simp only [State.finish]
  split
  · exact ⟨rfl, rfl, rfl⟩
  · simp [State.events]

/-- What a packet does to the table, if nothing goes wrong. -/
theorem packet_eq (cfg : Cfg) (m : Nat) (pick : Nat → Nat) (s : State) (p : Packet) (q : Parsed) (hq : parse p = .ok q)
    (hc : p.data.length = p.len) (hm : 0 < cfg.maxFlows) (hb : ∀ e ∈ s.flows, e.bytes ≤ cfg.cutoff) :
    ∃ e, entryOf q.conn (ensure q.conn s.flows) = some e
      ∧ (packet cfg m pick s p).2 = .go
      ∧ let le := if s.lastExpire = 0 then p.time else s.lastExpire
        let fs := setEntry ⟨q.conn, min (e.bytes + q.payload) cfg.cutoff, p.time⟩ (ensure q.conn s.flows)
        if e.bytes < cfg.cutoff then
          ∃ gs, shrink cfg pick (evictInactive cfg p.time fs le).1.length (evictInactive cfg p.time fs le).1 = some gs
            ∧ (packet cfg m pick s p).1.flows = ensure q.conn gs
            ∧ (packet cfg m pick s p).1.events = s.events ++ [q]
        else (packet cfg m pick s p).1.flows = fs ∧ (packet cfg m pick s p).1.events = s.events := by
  obtain ⟨e, he, hle, hu⟩ := update_ok cfg q.conn p.time q.payload s.flows hb
  refine ⟨e, he, ?_⟩
  simp only [packet, hq, hu]
  by_cases h : e.bytes < cfg.cutoff
  · simp only [h, decide_true, if_true]
    generalize hev : evictInactive cfg p.time
      (setEntry ⟨q.conn, min (e.bytes + q.payload) cfg.cutoff, p.time⟩ (ensure q.conn s.flows))
      (if s.lastExpire = 0 then p.time else s.lastExpire) = ev
    obtain ⟨fs, le⟩ := ev
    obtain ⟨gs, hg, _, _⟩ := shrink_some cfg pick hm fs.length fs (Nat.le_refl _)
    simp only [hg]
    rw [if_neg (by omega)]
    refine ⟨rfl, gs, rfl, ?_⟩
    split
    · refine ⟨(finish_events _).2.1, ?_⟩
      rw [(finish_events _).1]
      simp [State.events]
    · simp [State.events]
  · simp only [h, decide_false, if_false]
    simp [State.events]

theorem evict_sub (cfg : Cfg) (t : UInt64) (fs : List Entry) (le : UInt64) :
    (evictInactive cfg t fs le).1.Sublist fs := by
  simp only [evictInactive]
  split
  · exact List.Sublist.refl _
  · exact List.filter_sublist

theorem packet_bytes (cfg : Cfg) (m : Nat) (pick : Nat → Nat) (s : State) (p : Packet) (q : Parsed)
    (hq : parse p = .ok q) (hc : p.data.length = p.len) (hm : 0 < cfg.maxFlows)
    (hb : ∀ e ∈ s.flows, e.bytes ≤ cfg.cutoff) : ∀ e ∈ (packet cfg m pick s p).1.flows, e.bytes ≤ cfg.cutoff := by
  obtain ⟨e, he, _, h⟩ := packet_eq cfg m pick s p q hq hc hm hb
  have h1 := bytes_set cfg ⟨q.conn, min (e.bytes + q.payload) cfg.cutoff, p.time⟩ _ (bytes_ensure cfg q.conn _ hb)
    (Nat.min_le_right _ _)
  simp only at h
  split at h
  · obtain ⟨gs, hg, h2, _⟩ := h
    rw [h2]
    apply bytes_ensure
    intro x hx
    obtain ⟨gs', hg', _, hsub⟩ := shrink_some cfg pick hm _ _ (Nat.le_refl _)
    rw [hg] at hg'
    obtain rfl := Option.some.inj hg'
    have hx := hsub.subset hx
    exact h1 x ((evict_sub _ _ _ _).subset hx)
  · rw [h.1]; exact h1

theorem packet_size (cfg : Cfg) (m : Nat) (pick : Nat → Nat) (s : State) (p : Packet) (q : Parsed)
    (hq : parse p = .ok q) (hc : p.data.length = p.len) (hm : 0 < cfg.maxFlows) (h0 : 0 < cfg.cutoff)
    (hb : ∀ e ∈ s.flows, e.bytes ≤ cfg.cutoff) (hs : s.flows.length ≤ cfg.maxFlows) :
    (packet cfg m pick s p).1.flows.length ≤ cfg.maxFlows := by
  obtain ⟨e, he, _, h⟩ := packet_eq cfg m pick s p q hq hc hm hb
  simp only at h
  split at h
  · obtain ⟨gs, hg, h2, _⟩ := h
    rw [h2]
    obtain ⟨gs', hg', hl, _⟩ := shrink_some cfg pick hm _ _ (Nat.le_refl _)
    rw [hg] at hg'
    obtain rfl := Option.some.inj hg'
    simp only [ensure]
    split
    · omega
    · simp; omega
  · rename_i hlt
    rw [h.1]
    simp only [setEntry, List.length_map]
    rw [entry_ensure] at he
    cases hx : entryOf q.conn s.flows with
    | none =>
      rw [hx] at he
      simp at he
      subst he
      exact absurd h0 (by simpa using hlt)
    | some e' =>
      have : ensure q.conn s.flows = s.flows := by
        simp only [ensure]
        rw [if_pos]
        have := entry_conn hx
        simp only [List.any_eq_true]
        exact ⟨e', this.2, by simp [this.1]⟩
      rw [this]; exact hs

/-! ## Traces -/

/-- Packets the reader understands: completely captured, and either an IP packet or skipped. -/
def Fine (p : Packet) : Prop := (∃ q, parse p = .ok q ∧ p.data.length = p.len) ∨ parse p = .error .skip

theorem trace_inv (cfg : Cfg) (m : Nat) (I : State → Prop) (hfin : ∀ s, I s → I s.finish)
    (hstep : ∀ s p pick, I s → Fine p → (packet cfg m pick s p).2 = .go ∧ I (packet cfg m pick s p).1) :
    ∀ (ps : List (Packet × (Nat → Nat))) (s : State), I s → (∀ p ∈ ps, Fine p.1) →
      (trace cfg m ps s).2 = .go ∧ I (trace cfg m ps s).1
  | [], s, h, _ => ⟨rfl, hfin s h⟩
  | (p, pick) :: ps, s, h, hf => by
    have h1 := hstep s p pick h (hf (p, pick) (by simp))
    simp only [trace]
    generalize packet cfg m pick s p = r at h1
    obtain ⟨s', e⟩ := r
    obtain ⟨rfl, h1⟩ := h1
    exact trace_inv cfg m I hfin hstep ps s' h1 fun p hp => hf p (by simp [hp])

/-- **C79 (the reader keeps going).**  A trace of well-formed packets is read to its end: no assertion fails and no
loop hangs, whatever the times and the random numbers are.

Partial: needs room for at least one flow, see `C79_hang_refuted`. -/
theorem C79_completes_partial (cfg : Cfg) (hm : 0 < cfg.maxFlows) (m : Nat) (ps : List (Packet × (Nat → Nat)))
    (hf : ∀ p ∈ ps, Fine p.1) : (trace cfg m ps .init).2 = .go := by
  refine (trace_inv cfg m (fun s => ∀ e ∈ s.flows, e.bytes ≤ cfg.cutoff) ?_ ?_ ps .init (by simp [State.init]) hf).1
  · intro s h; rw [(finish_events s).2.1]; exact h
  · intro s p pick h hp
    rcases hp with ⟨q, hq, hc⟩ | hq
    · obtain ⟨_, _, h1, _⟩ := packet_eq cfg m pick s p q hq hc hm h
      exact ⟨h1, packet_bytes cfg m pick s p q hq hc hm h⟩
    · simp only [packet, hq]; exact ⟨trivial, h⟩

/-- **C79 (limit).**  The flow table never holds more than the configured number of flows.

Partial: the cutoff must not be zero, see `C79_growth_refuted`. -/
theorem C79_limit_partial (cfg : Cfg) (hm : 0 < cfg.maxFlows) (h0 : 0 < cfg.cutoff) (m : Nat)
    (ps : List (Packet × (Nat → Nat))) (hf : ∀ p ∈ ps, Fine p.1) :
    (trace cfg m ps .init).1.flows.length ≤ cfg.maxFlows := by
  refine (trace_inv cfg m (fun s => (∀ e ∈ s.flows, e.bytes ≤ cfg.cutoff) ∧ s.flows.length ≤ cfg.maxFlows) ?_ ?_ ps .init
    (by simp [State.init]) hf).2.2
  · intro s h; rw [(finish_events s).2.1]; exact h
  · intro s p pick h hp
    rcases hp with ⟨q, hq, hc⟩ | hq
    · obtain ⟨_, _, h1, _⟩ := packet_eq cfg m pick s p q hq hc hm h.1
      exact ⟨h1, packet_bytes cfg m pick s p q hq hc hm h.1, packet_size cfg m pick s p q hq hc hm h0 h.1 h.2⟩
    · simp only [packet, hq]; exact ⟨trivial, h⟩

/-- **C79 (other frames).**  Frames without an IP packet have no effect on what is delivered for the others. -/
theorem C79_skip (cfg : Cfg) (m : Nat) : ∀ (ps : List (Packet × (Nat → Nat))) (s : State),
    trace cfg m ps s = trace cfg m (ps.filter fun p => !decide (parse p.1 = .error .skip)) s
  | [], s => rfl
  | (p, pick) :: ps, s => by
    by_cases h : parse p = .error .skip
    · rw [List.filter_cons_of_neg (by simp [h])]
      simp only [trace, packet, h]
      exact C79_skip cfg m ps s
    · rw [List.filter_cons_of_pos (by simp [h])]
      simp only [trace]
      split
      · exact C79_skip cfg m ps _
      · rfl

/-- What holds for flow `x` after `n` payload bytes of it, the last of them at `l`. -/
structure Inv (cfg : Cfg) (F : List Conn) (x : Conn) (n : Nat) (l : Option UInt64) (now : UInt64) (fs : List Entry) :
    Prop where
  bytes : ∀ e ∈ fs, e.bytes ≤ cfg.cutoff
  nodup : (keys fs).Nodup
  sub : ∀ c ∈ keys fs, c ∈ F
  fresh : l = none → entryOf x fs = none ∧ n = 0
  seen : ∀ t, l = some t → t ≤ now ∧ ((∃ e, entryOf x fs = some e ∧ e.bytes = min n cfg.cutoff ∧ e.last = t)
    ∨ cfg.maxAge < now - t)

theorem gap_mono {now t t' a : UInt64} (h1 : t ≤ now) (h2 : now ≤ t') (h : a < now - t) : a < t' - t := by
  simp only [UInt64.le_iff_toNat_le, UInt64.lt_iff_toNat_lt] at *
  rw [UInt64.toNat_sub_of_le _ _ (by simpa [UInt64.le_iff_toNat_le] using h1)] at h
  rw [UInt64.toNat_sub_of_le _ _ (by simp only [UInt64.le_iff_toNat_le]; omega)]
  omega

/-- One packet keeps it, and is kept iff the cutoff is not reached. -/
theorem packet_inv (cfg : Cfg) (m : Nat) (pick : Nat → Nat) (F : List Conn) (hF : F.length < cfg.maxFlows) (x : Conn)
    (n : Nat) (l : Option UInt64) (now : UInt64) (s : State) (hI : Inv cfg F x n l now s.flows) (p : Packet) (q : Parsed)
    (hq : parse p = .ok q) (hc : p.data.length = p.len) (hqF : q.conn ∈ F) (hnow : now ≤ p.time)
    (hgap : q.conn = x → ∀ t₀, l = some t₀ → p.time - t₀ ≤ cfg.maxAge) :
    (packet cfg m pick s p).2 = .go
      ∧ (if q.conn = x then Inv cfg F x (n + q.payload) (some p.time) p.time (packet cfg m pick s p).1.flows
          ∧ ((packet cfg m pick s p).1.events = if n < cfg.cutoff then s.events ++ [q] else s.events)
        else Inv cfg F x n l p.time (packet cfg m pick s p).1.flows
          ∧ ((packet cfg m pick s p).1.events.filter (·.conn == x) = s.events.filter (·.conn == x))) := by
  have hm : 0 < cfg.maxFlows := by omega
  obtain ⟨e, he, hgo, h⟩ := packet_eq cfg m pick s p q hq hc hm hI.bytes
  refine ⟨hgo, ?_⟩
  have hB := packet_bytes cfg m pick s p q hq hc hm hI.bytes
  generalize hfs : setEntry ⟨q.conn, min (e.bytes + q.payload) cfg.cutoff, p.time⟩ (ensure q.conn s.flows) = fs at h
  have hkeys : keys fs = keys (ensure q.conn s.flows) := by rw [← hfs, keys_set]
  have hnd : (keys fs).Nodup := by rw [hkeys]; exact nodup_ensure _ _ hI.nodup
  have hsub : ∀ c ∈ keys fs, c ∈ F := by
    intro c hc
    rw [hkeys, keys_ensure] at hc
    split at hc
    · exact hI.sub c hc
    · simp only [List.mem_append, List.mem_singleton] at hc
      rcases hc with hc | rfl
      · exact hI.sub c hc
      · exact hqF
  -- the entry of `x` after the update
  have hx : entryOf x fs = if x = q.conn then some ⟨q.conn, min (e.bytes + q.payload) cfg.cutoff, p.time⟩
      else entryOf x s.flows := by
    rw [← hfs, entry_set]
    simp only
    split
    · rename_i hxq; rw [hxq, he]; rfl
    · rename_i hxq
      rw [entry_ensure, if_neg hxq]
      cases entryOf x s.flows <;> rfl
  -- the table the packet leaves behind
  generalize hr : packet cfg m pick s p = r at *
  have hrest : ((keys r.1.flows).Nodup ∧ ∀ c ∈ keys r.1.flows, c ∈ F)
      ∧ (∀ f, entryOf x fs = some f → ¬ (cfg.maxAge < p.time - f.last) → entryOf x r.1.flows = some f)
      ∧ (entryOf x fs = none → entryOf x r.1.flows = none)
      ∧ r.1.events = if e.bytes < cfg.cutoff then s.events ++ [q] else s.events := by
    simp only at h
    split at h
    · rename_i hlt
      obtain ⟨gs, hg, h1, h2⟩ := h
      generalize hle : (if s.lastExpire = 0 then p.time else s.lastExpire) = le at hg
      have hsl := evict_sub cfg p.time fs le
      have hksl : (keys (evictInactive cfg p.time fs le).1).Sublist (keys fs) := hsl.map _
      have hlen : (evictInactive cfg p.time fs le).1.length < cfg.maxFlows := by
        have := nodup_length (keys (evictInactive cfg p.time fs le).1) F (hnd.sublist hksl)
          (fun c hc => hsub c (hksl.subset hc))
        simp only [keys, List.length_map] at this
        omega
      rw [shrink_small cfg pick _ _ hlen] at hg
      obtain rfl := Option.some.inj hg
      have hqin : entryOf q.conn fs = some ⟨q.conn, min (e.bytes + q.payload) cfg.cutoff, p.time⟩ := by
        rw [← hfs, entry_set]; simp [he]
      have hev : ∀ y f, entryOf y fs = some f → ¬ (cfg.maxAge < p.time - f.last) →
          entryOf y (evictInactive cfg p.time fs le).1 = some f := by
        intro y f hf ha
        simp only [evictInactive]
        split
        · exact hf
        · refine (entry_filter y _ fs).1 f hf ?_
          simpa using ha
      have hev0 : ∀ y, entryOf y fs = none → entryOf y (evictInactive cfg p.time fs le).1 = none := by
        intro y hf
        simp only [evictInactive]
        split
        · exact hf
        · exact (entry_filter y _ fs).2 hf
      have hqe := hev q.conn _ hqin (by simp [UInt64.lt_iff_toNat_lt])
      have hens : ensure q.conn (evictInactive cfg p.time fs le).1 = (evictInactive cfg p.time fs le).1 := by
        simp only [ensure]
        rw [if_pos]
        have := entry_conn hqe
        simp only [List.any_eq_true]
        exact ⟨_, this.2, by simp⟩
      rw [hens] at h1
      rw [h1]
      exact ⟨⟨hnd.sublist hksl, fun c hc => hsub c (hksl.subset hc)⟩, hev x, hev0 x, by rw [h2, if_pos hlt]⟩
    · rename_i hlt
      rw [h.1]
      exact ⟨⟨hnd, hsub⟩, fun f hf _ => hf, fun hf => hf, by rw [h.2, if_neg hlt]⟩
  obtain ⟨⟨hr1, hr2⟩, hr3, hr4, hr5⟩ := hrest
  by_cases hqx : q.conn = x
  · rw [if_pos hqx]
    rw [if_pos hqx.symm] at hx
    have hbytes : e.bytes = min n cfg.cutoff := by
      rw [entry_ensure, hqx] at he
      cases hl : l with
      | none =>
        obtain ⟨h1, h2⟩ := hI.fresh hl
        rw [h1] at he
        simp at he
        subst he
        simp [h2]
      | some t =>
        obtain ⟨hle, h1⟩ := hI.seen t hl
        rcases h1 with ⟨e', h1, h2, _⟩ | h1
        · rw [h1] at he
          obtain rfl := Option.some.inj he
          exact h2
        · exfalso
          have := gap_mono hle hnow h1
          have h2 := hgap hqx t hl
          simp only [UInt64.le_iff_toNat_le, UInt64.lt_iff_toNat_lt] at this h2
          omega
    refine ⟨⟨hB, hr1, hr2, by simp, ?_⟩, ?_⟩
    · intro t ht
      obtain rfl := Option.some.inj ht
      refine ⟨UInt64.le_refl _, .inl ⟨_, hr3 _ hx (by simp [UInt64.lt_iff_toNat_lt]), ?_, rfl⟩⟩
      simp only
      omega
    · rw [hr5]
      by_cases hlt : n < cfg.cutoff
      · rw [if_pos hlt, if_pos (by omega)]
      · rw [if_neg hlt, if_neg (by omega)]
  · rw [if_neg hqx]
    rw [if_neg (Ne.symm hqx)] at hx
    refine ⟨⟨hB, hr1, hr2, ?_, ?_⟩, ?_⟩
    · intro hl
      obtain ⟨h1, h2⟩ := hI.fresh hl
      exact ⟨hr4 (by rw [hx, h1]), h2⟩
    · intro t hl
      obtain ⟨hle, h1⟩ := hI.seen t hl
      refine ⟨UInt64.le_trans hle hnow, ?_⟩
      by_cases ha : cfg.maxAge < p.time - t
      · exact .inr ha
      rcases h1 with ⟨f, h1, h2, h3⟩ | h1
      · exact .inl ⟨f, hr3 f (by rw [hx, h1]) (by rw [h3]; exact ha), h2, h3⟩
      · exact .inr (gap_mono hle hnow h1)
    · rw [hr5]
      split
      · rw [List.filter_append]; simp [hqx]
      · rfl

theorem trace_kept (cfg : Cfg) (m : Nat) (F : List Conn) (hF : F.length < cfg.maxFlows) (x : Conn) :
    ∀ (ps : List (Packet × (Nat → Nat) × Parsed)) (n : Nat) (l : Option UInt64) (now : UInt64) (s : State),
      Inv cfg F x n l now s.flows →
      (∀ e ∈ ps, parse e.1 = .ok e.2.2 ∧ e.1.data.length = e.1.len ∧ e.2.2.conn ∈ F) →
      (∀ e ∈ ps, now ≤ e.1.time) → ps.Pairwise (fun a b => a.1.time ≤ b.1.time) →
      steady cfg.maxAge x l (ps.map fun e => (e.2.2.conn, e.1.time)) →
      (trace cfg m (ps.map fun e => (e.1, e.2.1)) s).2 = .go
        ∧ (trace cfg m (ps.map fun e => (e.1, e.2.1)) s).1.events.filter (·.conn == x)
          = s.events.filter (·.conn == x) ++ kept cfg.cutoff x n (ps.map (·.2.2))
  | [], n, l, now, s, hI, _, _, _, _ => by
    simp only [List.map_nil, trace, kept, List.append_nil]
    exact ⟨trivial, by rw [(finish_events s).1]⟩
  | (p, pick, q) :: ps, n, l, now, s, hI, hp, hnow, hpw, hst => by
    obtain ⟨hq, hc, hqF⟩ := hp (p, pick, q) (by simp)
    rw [List.pairwise_cons] at hpw
    simp only [List.map_cons, steady] at hst
    have h := packet_inv cfg m pick F hF x n l now s hI p q hq hc hqF (hnow (p, pick, q) (by simp)) (by
      intro hqx; rw [if_pos hqx] at hst; exact hst.1)
    simp only [List.map_cons, trace, kept]
    generalize packet cfg m pick s p = r at h
    obtain ⟨s', en⟩ := r
    obtain ⟨rfl, h⟩ := h
    simp only at h ⊢
    have hp' := fun e he => hp e (List.mem_cons_of_mem _ he)
    by_cases hqx : q.conn = x
    · rw [if_pos hqx] at h hst ⊢
      obtain ⟨h1, h2⟩ := trace_kept cfg m F hF x ps _ _ _ s' h.1 hp' (fun e he => hpw.1 e he) hpw.2 hst.2
      refine ⟨h1, ?_⟩
      rw [h2, h.2]
      split
      · rw [List.filter_append, List.append_assoc]; simp [hqx]
      · rfl
    · rw [if_neg hqx] at h hst ⊢
      obtain ⟨h1, h2⟩ := trace_kept cfg m F hF x ps _ _ _ s' h.1 hp' (fun e he => hpw.1 e he) hpw.2 hst
      exact ⟨h1, by rw [h2, h.2]⟩

theorem trace_rows (cfg : Cfg) (m : Nat) : ∀ (ps : List (Packet × (Nat → Nat))) (s : State),
    (trace cfg m ps s).2 = .go → (trace cfg m ps s).1.rows = []
  | [], s, _ => by
    simp only [trace, State.finish]
    split <;> simp_all
  | (p, pick) :: ps, s, h => by
    simp only [trace] at h ⊢
    split at h
    · rename_i hr; exact trace_rows cfg m ps _ h
    · rename_i hr
      exfalso
      generalize packet cfg m pick s p = r at h hr
      obtain ⟨s', e⟩ := r
      simp only at h
      subst h
      exact hr s' rfl

/-- **C79 (cutoff).**  Of every flow, exactly the packets are delivered that are preceded by fewer than `cutoff` bytes
of payload of that flow, in order.

Partial: the flows (the list `F`) fit into the table, the times of the trace do not go back, and the packets of the
flow follow each other within the configured age; see the refutations below for what happens otherwise. -/
theorem C79_cutoff_partial (cfg : Cfg) (m : Nat) (F : List Conn) (hF : F.length < cfg.maxFlows) (x : Conn)
    (ps : List (Packet × (Nat → Nat) × Parsed))
    (hp : ∀ e ∈ ps, parse e.1 = .ok e.2.2 ∧ e.1.data.length = e.1.len ∧ e.2.2.conn ∈ F)
    (ht : ps.Pairwise (fun a b => a.1.time ≤ b.1.time))
    (hs : steady cfg.maxAge x none (ps.map fun e => (e.2.2.conn, e.1.time))) :
    (trace cfg m (ps.map fun e => (e.1, e.2.1)) .init).2 = .go
      ∧ (trace cfg m (ps.map fun e => (e.1, e.2.1)) .init).1.out.flatten.filter (·.conn == x)
        = kept cfg.cutoff x 0 (ps.map (·.2.2)) := by
  obtain ⟨h1, h2⟩ := trace_kept cfg m F hF x ps 0 none 0 .init
    ⟨by simp [State.init], by simp [State.init, keys], by simp [State.init, keys], by simp [State.init, entryOf], by simp⟩
    hp (by intro e _; simp [UInt64.le_iff_toNat_le]) ht hs
  refine ⟨h1, ?_⟩
  have h3 := trace_rows cfg m _ _ h1
  simp only [State.events, h3, List.append_nil] at h2
  rw [h2]
  simp [State.init]

/-- A datagram of flow `b`. -/
def dgram (b : UInt8) (n : Nat) (t : UInt64) : Packet :=
  frame 17 ([0, b] ++ be16 53 ++ [0, 0, 0, 0] ++ List.replicate n 7) t

/-- What the reader makes of it. -/
def dgramOk (b : UInt8) (n : Nat) : Parsed :=
  ⟨⟨[10, 0, 0, 1], [10, 0, 0, 2], b.toNat, 53, .udp⟩, n,
    (someIp 17).bytes ++ ([0, b] ++ be16 53 ++ [0, 0, 0, 0] ++ List.replicate n 7)⟩

/-- A trace with two flows and a cutoff of 5 bytes: the first two packets of flow 1 are kept. -/
def twoFlows : List (Packet × (Nat → Nat) × Parsed) :=
  [(dgram 1 3 10, id, dgramOk 1 3), (dgram 2 4 11, id, dgramOk 2 4), (dgram 1 3 12, id, dgramOk 1 3),
    (dgram 1 3 40, id, dgramOk 1 3)]

example : let cfg : Cfg := ⟨5, 3, 60, 10⟩
    (∀ e ∈ twoFlows, parse e.1 = .ok e.2.2 ∧ e.1.data.length = e.1.len
      ∧ e.2.2.conn ∈ [(dgramOk 1 0).conn, (dgramOk 2 0).conn])
    ∧ twoFlows.Pairwise (fun a b => a.1.time ≤ b.1.time)
    ∧ steady cfg.maxAge (dgramOk 1 0).conn none (twoFlows.map fun e => (e.2.2.conn, e.1.time))
    ∧ kept cfg.cutoff (dgramOk 1 0).conn 0 (twoFlows.map (·.2.2)) = [dgramOk 1 3, dgramOk 1 3]
    ∧ (trace cfg 100 (twoFlows.map fun e => (e.1, e.2.1)) .init).1.out
      = [[dgramOk 1 3, dgramOk 2 4, dgramOk 1 3]] := by
  refine ⟨by decide +kernel, by decide +kernel, ?_, by decide +kernel, by decide +kernel⟩
  simp [steady, twoFlows, dgramOk, dgram, frame]
example : ∀ p ∈ twoFlows.map (·.1), Fine p := by
  intro p hp
  simp only [twoFlows, List.map_cons, List.map_nil, List.mem_cons, List.not_mem_nil, or_false] at hp
  rcases hp with rfl | rfl | rfl | rfl
  · exact .inl ⟨dgramOk 1 3, by decide +kernel, by decide +kernel⟩
  · exact .inl ⟨dgramOk 2 4, by decide +kernel, by decide +kernel⟩
  · exact .inl ⟨dgramOk 1 3, by decide +kernel, by decide +kernel⟩
  · exact .inl ⟨dgramOk 1 3, by decide +kernel, by decide +kernel⟩

/-- **C79 refuted (full table).**  When the table is full, the entry of the very flow just counted may be dropped and
is created anew with nothing counted: with room for one flow, the cutoff never takes effect. -/
theorem C79_full_refuted :
    ∃ (cfg : Cfg) (ps : List (Packet × (Nat → Nat))) (x : Conn), cfg.maxFlows = 1
      ∧ (∀ p ∈ ps, ∃ q, parse p.1 = .ok q ∧ q.conn = x)
      ∧ ((trace cfg 100 ps .init).1.out.flatten.map (·.payload)).sum > 4 * cfg.cutoff :=
  ⟨⟨5, 1, 60, 10⟩, List.replicate 5 (dgram 1 5 10, id), (dgramOk 1 0).conn, rfl, by
    intro p hp
    obtain rfl := List.eq_of_mem_replicate hp
    exact ⟨dgramOk 1 5, by decide +kernel, rfl⟩, by decide +kernel⟩

/-- **C79 refuted (clock).**  A packet with a timestamp one second older than the one before it makes the reader forget
active flows, whose cutoff starts over. -/
theorem C79_clock_refuted :
    ∃ (cfg : Cfg) (ps : List (Packet × (Nat → Nat))), ps.map (·.1.time) = [100, 99, 100] ∧ cfg.maxAge = 60
      ∧ cfg.maxFlows = 100
      ∧ ((((trace cfg 100 ps .init).1.out.flatten.filter (·.conn == (dgramOk 1 0).conn)).map (·.payload)).sum
        > cfg.cutoff) :=
  ⟨⟨5, 100, 60, 10⟩, [(dgram 1 5 100, id), (dgram 2 5 99, id), (dgram 1 5 100, id)], by decide +kernel, rfl, rfl,
    by decide +kernel⟩

/-- **C79 refuted (no payload wanted).**  With a cutoff of zero, the table grows beyond its limit. -/
theorem C79_growth_refuted :
    ∃ (cfg : Cfg) (ps : List (Packet × (Nat → Nat))), 0 < cfg.maxFlows
      ∧ (trace cfg 100 ps .init).1.flows.length > cfg.maxFlows :=
  ⟨⟨0, 2, 60, 10⟩, [(dgram 1 5 100, id), (dgram 2 5 100, id), (dgram 3 5 100, id)], by decide, by decide +kernel⟩

/-- **C79 refuted (no flows).**  With room for no flow, the reader hangs at the first packet. -/
theorem C79_hang_refuted :
    ∃ (cfg : Cfg) (ps : List (Packet × (Nat → Nat))), cfg.maxFlows = 0 ∧ (trace cfg 100 ps .init).2 = .hang :=
  ⟨⟨5, 0, 60, 10⟩, [(dgram 1 5 100, id)], rfl, by decide +kernel⟩

end Verif.Pcap
