import Verif.Reader.Loop
/-!
# C72: cutting input into slices neither loses, repeats nor reorders events

`json` stands for the JSON reader, `syslog` for the syslog reader; what a single line means to them is the
arbitrary function `classify`.  The readers are called any number of times, each time with any limit on
events and any behaviour of the clock; the input arrives in any way.
-/
namespace Verif.Reader

variable {L R : Type} [DecidableEq L]

/-- When the JSON reader reports the end of the input, the slices delivered so far contain, for every
layout, exactly the events of the input in order. -/
theorem C72_json_complete_partial (classify : List UInt8 → Parsed L R) (m : Nat) (hm : 0 < m) (a : List Arr)
    (h : CrOk a) (c : Call) (cs : List Call)
    (hend : (calls classify (jsonEvent m) (c :: cs) (.init a, .ok)).2 = .endOfInput) (k : L) :
    rowsIn k (calls classify (jsonEvent m) (c :: cs) (.init a, .ok)).1.out = eventsIn classify k (linesOf (bytes a)) := by
  obtain ⟨_, _, h3, h4⟩ := calls_spec hm classify (json_takes hm) (c :: cs) (.init a, .ok) (init_inv a h) (init_binv hm a)
  obtain ⟨e1, _, e3⟩ := h4 (by simp)
  have := h3 k
  rw [init_account] at this
  rw [← this]
  simp [account, e3 (by rw [hend]; simp) k, pending_done _ (e1 hend), eventsIn]

/-- The same for the syslog reader. -/
theorem C72_syslog_complete_partial (classify : List UInt8 → Parsed L R) (m : Nat) (hm : 0 < m) (a : List Arr)
    (h : CrOk a) (c : Call) (cs : List Call)
    (hend : (calls classify (syslogEvent m) (c :: cs) (.init a, .ok)).2 = .endOfInput) (k : L) :
    rowsIn k (calls classify (syslogEvent m) (c :: cs) (.init a, .ok)).1.out = eventsIn classify k (linesOf (bytes a)) := by
  obtain ⟨_, _, h3, h4⟩ := calls_spec hm classify (syslog_takes hm) (c :: cs) (.init a, .ok) (init_inv a h) (init_binv hm a)
  obtain ⟨e1, _, e3⟩ := h4 (by simp)
  have := h3 k
  rw [init_account] at this
  rw [← this]
  simp [account, e3 (by rw [hend]; simp) k, pending_done _ (e1 hend), eventsIn]

/-- At any moment, the slices the JSON reader has delivered contain, for every layout, an initial part of the
events of the input, and each of them has at least one and at most `m` rows. -/
theorem C72_json_always_partial (classify : List UInt8 → Parsed L R) (m : Nat) (hm : 0 < m) (a : List Arr)
    (h : CrOk a) (cs : List Call) :
    let s := (calls classify (jsonEvent m) cs (.init a, .ok)).1
    (∀ k, rowsIn k s.out <+: eventsIn classify k (linesOf (bytes a))) ∧
    (∀ x ∈ s.out, 1 ≤ x.2.length ∧ x.2.length ≤ m) := by
  obtain ⟨_, h2, h3, _⟩ := calls_spec hm classify (json_takes hm) cs (.init a, .ok) (init_inv a h) (init_binv hm a)
  refine ⟨fun k => ?_, h2.size⟩
  have := h3 k
  rw [init_account] at this
  rw [← this, account, List.append_assoc]
  exact ⟨_, rfl⟩

/-- The same for the syslog reader. -/
theorem C72_syslog_always_partial (classify : List UInt8 → Parsed L R) (m : Nat) (hm : 0 < m) (a : List Arr)
    (h : CrOk a) (cs : List Call) :
    let s := (calls classify (syslogEvent m) cs (.init a, .ok)).1
    (∀ k, rowsIn k s.out <+: eventsIn classify k (linesOf (bytes a))) ∧
    (∀ x ∈ s.out, 1 ≤ x.2.length ∧ x.2.length ≤ m) := by
  obtain ⟨_, h2, h3, _⟩ := calls_spec hm classify (syslog_takes hm) cs (.init a, .ok) (init_inv a h) (init_binv hm a)
  refine ⟨fun k => ?_, h2.size⟩
  have := h3 k
  rw [init_account] at this
  rw [← this, account, List.append_assoc]
  exact ⟨_, rfl⟩

/-- A call during which the batch timeout has expired holds nothing back: whatever happened before, if
the clock says so at its beginning, every event taken in so far is delivered. -/
theorem C72_json_flush_partial (classify : List UInt8 → Parsed L R) (m : Nat) (hm : 0 < m) (a : List Arr)
    (h : CrOk a) (cs : List Call) (n : Nat) (hn : 0 < n) (clock : Nat → Bool) (hc : clock 0 = true)
    (hb : buffered (calls classify (jsonEvent m) cs (.init a, .ok)).1 ≠ 0) (k : L) :
    let s := (calls classify (jsonEvent m) cs (.init a, .ok)).1
    rowsIn k (readImpl classify (jsonEvent m) n clock s).1.out = rowsIn k s.out ++ rowsOf s.builders k := by
  obtain ⟨_, h2, _, _⟩ := calls_spec hm classify (json_takes hm) cs (.init a, .ok) (init_inv a h) (init_binv hm a)
  intro s
  have hbatch : 0 < s.batch := by have := h2.batch; simp only [s]; omega
  have hfin := finishAll_spec s m h2.nodup (fun k => Nat.le_of_lt (h2.room k)) h2.size
  have e : (readImpl classify (jsonEvent m) n clock s).1 = finishAll s := by
    simp only [readImpl, loop, hn, hc, hbatch, ↓reduceIte]
    by_cases hd : s.lines.done = true
    · simp [hd]
    · simp [hd]
  rw [e]
  exact hfin.2.1 k

/-- The same for the syslog reader. -/
theorem C72_syslog_flush_partial (classify : List UInt8 → Parsed L R) (m : Nat) (hm : 0 < m) (a : List Arr)
    (h : CrOk a) (cs : List Call) (n : Nat) (hn : 0 < n) (clock : Nat → Bool) (hc : clock 0 = true)
    (hb : buffered (calls classify (syslogEvent m) cs (.init a, .ok)).1 ≠ 0) (k : L) :
    let s := (calls classify (syslogEvent m) cs (.init a, .ok)).1
    rowsIn k (readImpl classify (syslogEvent m) n clock s).1.out = rowsIn k s.out ++ rowsOf s.builders k := by
  obtain ⟨_, h2, _, _⟩ := calls_spec hm classify (syslog_takes hm) cs (.init a, .ok) (init_inv a h) (init_binv hm a)
  intro s
  have hbatch : 0 < s.batch := by have := h2.batch; simp only [s]; omega
  have hfin := finishAll_spec s m h2.nodup (fun k => Nat.le_of_lt (h2.room k)) h2.size
  have e : (readImpl classify (syslogEvent m) n clock s).1 = finishAll s := by
    simp only [readImpl, loop, hn, hc, hbatch, ↓reduceIte]
    by_cases hd : s.lines.done = true
    · simp [hd]
    · simp [hd]
  rw [e]
  exact hfin.2.1 k

/-- Every call comes back. -/
theorem C72_returns_partial (classify : List UInt8 → Parsed L R) (m : Nat) (hm : 0 < m) (a : List Arr) (h : CrOk a)
    (c : Call) (cs : List Call) :
    (calls classify (jsonEvent m) (c :: cs) (.init a, .ok)).2 ≠ .running ∧
    (calls classify (syslogEvent m) (c :: cs) (.init a, .ok)).2 ≠ .running :=
  ⟨((calls_spec hm classify (json_takes hm) (c :: cs) (.init a, .ok) (init_inv a h) (init_binv hm a)).2.2.2 (by simp)).2.1,
   ((calls_spec hm classify (syslog_takes hm) (c :: cs) (.init a, .ok) (init_inv a h) (init_binv hm a)).2.2.2 (by simp)).2.1⟩

/-- A call delivers at most as many events as it was asked for, in addition to those that earlier calls
took in and held back; and it delivers exactly as many if it returns without an error. -/
theorem C72_json_limit_partial (classify : List UInt8 → Parsed L R) (m : Nat) (hm : 0 < m) (a : List Arr)
    (h : CrOk a) (cs : List Call) (n : Nat) (clock : Nat → Bool) :
    let s := (calls classify (jsonEvent m) cs (.init a, .ok)).1
    let q := readImpl classify (jsonEvent m) n clock s
    total q.1.out ≤ total s.out + buffered s + n ∧ (q.2 = .ok → total q.1.out = total s.out + buffered s + n) := by
  obtain ⟨h1, h2, _, _⟩ := calls_spec hm classify (json_takes hm) cs (.init a, .ok) (init_inv a h) (init_binv hm a)
  obtain ⟨A, A'⟩ := readImpl_spec hm classify (json_takes hm) n clock _ h1 h2
  have := A.limit
  refine ⟨by omega, fun e => ?_⟩
  have := A.full e
  have := (A.flushed (by rw [e]; simp) A').1
  omega

/-! ## A concrete line format: the first byte is the layout, the rest is the row -/

/-- A line starting with `!` is invalid. -/
def demo (line : List UInt8) : Parsed UInt8 (List UInt8) :=
  match line with
  | [] => .invalid
  | 33 :: _ => .invalid
  | c :: r => .event c r

/-- The bytes of a text. -/
def text (s : List UInt8) : List Arr := s.map .byte

/-- `a1⏎b2⏎!x⏎a3⏎`, with a stall in the middle of the second line and one before the last. -/
def demoInput : List Arr :=
  text [97, 49, 10, 98] ++ [.timeout] ++ text [50, 10, 33, 120, 10] ++ [.timeout] ++ text [97, 51, 10]

/-- Never expired. -/
def still : Nat → Bool := fun _ => false

example : CrOk demoInput := by simp [demoInput, text, CrOk]

/-- Three calls read all of it: the first two stall, the third reports the end of the input. -/
example : (calls demo (jsonEvent 2) [⟨9, still⟩, ⟨9, still⟩, ⟨9, still⟩] (.init demoInput, .ok)).2 = .endOfInput ∧
    (calls demo (jsonEvent 2) [⟨9, still⟩, ⟨9, still⟩, ⟨9, still⟩] (.init demoInput, .ok)).1.out
      = [(97, [[49], [51]]), (98, [[50]])] := by decide

/-- After the first call one event is held back. -/
example : buffered (calls demo (jsonEvent 2) [⟨9, still⟩] (.init demoInput, .ok)).1 = 1 := by decide

/-- A call asked for one event may deliver more than one: those that a call before it had taken in when the
input stalled come on top. -/
theorem C72_limit_refuted : ∃ (a : List Arr) (c1 c2 : Call), CrOk a ∧
    (let s1 := (calls demo (jsonEvent 9) [c1] (.init a, .ok)).1
     let s2 := (calls demo (jsonEvent 9) [c1, c2] (.init a, .ok)).1
     c2.maxEvents = 1 ∧ total s1.out = 0 ∧ total s2.out = 3) :=
  ⟨text [97, 49, 10, 97, 50, 10] ++ [.timeout] ++ text [97, 51, 10, 97, 52, 10], ⟨9, still⟩, ⟨1, still⟩,
    by simp [text, CrOk], by decide⟩

/-- With a stall behind a line that ends in a carriage return, two events become a different one. -/
theorem C72_glued_refuted : ∃ (a : List Arr) (cs : List Call),
    eventsIn demo 97 (linesOf (bytes a)) = [[49], [50]] ∧
    (calls demo (jsonEvent 9) cs (.init a, .ok)).2 = .endOfInput ∧
    rowsIn 97 (calls demo (jsonEvent 9) cs (.init a, .ok)).1.out = [[49, 97, 50]] :=
  ⟨text [97, 49, 13] ++ [.timeout] ++ text [97, 50, 13], [⟨9, still⟩, ⟨9, still⟩], by decide, by decide, by decide⟩

end Verif.Reader
