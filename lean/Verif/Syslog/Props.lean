import Verif.Syslog.Back
/-!
# What becomes of a syslog line
-/
namespace Verif.Syslog
open Verif.Data Verif.DataText Verif.Calendar Spec

/-! ## C127: a message of RFC 5424 becomes an event with its fields -/

/-- With whole seconds the event has exactly what the message says. -/
theorem C127_rfc_partial (env : Env) {m : Msg} (hv : m.Valid) (hd : m.Demanded) (hf : ∀ t, m.stamp = some t → t.frac = none) :
    event (withTimes env) m.text = m.event (m.stamp.map Stamp.instant) := by
  have hts : ∀ r, stampP (withTimes env) (dash (m.stamp.map Stamp.text) ++ ch ' ' :: r) = some (m.stamp.map Stamp.instant, ch ' ' :: r) := by
    intro r
    cases hs : m.stamp with
    | none => exact stamp_nil _ r
    | some t => exact stamp_text _ (fun r => stamp_time env (hv.stamp t hs) (hf t hs) r) r
  unfold event
  rw [message_text _ hv hd hts]
  rfl

/-- A fraction of a second, in Universal Time, may become one nanosecond less. -/
theorem C127_fraction_partial (env : Env) {m : Msg} (hv : m.Valid) (hd : m.Demanded) {t : Stamp} (hs : m.stamp = some t) (hz : t.zone = none) :
    ∃ i, (i = t.instant ∨ i = t.instant - 1) ∧ event (withTimes env) m.text = m.event (some i) := by
  obtain ⟨i, hi, ht⟩ : ∃ i, (i = t.instant ∨ i = t.instant - 1) ∧ ∀ r, timeP (withTimes env) (t.text ++ ch ' ' :: r) = some (i, ch ' ' :: r) := by
    cases hf : t.frac with
    | none => exact ⟨_, .inl rfl, fun r => stamp_time env (hv.stamp t hs) hf r⟩
    | some x => exact ⟨_, stamp_frac env (hv.stamp t hs) hz hf⟩
  have hts : ∀ r, stampP (withTimes env) (dash (m.stamp.map Stamp.text) ++ ch ' ' :: r) = some (some i, ch ' ' :: r) := by
    intro r
    rw [hs]
    exact stamp_text _ ht r
  refine ⟨i, hi, ?_⟩
  unfold event
  rw [message_text _ hv hd hts]
  rfl

/-- `<165>1 2003-10-11T22:14:15.003Z host app - ID47 [ex@1 a="b\"c" d=""] hi` -/
def exMsg : Msg where
  pri := str "165"
  version := str "1"
  stamp := some ⟨12336, 2003, 10, 11, 22, 14, 15, some (3, 3), none⟩
  host := some (str "host")
  app := some (str "app")
  proc := none
  mid := some (str "ID47")
  data := [(str "ex@1", [(str "a", str "b\"c"), (str "d", [])])]
  msg := some (true, str "hi")

theorem exDay : DaysSince1970 12336 ⟨2003, 10, 11⟩ := by
  have := days_ideal 12336
  rwa [show ideal 12336 = ⟨2003, 10, 11⟩ by decide +kernel] at this

theorem exValid : exMsg.Valid := by
  refine ⟨by unfold Digits; decide +kernel, by unfold Digits; decide +kernel, ?_, ?_, ?_, ?_, ?_, ?_, ?_, ?_⟩
  · intro t ht
    cases ht
    exact ⟨exDay, by decide, by decide, by decide, by decide, by decide, (fun k f h => by cases h; decide), (fun _ _ _ h => by cases h)⟩
  · intro x hx; cases hx; unfold Ascii; decide +kernel
  · intro x hx; cases hx; unfold Ascii; decide +kernel
  · intro x hx; cases hx
  · intro x hx; cases hx; unfold Ascii; decide +kernel
  · unfold SdName Ascii; decide +kernel
  · unfold SdName Ascii; decide +kernel
  · intro x hx; cases hx

theorem exDemanded : exMsg.Demanded :=
  ⟨(fun h => by cases h), by decide +kernel, by decide +kernel, (fun t h => by cases h; decide +kernel)⟩

example : exMsg.Valid ∧ exMsg.Demanded ∧ exMsg.text = str "<165>1 2003-10-11T22:14:15.003Z host app - ID47 [ex@1 a=\"b\\\"c\" d=\"\"] " ++ bom ++ str "hi" :=
  ⟨exValid, exDemanded, by decide +kernel⟩

/-- The shortest message: `<165>1 - - - - - -` -/
def bare : Msg := ⟨str "165", str "1", none, none, none, none, none, [], none⟩

/-- It differs from `bare` in the data and the text only. -/
theorem bare_valid {d : List (Str × List (Str × Str))} {x : Option (Bool × Str)} (h1 : ∀ e ∈ d, SdName e.1) (h2 : ∀ e ∈ d, ∀ p ∈ e.2, SdName p.1)
    (h3 : ∀ t, x = some (false, t) → ¬ bom <+: t) : Msg.Valid { bare with data := d, msg := x } :=
  ⟨show Digits bare.pri ∧ number bare.pri ≤ 191 by unfold Digits; decide +kernel,
    show Digits bare.version ∧ 0 < number bare.version by unfold Digits; decide +kernel, (fun _ h => by cases h), (fun _ h => by cases h),
    (fun _ h => by cases h), (fun _ h => by cases h), (fun _ h => by cases h), h1, h2, h3⟩

/-- The RFC has messages without structured data and without a text.  The parser wants a space after the dash of the structured data, and so
takes such a line for something unknown. -/
theorem C127_nil_data_refuted (env : Env) : bare.Valid ∧ bare.text = str "<165>1 - - - - - -" ∧ event env bare.text = .unknown bare.text := by
  refine ⟨bare_valid (by simp) (by simp) (fun _ h => by cases h), by decide +kernel, ?_⟩
  rw [show bare.text = str "<165>1 - - - - - -" by decide +kernel]
  rfl

/-- The RFC has elements without parameters; the parser does not. -/
theorem C127_no_parameters_refuted (env : Env) :
    Msg.Valid { bare with data := [(str "a@1", [])], msg := some (false, str "hi") } ∧
    Msg.text { bare with data := [(str "a@1", [])], msg := some (false, str "hi") } = str "<165>1 - - - - - [a@1] hi" ∧
    event env (str "<165>1 - - - - - [a@1] hi") = .unknown (str "<165>1 - - - - - [a@1] hi") := by
  refine ⟨bare_valid (by unfold SdName Ascii; decide +kernel) (by simp) (fun t h => by cases h; decide +kernel), by decide +kernel, ?_⟩
  rfl

/-- A tab in the value of a parameter. -/
def tabbed : Msg := { bare with data := [(str "a@1", [(str "k", [9])])], msg := none }

/-- The RFC allows it, the parser does not. -/
theorem C127_control_refuted (env : Env) : tabbed.Valid ∧ event env tabbed.text = .unknown tabbed.text := by
  refine ⟨bare_valid (by unfold SdName Ascii; decide +kernel) (by unfold SdName Ascii; decide +kernel) (fun t h => by cases h), ?_⟩
  rw [show tabbed.text = str "<165>1 - - - - - [a@1 k=\"" ++ [9] ++ str "\"]" by decide +kernel]
  rfl

/-- A byte order mark and nothing after it. -/
def marked : Msg := { bare with msg := some (true, []) }

/-- The text is empty, but the event has the mark. -/
theorem C127_mark_refuted (env : Env) : marked.Valid ∧ event env marked.text = .rfc5424 20 5 1 none [] [] [] [] (some bom) := by
  refine ⟨bare_valid (by simp [bare]) (by simp [bare]) (fun t h => by cases h), ?_⟩
  rw [show marked.text = str "<165>1 - - - - - - " ++ bom by decide +kernel]
  rfl

/-- The first millisecond after the first second of 1970. -/
def early : Msg := { bare with stamp := some ⟨0, 1970, 1, 1, 0, 0, 1, some (3, 1), none⟩, msg := some (false, str "hi") }

/-- It becomes one nanosecond less. -/
theorem C127_fraction_refuted (env : Env) : early.Valid ∧ early.Demanded ∧ early.text = str "<165>1 1970-01-01T00:00:01.001Z - - - - - hi" ∧
    early.stamp.map Stamp.instant = some 1001000000 ∧ event (withTimes env) early.text = early.event (some 1000999999) := by
  have hs : Stamp.Valid ⟨0, 1970, 1, 1, 0, 0, 1, some (3, 1), none⟩ :=
    ⟨.epoch, by decide, by decide, by decide, by decide, by decide, (fun k f h => by cases h; decide), (fun _ _ _ h => by cases h)⟩
  have hv : early.Valid := ⟨by unfold Digits; decide +kernel, by unfold Digits; decide +kernel, (fun _ h => by cases h; exact hs), (fun _ h => by cases h),
    (fun _ h => by cases h), (fun _ h => by cases h), (fun _ h => by cases h), by simp [early, bare], by simp [early, bare], (fun t h => by cases h; decide +kernel)⟩
  have hd : early.Demanded := ⟨(fun _ h => by cases h), by simp [early, bare], by simp [early, bare], (fun t h => by cases h)⟩
  refine ⟨hv, hd, by decide +kernel, by decide +kernel, ?_⟩
  have ht := (stamp_frac env hs rfl rfl).2
  have hts : ∀ r, stampP (withTimes env) (dash (early.stamp.map Stamp.text) ++ ch ' ' :: r) = some (some 1000999999, ch ' ' :: r) := by
    intro r
    have := stamp_text (withTimes env) ht r
    rw [show nanos 0 0 1 3 1 = 1000999999 by decide +kernel] at this
    exact this
  unfold event
  rw [message_text _ hv hd hts]
  rfl

/-! ## C128: nothing but the structured data is lost -/

/-- A line becomes an event with the whole line, or its fields become those of an event. -/
theorem C128_line_partial (env : Env) (line : Str) : event env line = .unknown line ∨ ∃ (m : Parts) (ts : Option Int), line = m.text ∧
    event env line = .rfc5424 (number m.pri / 8) (number m.pri % 8) (number m.version) ts (m.host.getD []) (m.app.getD []) (m.proc.getD [])
      (m.mid.getD []) (m.msg.map Prod.snd) ∧
    Digits m.pri ∧ number m.pri ≤ 191 ∧ Digits m.version ∧ 0 < number m.version ∧ (m.ts = [ch '-'] ↔ ts = none) ∧
    Field 255 m.host ∧ Field 48 m.app ∧ Field 128 m.proc ∧ Field 32 m.mid := by
  unfold event
  cases h : messageP env line with
  | none => exact .inl rfl
  | some x =>
    obtain ⟨m, e1, e2, e3, e4, e5, e6, e7, e8, e9, ⟨f1, f1'⟩, ⟨f2, f2'⟩, ⟨f3, f3'⟩, ⟨f4, f4'⟩, _, g⟩ := message_back h
    refine .inr ⟨m, x.hdr.ts, e1, ?_, e2, e3, e6, e7, e9, f1, f2, f3, f4⟩
    simp only
    rw [e4, e5, e8, f1', f2', f3', f4', g]

example (env : Env) : event env (str "<34>1 - host su - ID47 - failed") = .rfc5424 4 2 1 none (str "host") (str "su") [] (str "ID47") (some (str "failed")) := by rfl
example (env : Env) : event env (str "<34>Oct 11 22:14:15 host su: failed") = .unknown (str "<34>Oct 11 22:14:15 host su: failed") := by rfl

/-- The structured data are lost: messages that differ in nothing else become the same event. -/
theorem C128_data_refuted (env : Env) :
    event env (str "<34>1 - - - - - [a@1 k=\"v\"] hi") = event env (str "<34>1 - - - - - [b@2 x=\"y\"] hi") ∧
    event env (str "<34>1 - - - - - [a@1 k=\"v\"] hi") = .rfc5424 4 2 1 none [] [] [] [] (some (str "hi")) := by
  have h1 : event env (str "<34>1 - - - - - [a@1 k=\"v\"] hi") = .rfc5424 4 2 1 none [] [] [] [] (some (str "hi")) := rfl
  have h2 : event env (str "<34>1 - - - - - [b@2 x=\"y\"] hi") = .rfc5424 4 2 1 none [] [] [] [] (some (str "hi")) := rfl
  exact ⟨h1.trans h2.symm, h1⟩

end Verif.Syslog
