import Verif.Client.Lemmas
/-!
# C135 to C138: clients
-/
namespace Verif.Client
open Verif.Data Verif.DataText Verif.Client.Spec

/-- C135, partial: an endpoint is read as it is written if its port has 16 bits. -/
theorem C135_read_partial {t : Str} {e : Endpoint} (h : EndpointText t e) (hv : Valid e) : parseEndpoint t = some e := by
  rw [parse_text h]
  obtain ⟨host, port⟩ := e
  cases port with
  | none => rfl
  | some p =>
    have := hv p rfl
    unfold wrap
    simp only [Option.map_some, Nat.mod_eq_of_lt this]

/-- C135: no other text is taken for an endpoint, and hosts and protocols are those of the text. -/
theorem C135_only {t : Str} {e : Endpoint} (h : parseEndpoint t = some e) :
    ∃ e', EndpointText t e' ∧ e'.host = e.host ∧ e'.port.map (·.proto) = e.port.map (·.proto) ∧ (Valid e' → e' = e) := by
  obtain ⟨e', h1, h2⟩ := parse_back h
  refine ⟨e', h1, ?_, ?_, ?_⟩
  · rw [h2]; rfl
  · rw [h2]; unfold wrap; simp [Option.map_map, Function.comp_def]
  · intro hv
    have := C135_read_partial h1 hv
    rw [h] at this
    exact (Option.some.inj this).symm

example : EndpointText (str "db-1.example.org:5158/tcp") ⟨str "db-1.example.org", some ⟨5158, .tcp⟩⟩ := by
  have h : HostName (str "db-1.example.org") := ⟨by decide, by decide⟩
  have d : Digits (str "5158") := ⟨by decide, by decide⟩
  have := EndpointText.both h d (by decide) ProtoText.tcp
  have e : decimal (str "5158") = 5158 := by decide
  rw [e] at this
  exact this

/-- C135, refuted for other numbers: port 70000 is read as 4464. -/
theorem C135_number_refuted : ∃ t e, EndpointText t e ∧ ¬ Valid e ∧ parseEndpoint t = some ⟨e.host, some ⟨4464, .tcp⟩⟩ := by
  have h : HostName (str "localhost") := ⟨by decide, by decide⟩
  have d : Digits (str "70000") := ⟨by decide, by decide⟩
  refine ⟨_, _, EndpointText.both h d (by decide) ProtoText.tcp, ?_, by decide⟩
  intro hv
  have := hv _ rfl
  revert this
  decide

/-- C136: a client that gets past its checks connects to where the node with the same endpoint listens. -/
theorem C136_same (opt : Option Str) {a : Str × Nat} (h : connectTo opt = .ok a) : listenAt opt = .ok a := by
  unfold connectTo at h
  unfold listenAt
  split at h
  · cases h
  · rename_i e he
    simp only at h ⊢
    by_cases hu : (e.port.getD ⟨defaultPort, .tcp⟩).proto = .unknown
    · simp only [hu, if_true, ne_eq, not_true_eq_false, if_false] at h
      exact h
    · by_cases ht : (e.port.getD ⟨defaultPort, .tcp⟩).proto = .tcp
      · simpa [hu, ht] using h
      · simp [hu, ht] at h

/-- C136, partial: if the protocol of the endpoint is TCP, or if there is none, then a node that listens can be
reached by clients with the same endpoint, at the host and port of the text, and `localhost` and 42000 if there are none. -/
theorem C136_reach_partial {t : Str} {e : Endpoint} (h : EndpointText t e) (hv : Valid e)
    (hp : ∀ p, e.port = some p → p.proto = .tcp ∨ p.proto = .unknown) :
    let a := (if e.host = [] then str "localhost" else e.host, match e.port with | some p => p.number | none => 42000)
    listenAt (some t) = .ok a ∧ connectTo (some t) = .ok a := by
  intro a
  have h1 := C135_read_partial h hv
  have h2 : connectTo (some t) = .ok a := by
    unfold connectTo
    simp only [Option.getD_some, h1]
    obtain ⟨host, port⟩ := e
    cases port with
    | none => simp [a, defaultPort]
    | some p =>
      rcases hp p rfl with hp | hp
      · simp [a, hp]
      · simp [a, hp]
  exact ⟨C136_same _ h2, h2⟩

example : EndpointText (str ":42001") ⟨[], some ⟨42001, .unknown⟩⟩ ∧ Valid ⟨[], some ⟨42001, .unknown⟩⟩ := by
  have d : Digits (str "42001") := ⟨by decide, by decide⟩
  have := EndpointText.port d (by decide) ProtoText.none
  have e : decimal (str "42001") = 42001 := by decide
  rw [e] at this
  exact ⟨this, fun p hp => by cases hp; decide⟩

/-- Without an option, both use `localhost` and port 42000. -/
theorem C136_default : listenAt none = .ok (str "localhost", 42000) ∧ connectTo none = .ok (str "localhost", 42000) := by
  have e : parseEndpoint defaultEndpoint = some ⟨str "localhost", some ⟨42000, .tcp⟩⟩ := by decide +kernel
  have hl : str "localhost" ≠ [] := by decide
  unfold listenAt connectTo
  simp only [Option.getD_none, e]
  exact ⟨by simp [hl], by simp [hl]⟩

/-- C136, refuted for other protocols: the node listens, and no client with the same endpoint connects. -/
theorem C136_protocol_refuted :
    listenAt (some (str "localhost:42000/udp")) = .ok (str "localhost", 42000) ∧
      connectTo (some (str "localhost:42000/udp")) = .error .protocol := by
  have e : parseEndpoint (str "localhost:42000/udp") = some ⟨str "localhost", some ⟨42000, .udp⟩⟩ := by decide +kernel
  have hl : str "localhost" ≠ [] := by decide
  unfold listenAt connectTo
  simp only [Option.getD_some, e]
  exact ⟨by simp [hl], by simp⟩

/-- C137: commands that take nothing but a query run the query of the only source that the user named, and fail if there
is no such source or the query is empty. -/
theorem C137_query (read : Option Str) (args : List Str) (stdin : Str) (files : Str → Option Str) (q : Str) :
    readQuery read args 0 stdin files = .ok q ↔ Source stdin files read args q ∧ q ≠ [] := by
  constructor
  · intro h
    unfold readQuery at h
    have check : ∀ r : Str, (if r = [] then Except.error QErr.invalid else Except.ok r) = (Except.ok q : Except QErr Str) → r = q ∧ q ≠ [] := by
      intro r hr
      split at hr
      · cases hr
      · cases hr; exact ⟨rfl, by assumption⟩
    split at h
    · rename_i fname
      split at h
      · cases h
      · rename_i ha
        have ha : args = [] := by simpa using ha
        subst ha
        split at h
        · rename_i hf
          obtain ⟨rfl, h2⟩ := check _ h
          subst hf
          exact ⟨.dash, h2⟩
        · rename_i hf
          split at h
          · cases h
          · rename_i t ht
            obtain ⟨rfl, h2⟩ := check _ h
            exact ⟨.file hf ht, h2⟩
    · split at h
      · rename_i ha
        subst ha
        obtain ⟨rfl, h2⟩ := check _ h
        exact ⟨.stdin, h2⟩
      · split at h
        · rename_i hl
          match args, hl with
          | [a], _ =>
            obtain ⟨rfl, h2⟩ := check _ h
            exact ⟨.argument, h2⟩
        · obtain ⟨h1, h2⟩ := check _ h
          exact absurd h1.symm h2
  · rintro ⟨h, hq⟩
    cases h with
    | file hf hq' => simp [readQuery, hf, hq', hq]
    | dash => simp [readQuery, hq]
    | stdin => simp [readQuery, hq]
    | argument => simp [readQuery, hq]

example : readQuery none [str ":addr == 10.0.0.1"] 0 [] (fun _ => none) = .ok (str ":addr == 10.0.0.1") ∧
    Source [] (fun _ => some (str "x == 1")) (some (str "q.txt")) [] (str "x == 1") :=
  ⟨(C137_query _ _ _ _ _).mpr ⟨.argument, by decide⟩, .file (by decide) rfl⟩

/-- C137, partial: `vast pivot` with a target and a query as arguments. -/
theorem C137_pivot_partial (target q : Str) (hq : q ≠ []) (stdin : Str) (files : Str → Option Str) :
    pivotArgs none [target, q] stdin files = .run target q := by
  simp [pivotArgs, readQuery, hq]

example : pivotArgs none [str "pcap.packet", str "x == 1"] [] (fun _ => none) = .run (str "pcap.packet") (str "x == 1") := by decide

/-- C137, refuted for `vast pivot` with a query from elsewhere: with a target and a file, or with a target and the standard input, it
fails whatever they hold. -/
theorem C137_pivot_refuted (target f stdin : Str) (files : Str → Option Str) :
    pivotArgs (some f) [target] stdin files = .failed .conflict ∧ pivotArgs none [target] stdin files = .failed .invalid := by
  constructor
  · simp [pivotArgs, readQuery]
  · simp [pivotArgs, readQuery]

/-- C137, refuted for `vast pivot` without arguments: its behaviour is undefined as soon as a query is read. -/
theorem C137_undefined_refuted (stdin : Str) (h : stdin ≠ []) (files : Str → Option Str) : pivotArgs none [] stdin files = .undefined := by
  simp [pivotArgs, readQuery, h]

example : pivotArgs none [] (str "x == 1") (fun _ => none) = .undefined := by decide

/-- C138, partial: `vast get` with numbers of 64 bits writes the events with these ids in the order of the arguments. -/
theorem C138_get_partial {E : Type} (db : List (Nat × E)) (ts : List Str) (is : List Nat) (h : List.Forall₂ IdText ts is) :
    getLoop db ts = (is.flatMap (events db), true) := by
  have := getLoop_append db ts is h []
  simpa [getLoop] using this

/-- C138: at an argument that starts with something else than a digit it fails, after what it wrote for the arguments before. -/
theorem C138_invalid {E : Type} (db : List (Nat × E)) (ts : List Str) (is : List Nat) (h : List.Forall₂ IdText ts is)
    (t : Str) (ht : ∀ b, t.head? = some b → ¬ (48 ≤ b.toNat ∧ b.toNat ≤ 57)) (rest : List Str) :
    getLoop db (ts ++ t :: rest) = (is.flatMap (events db), false) := by
  rw [getLoop_append db ts is h]
  have hn : headNot isDigit t = true := by
    cases t with
    | nil => rfl
    | cons b t =>
      have := ht b rfl
      rw [← isDigit_iff] at this
      simpa [headNot] using this
  have : readId t = none := by
    unfold readId
    rw [uintP_other 64 20 1 (by decide) hn]
  simp [getLoop, this]

example : IdText (str "7") 7 ∧ IdText (str "3") 3 ∧ [7, 3, 9].flatMap (events [(3, 'a'), (7, 'b'), (8, 'c')]) = ['b', 'a'] :=
  ⟨⟨⟨by decide, by decide⟩, by decide, by decide, by decide⟩, ⟨⟨by decide, by decide⟩, by decide, by decide, by decide⟩, by decide⟩

/-- C138, refuted for larger numbers: for the id 2^64 + 1 the event with the id 1 is written. -/
theorem C138_large_refuted {E : Type} (e : E) :
    ∃ t, Digits t ∧ decimal t = 2 ^ 64 + 1 ∧ getLoop [(1, e)] [t] = ([e], true) := by
  have d : Digits (str "18446744073709551617") := ⟨by decide, by decide⟩
  refine ⟨str "18446744073709551617", d, by decide +kernel, ?_⟩
  have hr : readId (str "18446744073709551617") = some 1 := by decide +kernel
  obtain ⟨ids, e1, e2⟩ := toIds_get 1
  simp only [getLoop, hr, e1, answer_events _ 1 ids e2]
  simp [events]

theorem handle_status (s : Loop) : handle s .status = if s.waiting then { s with stop := true } else s := rfl

theorem handle_signal (s : Loop) (i : Bool) : handle s (.signal i) = if i then { s with exits := s.exits ++ [.exporter, .sink] } else s := rfl

/-- C139, partial: when `vast export` ends, it reports an error if and only if one of the messages that it saw was a timeout or the failure of a
component. -/
theorem C139_status_partial (ms : List Msg) {s : Loop} {seen : List Msg} (h : loop .start ms = some (s, seen)) :
    seen <+: ms ∧ (s.err ≠ none ↔ ∃ m ∈ seen, Bad m) := by
  have key : ∀ (ms : List Msg) (s0 : Loop) s seen, loop s0 ms = some (s, seen) →
      seen <+: ms ∧ (s.err ≠ none ↔ s0.err ≠ none ∨ ∃ m ∈ seen, Bad m) := by
    intro ms
    induction ms with
    | nil => intro s0 s seen h; cases h
    | cons m ms ih =>
      intro s0 s seen h
      have hh : (handle s0 m).err ≠ none ↔ s0.err ≠ none ∨ Bad m := by
        cases m with
        | timeout => simp [handle, Bad]
        | down who reason => cases who <;> cases reason <;> simp [handle, Bad]
        | performance => simp [handle, Bad]
        | status => rw [handle_status]; split <;> simp [Bad]
        | signal i => rw [handle_signal]; split <;> simp [Bad]
      unfold loop at h
      simp only at h
      split at h
      · cases h
        refine ⟨⟨ms, rfl⟩, ?_⟩
        rw [hh]; simp
      · cases hl : loop (handle s0 m) ms with
        | none => rw [hl] at h; cases h
        | some r =>
          obtain ⟨t, sn⟩ := r
          rw [hl] at h
          cases h
          obtain ⟨i1, i2⟩ := ih _ _ _ hl
          refine ⟨List.cons_prefix_cons.mpr ⟨rfl, i1⟩, ?_⟩
          rw [i2, hh]
          simp [or_assoc]
  have := key ms .start s seen h
  refine ⟨this.1, ?_⟩
  rw [this.2]
  simp [Loop.start]

/-- C139: when it ends, the exporter and the sink went down or were told to. -/
theorem C139_cleanup (ms : List Msg) {s : Loop} {seen : List Msg} (h : loop .start ms = some (s, seen)) (w : Who) :
    w ∈ s.exits ∨ ∃ r, Msg.down w r ∈ seen := by
  have key : ∀ (ms : List Msg) (s0 : Loop) s seen (past : List Msg), s0.stop = false →
      (s0.waiting = true → ∀ w, w ∈ s0.exits ∨ ∃ r, Msg.down w r ∈ past) →
      loop s0 ms = some (s, seen) → ∀ w, w ∈ s.exits ∨ ∃ r, Msg.down w r ∈ past ++ seen := by
    intro ms
    induction ms with
    | nil => intro s0 s seen past _ _ h; cases h
    | cons m ms ih =>
      intro s0 s seen past hs hw h
      have hinv : ((handle s0 m).waiting = true ∨ (handle s0 m).stop = true) →
          ∀ w, w ∈ (handle s0 m).exits ∨ ∃ r, Msg.down w r ∈ past ++ [m] := by
        cases m with
        | timeout => intro _ w; left; cases w <;> simp [handle]
        | down who reason =>
          intro _ w
          by_cases hww : w = who
          · right; exact ⟨reason, by simp [hww]⟩
          · left
            cases who <;> cases w <;> first | exact absurd rfl hww | (cases reason <;> simp [handle])
        | performance =>
          intro h' w
          have : s0.waiting = true := by
            rcases h' with h' | h'
            · exact h'
            · have : s0.stop = true := h'
              rw [hs] at this; cases this
          rcases hw this w with h'' | ⟨r, h''⟩
          · left; exact h''
          · right; exact ⟨r, by simp [h'']⟩
        | status =>
          intro h' w
          have : s0.waiting = true := by
            rw [handle_status] at h'
            split at h'
            · assumption
            · rcases h' with h' | h'
              · exact h'
              · rw [hs] at h'; cases h'
          rcases hw this w with h'' | ⟨r, h''⟩
          · left; rw [handle_status]; split <;> exact h''
          · right; exact ⟨r, by simp [h'']⟩
        | signal i =>
          intro h' w
          cases i with
          | true => left; cases w <;> simp [handle]
          | false =>
            have : s0.waiting = true := by
              rcases h' with h' | h'
              · exact h'
              · have : s0.stop = true := h'
                rw [hs] at this; cases this
            rcases hw this w with h'' | ⟨r, h''⟩
            · left; exact h''
            · right; exact ⟨r, by simp [h'']⟩
      unfold loop at h
      simp only at h
      split at h
      · rename_i hstop
        cases h
        exact hinv (Or.inr hstop)
      · rename_i hstop
        cases hl : loop (handle s0 m) ms with
        | none => rw [hl] at h; cases h
        | some r =>
          obtain ⟨t, sn⟩ := r
          rw [hl] at h
          cases h
          have := ih _ _ _ (past ++ [m]) (by simpa using hstop) (fun h' => hinv (Or.inl h')) hl
          intro w
          rcases this w with h' | ⟨r, h'⟩
          · exact Or.inl h'
          · exact Or.inr ⟨r, by simpa using h'⟩
  have := key ms .start s seen [] rfl (fun h' => by cases h') h w
  simpa using this

/-- C139: it ends when the exporter goes down, or when after the sink went down or a timeout there is another report. -/
theorem C139_ends (before after : List Msg) (r : Reason) (w : Who) :
    loop .start (before ++ .down .exporter r :: after) ≠ none ∧
      loop .start (before ++ .down w r :: .status :: after) ≠ none ∧ loop .start (before ++ .timeout :: .status :: after) ≠ none := by
  have key : ∀ (before tail : List Msg) (s0 : Loop), (∀ s, loop s tail ≠ none) → loop s0 (before ++ tail) ≠ none := by
    intro before
    induction before with
    | nil => intro tail s0 h; exact h s0
    | cons m ms ih =>
      intro tail s0 h
      rw [List.cons_append]
      unfold loop
      simp only
      split
      · simp
      · have := ih tail (handle s0 m) h
        cases hl : loop (handle s0 m) (ms ++ tail) with
        | none => exact absurd hl this
        | some r => simp
  refine ⟨key _ _ _ ?_, key _ _ _ ?_, key _ _ _ ?_⟩
  · intro s
    cases r <;> simp [loop, handle]
  · intro s
    cases w <;> cases r <;> simp [loop, handle]
  · intro s
    unfold loop
    simp only
    split
    · simp
    · simp [loop, handle]

example : loop .start [.performance, .signal true, .down .sink .userShutdown, .status, .down .exporter (.failure 3)] =
    some (⟨none, true, true, [.exporter, .sink, .exporter]⟩, [.performance, .signal true, .down .sink .userShutdown, .status]) := by
  decide

/-- C139, refuted: the failure of a sink is not reported if it happens after the exporter is done, as when the last events cannot be written. -/
theorem C139_late_refuted :
    ∃ ms s seen, loop .start ms = some (s, seen) ∧ s.err = none ∧ Msg.down .sink (.failure 28) ∈ ms :=
  ⟨[.down .exporter .normal, .down .sink (.failure 28)], ⟨none, false, true, [.sink]⟩, [.down .exporter .normal], by decide, rfl, by decide⟩

end Verif.Client
