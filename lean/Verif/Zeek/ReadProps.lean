import Verif.Zeek.Reading
/-!
# C96: reading Zeek logs

Every record of a log becomes one event, in order, with the columns and types of the header above it and the values that its fields
stand for; blank lines, comments, and lines with another number of fields are skipped; a new header changes the layout; the ends of
calls do not matter.
-/
namespace Verif.Zeek
open Verif.Data Verif.DataText Verif.Calendar Verif.Escape

/-- The reader after some items. -/
theorem run_abs (env : Env) (m : Nat) (items : List Item)
    (h : ∀ pre l, pre ++ [l] <+: linesIn items → Fits env (pre.foldl (absLine env) (.start, [])) l) :
    (run env m items).mode = ((linesIn items).foldl (absLine env) (.start, [])).1
    ∧ delivered (run env m items).out = ((linesIn items).foldl (absLine env) (.start, [])).2 := by
  obtain ⟨h1, _⟩ := fold_abs env m items ⟨.start, [], []⟩ (fun _ => rfl) h
  have e : abs ⟨.start, [], []⟩ = (.start, []) := rfl
  rw [e] at h1
  rw [← h1]
  refine ⟨?_, ?_⟩
  · have := congrArg Prod.fst (abs_finish (items.foldl (step env m) ⟨.start, [], []⟩))
    exact this
  · exact finish_out _

/-- Slices are not empty and not too large. -/
def Sized (m : Nat) (s : State) : Prop := s.rows.length < m ∧ ∀ x ∈ s.out, x.2 ≠ [] ∧ x.2.length ≤ m

theorem finish_sized {m : Nat} {s : State} (h : s.rows.length ≤ m) (hm : 0 < m) (ho : ∀ x ∈ s.out, x.2 ≠ [] ∧ x.2.length ≤ m) (hb : ∃ k, s.mode = .body k) :
    Sized m (finish s) := by
  obtain ⟨k, hk⟩ := hb
  simp only [finish, hk]
  split
  · rename_i e; exact ⟨by simpa [e] using hm, ho⟩
  · rename_i e
    refine ⟨hm, fun x hx => ?_⟩
    rcases List.mem_append.mp hx with hx | hx
    · exact ho x hx
    · simp at hx; subst hx; exact ⟨e, h⟩

theorem finish_sized' {m : Nat} {s : State} (hm : 0 < m) (h : Sized m s) : Sized m (finish s) := by
  cases hk : s.mode with
  | body k => exact finish_sized (Nat.le_of_lt h.1) hm h.2 ⟨k, hk⟩
  | _ => simp only [finish, hk]; exact h

theorem step_sized (env : Env) {m : Nat} (hm : 0 < m) {s : State} (h : Sized m s) (i : Item) : Sized m (step env m s i) := by
  have hstart : ∀ s l, Sized m s → Sized m (startHeader s l) := by
    intro s l h
    unfold startHeader
    split
    · split <;> exact h
    · exact h
  have hfail : Sized m (fail s) := finish_sized' hm h
  cases i with
  | flush => exact finish_sized' hm h
  | line l =>
    cases hk : s.mode with
    | stopped => simp only [step, line, hk]; exact h
    | start => simp only [step, line, hk]; exact hstart s l h
    | header sep got =>
      simp only [step, line, hk, headerLine]
      split
      · exact h
      · split
        · exact h
        · split <;> exact h
    | body k =>
      simp only [step, line, hk]
      split
      · exact h
      · split
        · exact hstart _ l (finish_sized' hm h)
        · split
          · exact h
          · unfold record
            split
            · exact h
            · split
              · exact hfail
              · rename_i vs _
                split
                · split
                  · rename_i e
                    exact finish_sized (by simp; omega) hm h.2 ⟨k, hk⟩
                  · rename_i e
                    refine ⟨?_, h.2⟩
                    have := h.1
                    simp; omega
                · split
                  · exact h
                  · exact hfail

/-- C96 (slices): whatever the lines are, no slice is empty or larger than asked for. -/
theorem C96_slices (env : Env) (m : Nat) (hm : 0 < m) (items : List Item) : ∀ x ∈ (run env m items).out, x.2 ≠ [] ∧ x.2.length ≤ m := by
  have : Sized m (items.foldl (step env m) ⟨.start, [], []⟩) := by
    suffices ∀ s, Sized m s → Sized m (items.foldl (step env m) s) from this _ ⟨hm, by simp⟩
    induction items with
    | nil => exact fun s h => h
    | cons i items ih => exact fun s h => ih _ (step_sized env hm h i)
  exact (finish_sized' hm this).2

/-- C96 (logs): for any number of logs one after the other, and any ends of calls between their lines, the events are those of the
records, in order, and reading does not stop.  What is missing: the kinds of columns and texts that are refuted below. -/
theorem C96_logs_partial (env : Env) (m : Nat) (logs : List Spec.Log) (hok : ∀ l ∈ logs, Spec.LogOk l) (items : List Item)
    (hl : linesIn items = logs.flatMap Spec.Log.lines) :
    List.Forall₂ Spec.Event (logs.flatMap Spec.Log.records) (delivered (run env m items).out) ∧ ∀ w, (run env m items).mode ≠ .stopped w := by
  obtain ⟨more, h1, h2, h3, h4⟩ := logs_read env logs hok (.start, []) (.inl rfl)
  rw [← hl] at h1 h2 h4
  obtain ⟨r1, r2⟩ := run_abs env m items h4
  rw [r1, r2, h1, h2]
  refine ⟨by simpa using h3, fun w => ?_⟩
  cases logs.getLast? <;> simp

theorem foreign_field (env : Env) (h : Spec.Head) {t : Ty} {x : Str} (hf : Spec.Foreign h t x) : field env (headerOf h) t x = none := by
  have hpoint : ∀ x : Str, 46 ∉ x → realP true x = none := by
    intro x hx
    have hs : ∀ y : Str, 46 ∉ y → ∀ n, 46 ∉ (takeDigits n y).2 := by
      intro y
      induction y with
      | nil => intro _ n; cases n <;> simp [takeDigits]
      | cons b y ih =>
        intro hy n
        cases n with
        | zero => exact hy
        | succ n =>
          simp only [takeDigits]
          split
          · exact ih (fun e => hy (by simp [e])) n
          · exact hy
    have ht : 46 ∉ (takeSign x).2 := by
      cases x with
      | nil => simp [takeSign]
      | cons b x =>
        simp only [takeSign]
        split
        · exact fun e => hx (by simp [e])
        · split
          · exact fun e => hx (by simp [e])
          · exact hx
    have he : eat '.' (takeDigits 20 (takeSign x).2).2 = none := by
      have := hs _ ht 20
      cases hy : (takeDigits 20 (takeSign x).2).2 with
      | nil => rfl
      | cons b y =>
        rw [hy] at this
        have hb : b ≠ ch '.' := fun e => this (by rw [e]; simp [ch])
        simp [eat, hb]
    unfold realP
    split
    · rfl
    · rw [he]; simp
  cases hf with
  | bool x hu he ht hf =>
    simp only [field, headerOf, hu, he, if_false, cell, cellP, via, tfP]
    cases x with
    | nil => rfl
    | cons b r =>
      by_cases h1 : b = ch 'T'
      · cases r with
        | nil => exact absurd (by simp [h1, ch]) ht
        | cons c r => simp [h1]
      · by_cases h2 : b = ch 'F'
        · cases r with
          | nil => exact absurd (by simp [h2, ch]) hf
          | cons c r => simp [h2, ch]
        · simp [h1, h2]
  | number _ b x hu he hd ht =>
    have hdig : isDigit b = false := by
      simp [isDigit]; omega
    have : uintP 64 20 1 (b :: x) = none := by simp [uintP, takeDigits, hdig]
    rcases ht with rfl | rfl <;> simp [field, headerOf, hu, he, cell, cellP, via, this]
  | point _ x hu he hp ht =>
    rcases ht with rfl | rfl | rfl <;> simp [field, headerOf, hu, he, cell, cellP, via, hpoint x hp]

theorem foreign_fields (env : Env) (h : Spec.Head) : ∀ (cols : List Spec.Column) (texts : List Str), cols.length = texts.length →
    (∃ p ∈ cols.zip texts, Spec.Foreign h p.1.ty p.2) → readFields env (headerOf h) (cols.map (·.ty)) texts = none
  | [], texts, _, hp => by simp at hp
  | c :: cs, [], hl, _ => by simp at hl
  | c :: cs, x :: xs, hl, ⟨p, hp, hf⟩ => by
    simp only [List.zip_cons_cons, List.mem_cons] at hp
    simp only [List.map_cons, readFields]
    rcases hp with rfl | hp
    · simp [foreign_field env h hf]
    · rw [foreign_fields env h cs xs (by simpa using hl) ⟨p, hp, hf⟩]
      cases field env (headerOf h) c.ty x <;> rfl

theorem stopped_stays (env : Env) (w : Stop) (evs) : ∀ ls : List Str, ls.foldl (absLine env) (.stopped w, evs) = (.stopped w, evs)
  | [] => rfl
  | l :: ls => by rw [List.foldl_cons]; exact stopped_stays env w evs ls

/-- C96 (errors): at a record with a text that is no value of its column, reading ends with an error; the events of the records before
are delivered, and nothing of what follows. -/
theorem C96_error (env : Env) (m : Nat) (logs : List Spec.Log) (last : Spec.Log) (hok : ∀ l ∈ logs ++ [last], Spec.LogOk l) (texts : List Str)
    (hf : Spec.FieldLine last.head texts) (hlen : last.head.cols.length = texts.length)
    (hbad : ∃ p ∈ last.head.cols.zip texts, Spec.Foreign last.head p.1.ty p.2) (rest : List Str) (items : List Item)
    (hl : linesIn items = (logs ++ [last]).flatMap Spec.Log.lines ++ (Spec.joined last.head.sep texts :: rest)) :
    List.Forall₂ Spec.Event ((logs ++ [last]).flatMap Spec.Log.records) (delivered (run env m items).out) ∧ (run env m items).mode = .stopped .error := by
  obtain ⟨more, h1, h2, h3, h4⟩ := logs_read env (logs ++ [last]) hok (.start, []) (.inl rfl)
  have hk := (hok last (by simp)).1
  obtain ⟨f1, f2, f3, f4⟩ := fieldLine_facts hk hf
  have hnone := foreign_fields env last.head last.head.cols texts hlen hbad
  have htys : (headerOf last.head).fields.map (·.2) = last.head.cols.map (·.ty) := by simp [headerOf]
  have hstate : ((logs ++ [last]).flatMap Spec.Log.lines).foldl (absLine env) (.start, []) = (.body (headerOf last.head), more) := by
    apply Prod.ext
    · rw [h2]; simp
    · rw [h1]; rfl
  have hstep : absLine env (.body (headerOf last.head), more) (Spec.joined last.head.sep texts) = (.stopped .error, more) := by
    simp only [absLine, f1, f2, f3, show (headerOf last.head).sep = last.head.sep from rfl, f4, htys, hnone]
    simp [headerOf, hlen]
  have hall : (linesIn items).foldl (absLine env) (.start, []) = (.stopped .error, more) := by
    rw [hl, List.foldl_append, hstate, List.foldl_cons, hstep, stopped_stays]
  obtain ⟨r1, r2⟩ := run_abs env m items (by
    intro pre x hp
    rw [hl] at hp
    rcases prefix_append hp with hp | ⟨q, rfl, hq⟩
    · exact h4 pre x hp
    · rw [List.foldl_append, hstate]
      cases q with
      | nil =>
        obtain ⟨t, ht⟩ := hq
        have : x = Spec.joined last.head.sep texts := (List.cons.inj ht).1
        rw [this]
        intro k hkk _ _ _ vs hvs
        injection hkk with hkk
        subst hkk
        rw [show (headerOf last.head).sep = last.head.sep from rfl, f4, htys, hnone] at hvs
        exact absurd hvs (by simp)
      | cons y q =>
        obtain ⟨t, ht⟩ := hq
        have : y = Spec.joined last.head.sep texts := (List.cons.inj ht).1
        rw [List.foldl_cons, this, hstep, stopped_stays]
        intro k hkk
        exact absurd hkk (by simp))
  rw [r1, r2, hall]
  exact ⟨h3, rfl⟩

/-! ### Cases -/

/-- A header. -/
def sampleHead : Spec.Head :=
  ⟨[9], str ",", str "(empty)", str "-", str "conn", str "2014-05-23-18-02-04",
    [⟨str "host", str "string", .string⟩, ⟨str "n", str "count", .count⟩, ⟨str "tags", str "set[string]", .list .string⟩, ⟨str "ok", str "bool", .bool⟩]⟩

/-- A log. -/
def sampleLog : Spec.Log :=
  ⟨sampleHead, str "\\x09", [.row [str "a\\x09b", str "42", str "x,y", str "-"], .comment (str "close 2014"), .blank, .odd [str "short"],
    .row [str "(empty)", str "7", str "(empty)", str "T"]]⟩

theorem unescapes_plain (t : Str) (h : 92 ∉ t) : Spec.Unescapes t t := by
  induction t with
  | nil => exact .nil
  | cons b t ih => exact .plain b t t (fun e => h (by simp [e])) (ih fun e => h (by simp [e]))

theorem sampleLog_ok : Spec.LogOk sampleLog := by
  refine ⟨⟨⟨by decide, ?_⟩, ?_, ⟨44, [], by decide⟩, by decide, by decide, by decide, ?_⟩, ?_⟩
  · exact .cons 9 48 57 0 9 [] [] (.inl (by decide)) (.inl (by decide)) (by decide) .nil
  · intro p hp
    simp only [List.mem_cons, List.not_mem_nil, or_false] at hp
    rcases hp with rfl | rfl | rfl | rfl | rfl | rfl | rfl <;> (intro b hb; injection hb with hb; subst hb; decide)
  · intro c hc
    simp only [sampleLog, sampleHead, List.mem_cons, List.not_mem_nil, or_false] at hc
    rcases hc with rfl | rfl | rfl | rfl
    · exact ⟨⟨by decide, fun b hb => by injection hb with hb; subst hb; decide⟩, ⟨by decide, fun b hb => by injection hb with hb; subst hb; decide⟩, .string⟩
    · exact ⟨⟨by decide, fun b hb => by injection hb with hb; subst hb; decide⟩, ⟨by decide, fun b hb => by injection hb with hb; subst hb; decide⟩, .count⟩
    · exact ⟨⟨by decide, fun b hb => by injection hb with hb; subst hb; decide⟩, ⟨by decide, fun b hb => by injection hb with hb; subst hb; decide⟩,
        .set _ _ .string⟩
    · exact ⟨⟨by decide, fun b hb => by injection hb with hb; subst hb; decide⟩, ⟨by decide, fun b hb => by injection hb with hb; subst hb; decide⟩, .bool⟩
  · have hline : ∀ texts : List Str, (texts.all fun x => (x != []) && !(x.contains 9)) = true → texts ≠ [] → texts.length < 2 ^ 64 →
        (∀ x, texts.head? = some x → x.head? ≠ some 35) → Spec.FieldLine sampleHead texts := by
      intro texts h1 h2 h3 h4
      refine ⟨h2, h3, fun x hx => ?_, h4⟩
      have := List.all_eq_true.mp h1 x hx
      simp at this
      exact ⟨this.1, fun b hb => by injection hb with hb; subst hb; exact this.2⟩
    intro e he
    simp only [sampleLog, List.mem_cons, List.not_mem_nil, or_false] at he
    rcases he with rfl | rfl | rfl | rfl | rfl
    · refine ⟨hline _ (by decide) (by decide) (by decide) (by intro x hx; injection hx with hx; subst hx; decide), ?_⟩
      refine .cons ⟨.string [97, 9, 98], .value _ _ _ (by decide) (by decide) (.one _ _ _ (.string _ _ (by decide) ?_))⟩ (.cons ⟨.count 42, ?_⟩
        (.cons ⟨.list [.string (str "x"), .string (str "y")], ?_⟩ (.cons ⟨.none, .unset _⟩ .nil)))
      · exact .plain 97 _ _ (by decide) (.hex 48 57 0 9 [98] [98] (.inl (by decide)) (.inl (by decide)) (unescapes_plain _ (by decide)))
      · exact .value _ _ _ (by decide) (by decide) (.one _ _ _ (.count .count [4, 2] (.inl rfl) ⟨by decide, by decide⟩ (by decide) (by decide)))
      · exact .value _ _ _ (by decide) (by decide) (.list .string [str "x", str "y"] _ (by decide)
          (by intro x hx b hb; injection hb with hb; subst hb; simp only [List.mem_cons, List.not_mem_nil, or_false] at hx; rcases hx with rfl | rfl <;> decide)
          (.cons (.string _ _ (by decide) (unescapes_plain _ (by decide))) (.cons (.string _ _ (by decide) (unescapes_plain _ (by decide))) .nil)))
    · show ¬ _ <+: _
      decide
    · trivial
    · exact ⟨hline _ (by decide) (by decide) (by decide) (by intro x hx; injection hx with hx; subst hx; decide), by decide⟩
    · refine ⟨hline _ (by decide) (by decide) (by decide) (by intro x hx; injection hx with hx; subst hx; decide), ?_⟩
      exact .cons ⟨.string [], .emptyString (by decide)⟩ (.cons ⟨.count 7, .value _ _ _ (by decide) (by decide)
        (.one _ _ _ (.count .count [7] (.inl rfl) ⟨by decide, by decide⟩ (by decide) (by decide)))⟩ (.cons ⟨.list [], .emptyList _ (by decide)⟩
          (.cons ⟨.bool true, .value _ _ _ (by decide) (by decide) (.one _ _ _ (.bool true))⟩ .nil)))

/-- One step after the other. -/
theorem chain {env : Env} {m : Nat} {s s2 : State} {i : Item} {is : List Item} (s1 : State) (h : step env m s i = s1) (t : is.foldl (step env m) s1 = s2) :
    (i :: is).foldl (step env m) s = s2 := by rw [List.foldl_cons, h, t]

theorem chainAll {env : Env} {m : Nat} {s s2 : State} {is js : List Item} (s1 : State) (h : is.foldl (step env m) s = s1) (t : js.foldl (step env m) s1 = s2) :
    (is ++ js).foldl (step env m) s = s2 := by rw [List.foldl_append, h, t]

/-- The two rows of the log. -/
def sampleRow1 : List Data := [.string [97, 9, 98], .count 42, .list [.string (str "x"), .string (str "y")], .none]
def sampleRow2 : List Data := [.string [], .count 7, .list [], .bool true]

example (env : Env) : delivered (run env 10 (sampleLog.lines.map Item.line)).out
    = [(str "zeek.conn", (headerOf sampleHead).fields, sampleRow1), (str "zeek.conn", (headerOf sampleHead).fields, sampleRow2)] := by
  have h : (sampleLog.lines.map Item.line).foldl (step env 10) ⟨.start, [], []⟩ = ⟨.body (headerOf sampleHead), [sampleRow1, sampleRow2], []⟩ := by
    have e : sampleLog.lines.map Item.line = (Spec.headLines sampleHead (str "\\x09")).map Item.line ++ (sampleLog.body.map (Spec.entryLine sampleHead)).map Item.line := rfl
    rw [e]
    exact chainAll ⟨.body (headerOf sampleHead), [], []⟩ rfl (chain ⟨.body (headerOf sampleHead), [sampleRow1], []⟩ rfl (chain ⟨.body (headerOf sampleHead), [sampleRow1], []⟩ rfl
      (chain ⟨.body (headerOf sampleHead), [sampleRow1], []⟩ rfl (chain ⟨.body (headerOf sampleHead), [sampleRow1], []⟩ rfl
      (chain ⟨.body (headerOf sampleHead), [sampleRow1, sampleRow2], []⟩ rfl rfl)))))
  rw [run, h]
  rfl

example : Spec.Foreign sampleHead .count (str "x7") := .number .count 120 [55] (by decide) (by decide) (by decide) (.inl rfl)

/-- A header with columns of types. -/
def head (names types : String) : List Item :=
  ["#separator \\x09", "#set_separator\t,", "#empty_field\t(empty)", "#unset_field\t-", "#path\tx", "#open\t2014", "#fields\t" ++ names, "#types\t" ++ types].map
    fun s => .line (str s)

/-- What it says. -/
def heads (cols : List (Str × Ty)) : Header := ⟨[9], str ",", str "(empty)", str "-", str "zeek.x", cols⟩

/-- The lines are read with these rows, and reading stops or not. -/
def Reads (env : Env) (items : List Item) (stop : Option Stop) (rows : List (List Data)) : Prop :=
  (delivered (run env 10 items).out).map (·.2.2) = rows ∧ (match (run env 10 items).mode with | .stopped w => some w | _ => none) = stop

theorem reads_of {env : Env} {items : List Item} {stop : Option Stop} {rows : List (List Data)} (s : State) (h : items.foldl (step env 10) ⟨.start, [], []⟩ = s)
    (h1 : (delivered (finish s).out).map (·.2.2) = rows) (h2 : (match (finish s).mode with | .stopped w => some w | _ => none) = stop) :
    Reads env items stop rows := by
  unfold Reads run
  rw [h]
  exact ⟨h1, h2⟩

/-- C96 (headers): a header line that does not begin as it must, has no separator, or nothing behind a separator, ends reading with an
error; the events before stay. -/
theorem C96_header_error (env : Env) (m : Nat) (s : State) (sep : Str) (got : List Str) (l : Str) (hm : s.mode = .header sep got)
    (hb : ¬ (["#set_separator", "#empty_field", "#unset_field", "#path", "#open", "#fields", "#types"].map DataText.Spec.ascii).getD got.length [] <+: l ∨
      ∀ a c, l = a ++ sep ++ c → c = []) :
    (line env m s l).mode = .stopped .error ∧ (line env m s l).out = s.out ∧ (line env m s l).rows = s.rows := by
  have hc : content sep (prefixes.getD got.length []) l = none := by
    unfold content
    split
    · rename_i hp
      rcases hb with hb | hb
      · exact absurd (List.isPrefixOf_iff_prefix.mp hp) hb
      · split
        · rfl
        · rename_i a c hf
          rw [if_pos (hb a c (find_some hf))]
    · rfl
  simp only [line, hm, headerLine, hc, and_self]

/-- A line with the name of a log that is empty. -/
example (env : Env) : (line env 5 ⟨.header [9] [[44], [40], [45]], [], []⟩ (str "#path\t")).mode = .stopped .error := by
  refine (C96_header_error env 5 _ [9] [[44], [40], [45]] (str "#path\t") rfl (.inr ?_)).1
  intro a c h
  have hl := congrArg List.length h
  simp only [List.length_append, List.length_singleton, show (str "#path\t").length = 6 from rfl] at hl
  by_cases ha : a.length = 5
  · exact List.length_eq_zero_iff.mp (by omega)
  · exfalso
    have h9 := congrArg (·[a.length]?) h
    simp only [List.append_assoc] at h9
    rw [List.getElem?_append_right (Nat.le_refl _)] at h9
    simp only [Nat.sub_self, List.cons_append, List.nil_append, List.getElem?_cons_zero] at h9
    have hlt : a.length < 5 := by omega
    generalize a.length = k at h9 hlt
    match k, hlt with
    | 0, _ | 1, _ | 2, _ | 3, _ | 4, _ => revert h9; decide

/-- C96 (refuted): a backslash that is escaped, with less than two characters behind it, makes the string empty. -/
theorem C96_backslash_refuted (env : Env) :
    Reads env (head "a" "string" ++ [.line (str "C:\\\\"), .line (str "a\\\\bc")]) none [[.string []], [.string (str "a\\bc")]] :=
  reads_of ⟨.body (heads [(str "a", .string)]), [[.string []], [.string (str "a\\bc")]], []⟩
    (chainAll ⟨.body (heads [(str "a", .string)]), [], []⟩ rfl (chain ⟨.body (heads [(str "a", .string)]), [[.string []]], []⟩ rfl (chain _ rfl rfl))) rfl rfl

/-- C96 (refuted): a column of patterns ends the import. -/
theorem C96_pattern_refuted (env : Env) : Reads env (head "a" "pattern" ++ [.line (str "foo"), .line (str "bar")]) (some .error) [] :=
  reads_of ⟨.stopped .error, [], []⟩
    (chainAll ⟨.body (heads [(str "a", .pattern)]), [], []⟩ rfl (chain ⟨.stopped .error, [], []⟩ rfl (chain _ rfl rfl))) rfl rfl

/-- C96 (refuted): it is an assertion that fails if a pattern is not in the first column and there is a row before; the row is lost. -/
theorem C96_pattern_abort_refuted (env : Env) :
    Reads env (head "a\tb" "count\tpattern" ++ [.line (str "1\t-"), .line (str "2\tfoo")]) (some .abort) [] :=
  reads_of ⟨.stopped .abort, [[.count 1, .none]], []⟩
    (chainAll ⟨.body (heads [(str "a", .count), (str "b", .pattern)]), [], []⟩ rfl
      (chain ⟨.body (heads [(str "a", .count), (str "b", .pattern)]), [[.count 1, .none]], []⟩ rfl (chain _ rfl rfl))) rfl rfl

/-- C96 (refuted): an unset element of a vector of numbers ends the import, and one of a vector of strings is a string. -/
theorem C96_element_refuted (env : Env) :
    Reads env (head "a" "vector[count]" ++ [.line (str "1,2"), .line (str "1,-,2"), .line (str "3")]) (some .error) [[.list [.count 1, .count 2]]]
    ∧ Reads env (head "a" "vector[string]" ++ [.line (str "a,-")]) none [[.list [.string (str "a"), .string (str "-")]]] :=
  ⟨reads_of ⟨.stopped .error, [], [(heads [(str "a", .list .count)], [[.list [.count 1, .count 2]]])]⟩
    (chainAll ⟨.body (heads [(str "a", .list .count)]), [], []⟩ rfl (chain ⟨.body (heads [(str "a", .list .count)]), [[.list [.count 1, .count 2]]], []⟩ rfl
      (chain ⟨.stopped .error, [], [(heads [(str "a", .list .count)], [[.list [.count 1, .count 2]]])]⟩ rfl (chain _ rfl rfl)))) rfl rfl,
   reads_of ⟨.body (heads [(str "a", .list .string)]), [[.list [.string (str "a"), .string (str "-")]]], []⟩
    (chainAll ⟨.body (heads [(str "a", .list .string)]), [], []⟩ rfl (chain _ rfl rfl)) rfl rfl⟩

/-- C96 (refuted): an empty last field makes the record one of another number of fields, and it is skipped. -/
theorem C96_empty_refuted (env : Env) :
    Reads env (head "a\tb" "count\tstring" ++ [.line (str "1\tx"), .line (str "2\t"), .line (str "3\ty")]) none
      [[.count 1, .string (str "x")], [.count 3, .string (str "y")]] :=
  reads_of ⟨.body (heads [(str "a", .count), (str "b", .string)]), [[.count 1, .string (str "x")], [.count 3, .string (str "y")]], []⟩
    (chainAll ⟨.body (heads [(str "a", .count), (str "b", .string)]), [], []⟩ rfl
      (chain ⟨.body (heads [(str "a", .count), (str "b", .string)]), [[.count 1, .string (str "x")]], []⟩ rfl
      (chain ⟨.body (heads [(str "a", .count), (str "b", .string)]), [[.count 1, .string (str "x")]], []⟩ rfl (chain _ rfl rfl)))) rfl rfl

/-- C96 (refuted): numbers are cut to 64 bits. -/
theorem C96_number_refuted (env : Env) (setSep : Str) : cell env setSep .count (str "18446744073709551617") = some (.count 1) := by
  have h : uintP 64 20 1 (str "18446744073709551617") = some (1, []) := by decide +kernel
  simp [cell, cellP, via, h]

/-- C96 (refuted): points in time are not exact, here by 8 ns. -/
theorem C96_time_refuted (env : Env) (setSep : Str) :
    cell env setSep .time (str "1258531221.486539") = some (.time 1258531221486539008) := by
  have h : realP true (str "1258531221.486539") = some (⟨false, [1, 2, 5, 8, 5, 3, 1, 2, 2, 1], [4, 8, 6, 5, 3, 9]⟩, []) := by decide +kernel
  have h2 : trunc (rnd (litVal ⟨false, [1, 2, 5, 8, 5, 3, 1, 2, 2, 1], [4, 8, 6, 5, 3, 9]⟩ * 10 ^ 9)) = 1258531221486539008 := by decide +kernel
  simp only [cell, cellP, via, h, Option.map_some, seconds, h2]
  rw [Env.int64, if_pos (by decide)]

end Verif.Zeek
