import Verif.Output.Model
import Verif.Options.Props
/-!
# Output to a descriptor (C161) and the size of the database (C162)
-/
namespace Verif.Output
open Verif.Data Verif.DataText Verif.DataText.Spec

/-! ## Lemmas -/

theorem write_prefix (w : Writes) (s : Stream) (b done : Str) (h : s.fd <+: done ∧ (s.bad = false → s.fd = done)) :
    (write w s b).fd <+: done ++ b ∧ ((write w s b).bad = false → (write w s b).fd = done ++ b) := by
  unfold write
  cases hb : s.bad with
  | true => exact ⟨by simpa using h.1.trans (List.prefix_append _ _), by simp [hb]⟩
  | false =>
    have e := h.2 hb
    unfold xsputn
    cases hw : w s.calls b.length with
    | none => simp [e]
    | some k =>
      simp only [Bool.false_eq_true, if_false, e]
      have hp : done ++ b.take k <+: done ++ b := (List.prefix_append_right_inj _).2 (List.take_prefix _ _)
      split
      · rename_i hk
        simp only [Option.some.injEq] at hk
        have : b.take k = b := List.take_of_length_le (by omega)
        exact ⟨hp, fun _ => by rw [this]⟩
      · exact ⟨hp, by simp⟩

theorem rows_prefix (w : Writes) : ∀ (rows : List Str) (s : Stream) (done : Str), (s.fd <+: done ∧ (s.bad = false → s.fd = done)) →
    (printRows w s rows).fd <+: done ++ rows.flatten ∧ ((printRows w s rows).bad = false → (printRows w s rows).fd = done ++ rows.flatten)
  | [], s, done, h => by simpa [printRows] using h
  | r :: rows, s, done, h => by
    have := rows_prefix w rows (write w s r) (done ++ r) (write_prefix w s r done h)
    simpa [printRows, List.append_assoc] using this

theorem session_prefix (w : Writes) : ∀ (xs : List (List Str)) (s : Sink) (done : Str), (s.out.fd <+: done ∧ (s.out.bad = false → s.out.fd = done)) →
    (xs.foldl (onSlice w) s).out.fd <+: done ++ xs.flatten.flatten ∧
      ((xs.foldl (onSlice w) s).out.bad = false → (xs.foldl (onSlice w) s).out.fd = done ++ xs.flatten.flatten)
  | [], s, done, h => by simpa using h
  | x :: xs, s, done, h => by
    have := session_prefix w xs (onSlice w s x) (done ++ x.flatten) (rows_prefix w x s.out done h)
    simpa [List.append_assoc] using this

/-! ## C161 -/

/-- Whatever `write(2)` does, what arrives is the begin of the texts of the events, in order: nothing is garbled, doubled or
left out in the middle. -/
theorem C161_prefix (w : Writes) (slices : List (List Str)) : (session w slices).out.fd <+: slices.flatten.flatten := by
  simpa [session] using (session_prefix w slices {} [] (by simp)).1

/-- If flushing succeeds, all of it arrived. -/
theorem C161_flush (w : Writes) (slices : List (List Str)) (h : flush (session w slices).out = true) :
    (session w slices).out.fd = slices.flatten.flatten := by
  have := (session_prefix w slices {} [] (by simp)).2
  simp only [flush, Bool.not_eq_true'] at h
  simpa [session] using this h

/-- If `write(2)` always writes everything, all of it arrives, and the number of events is right. -/
theorem C161_all (slices : List (List Str)) : (session (fun _ n => some n) slices).out.fd = slices.flatten.flatten ∧
    (session (fun _ n => some n) slices).processed = slices.flatten.length := by
  have hb : ∀ (rows : List Str) (s : Stream), s.bad = false → (printRows (fun _ n => some n) s rows).bad = false := by
    intro rows
    induction rows with
    | nil => intro s h; exact h
    | cons r rows ih =>
      intro s h
      apply ih
      simp [write, xsputn, h]
  have hs : ∀ (xs : List (List Str)) (s : Sink), s.out.bad = false → (xs.foldl (onSlice fun _ n => some n) s).out.bad = false ∧
      (xs.foldl (onSlice fun _ n => some n) s).processed = s.processed + xs.flatten.length := by
    intro xs
    induction xs with
    | nil => intro s h; exact ⟨h, rfl⟩
    | cons x xs ih =>
      intro s h
      obtain ⟨h1, h2⟩ := ih (onSlice (fun _ n => some n) s x) (hb x s.out h)
      refine ⟨h1, ?_⟩
      simp only [List.foldl_cons, h2, List.flatten_cons, List.length_append]
      simp only [onSlice]
      omega
  obtain ⟨h1, h2⟩ := hs slices {} rfl
  exact ⟨C161_flush _ _ (by simp [flush, session, h1]), by simpa [session] using h2⟩

/-- The number of processed events counts events that never arrived: it does not depend on what `write(2)` does at all. -/
theorem C161_reported_refuted : (∀ (w : Writes) (slices : List (List Str)), (session w slices).processed = slices.flatten.length) ∧
    (session (fun _ _ => none) [[str "a\n", str "b\n"], [str "c\n"]]) = ⟨⟨true, [], 1⟩, 3⟩ := by
  refine ⟨?_, by decide⟩
  intro w slices
  have : ∀ (xs : List (List Str)) (s : Sink), (xs.foldl (onSlice w) s).processed = s.processed + xs.flatten.length := by
    intro xs
    induction xs with
    | nil => intro s; rfl
    | cons x xs ih =>
      intro s
      simp only [List.foldl_cons, ih, List.flatten_cons, List.length_append]
      simp only [onSlice]
      omega
  simpa [session] using this slices {}

/-- One interrupted call is enough to lose everything after it, although `write(2)` would have gone on. -/
theorem C161_interrupted_refuted : (session (fun i n => if i = 1 then some 1 else some n) [[str "a\n", str "b\n"], [str "c\n"]]).out.fd = str "a\nb" := by
  decide

/-! ## C162 -/

theorem readAll_eq : ∀ (fuel : Nat) (s : Str), s.length < fuel → readAll fuel s = s
  | 0, s, h => by omega
  | fuel + 1, s, h => by
    simp only [readAll, List.length_take]
    by_cases hl : min 4096 s.length = 4096
    · rw [if_pos hl, readAll_eq fuel (s.drop 4096) (by rw [List.length_drop]; omega), List.take_append_drop]
    · rw [if_neg hl, List.take_of_length_le (by omega)]

/-- All of the output of the command is read, however long it is. -/
theorem C162_whole (c : Command) (h : c.readError = false) (h' : c.closeError = false) : execute c = some c.output := by
  simp [execute, h, h', readAll_eq]

/-- A command that prints a number of up to 20 digits below 2^64, with or without the end of a line, gives that size. -/
theorem C162_command (c : Command) (ds : List Nat) (hd : Digits ds) (hl : ds.length ≤ 20) (hn : numeral ds < 2 ^ 64)
    (ho : c.output = digitText ds ∨ c.output = digitText ds ++ [10]) (h : c.readError = false) (h' : c.closeError = false) :
    commandSize c = .size (numeral ds) := by
  have hc : Options.countP (digitText ds) = some (numeral ds, []) := by
    have ht := takeDigits_all 20 ds hd.2 hl [] rfl
    rw [List.append_nil] at ht
    have hlen : 1 ≤ ds.length := List.length_pos_iff.2 hd.1
    have e : digitText ds = txt ds := rfl
    simp only [Options.countP, uintP, e, ht, if_pos hlen, Option.map_some, value_numeral, Nat.mod_eq_of_lt hn]
    rw [Options.unitP_eq]
    rfl
  have hlast : ∃ l, (digitText ds).getLast? = some l ∧ l ≠ 10 := by
    obtain ⟨d, hd'⟩ : ∃ d, ds.getLast? = some d := by
      cases hx : ds.getLast? with
      | none => exact (hd.1 (List.getLast?_eq_none_iff.1 hx)).elim
      | some d => exact ⟨d, rfl⟩
    refine ⟨digitChar d, ?_, ?_⟩
    · show (ds.map digitChar).getLast? = _
      rw [List.getLast?_map, hd']; rfl
    · have hlt := hd.2 d (List.mem_of_getLast? hd')
      intro e
      have := congrArg UInt8.toNat e
      simp only [digitChar, Nat.toUInt8, UInt8.toNat_ofNat', Nat.reducePow, UInt8.reduceToNat] at this
      omega
  unfold commandSize
  rw [C162_whole c h h']
  rcases ho with ho | ho
  · obtain ⟨l, e1, e2⟩ := hlast
    simp only [ho, e1, if_neg e2, hc]
  · simp [ho, hc]

/-- Whatever size is taken from a command is that of a text of digits and units it printed (see C153). -/
theorem C162_sound (c : Command) (n : Nat) (h : commandSize c = .size n) : ∃ t ds f, (c.output = t ∨ c.output = t ++ [10]) ∧ Options.Spec.Size t ds f ∧
    n = numeral ds * f % 2 ^ 64 := by
  unfold commandSize at h
  cases he : execute c with
  | none => rw [he] at h; cases h
  | some out =>
    have hout : out = c.output := by
      simp only [execute, readAll_eq _ _ (Nat.lt_succ_self _)] at he
      split at he
      · cases he
      · split at he
        · cases he
        · injection he with he; exact he.symm
    rw [he] at h
    simp only [] at h
    cases hl : out.getLast? with
    | none => rw [hl] at h; cases h
    | some l =>
      rw [hl] at h
      simp only [] at h
      generalize ht : (if l = 10 then out.dropLast else out) = text at h
      have hb : Options.bytesize text = some n := by
        unfold Options.bytesize
        cases hc : Options.countP text with
        | none => rw [hc] at h; cases h
        | some p =>
          obtain ⟨m, r⟩ := p
          rw [hc] at h
          cases r with
          | nil => simp only [Res.size.injEq] at h; subst h; rfl
          | cons a r => cases h
      obtain ⟨ds, f, h1, h2⟩ := Options.C153_sound text n hb
      refine ⟨text, ds, f, ?_, h1, h2⟩
      by_cases h10 : l = 10
      · rw [if_pos h10] at ht
        obtain ⟨o, ho⟩ := List.getLast?_eq_some_iff.1 hl
        right
        rw [← hout, ← ht, ho, h10]
        simp
      · rw [if_neg h10] at ht
        left
        rw [← hout, ht]

/-- A command that fails without output makes the disk monitor read before the begin of a string, and the exit status of a command
that prints something is ignored. -/
theorem C162_command_refuted : commandSize { output := [], status := 127 } = .undefined ∧
    commandSize { output := str "0\n", status := 1 } = .size 0 ∧
    commandSize { output := str "4096\t/var/lib/vast\n" } = .error := by decide +kernel

/-- Without a command, the size is the sum of the sizes of the files that are still there, if all of them can be asked for. -/
theorem C162_files (es : List Entry) (h1 : .fails ∉ es) (h2 : .file .error ∉ es)
    (hs : (es.map fun e => match e with | .file (.size n) => n | _ => 0).sum < 2 ^ 64) :
    recursiveSize es 0 = some (some (es.map fun e => match e with | .file (.size n) => n | _ => 0).sum) := by
  have : ∀ (es : List Entry) (n : Nat), .fails ∉ es → .file .error ∉ es → n + (es.map fun e => match e with | .file (.size n) => n | _ => 0).sum < 2 ^ 64 →
      recursiveSize es n = some (some (n + (es.map fun e => match e with | .file (.size n) => n | _ => 0).sum)) := by
    intro es
    induction es with
    | nil => intro n _ _ _; simp [recursiveSize]
    | cons e es ih =>
      intro n h1 h2 h3
      simp only [List.mem_cons, not_or] at h1 h2
      simp only [List.map_cons, List.sum_cons] at h3 ⊢
      cases e with
      | file s =>
        cases s with
        | size k =>
          simp only [recursiveSize] at h3 ⊢
          rw [Nat.mod_eq_of_lt (by omega), ih _ h1.2 h2.2 (by omega)]
          congr 2
          omega
        | gone => simp only [recursiveSize] at h3 ⊢; rw [ih _ h1.2 h2.2 (by omega)]; congr 2; omega
        | error => exact (h2.1 rfl).elim
      | other => simp only [recursiveSize] at h3 ⊢; rw [ih _ h1.2 h2.2 (by omega)]; congr 2; omega
      | fails => exact (h1.1 rfl).elim
  simpa using this es 0 h1 h2 (by simpa using hs)

/-- A failure in the midst of the traversal is an exception, not an error that is handled. -/
theorem C162_throws_refuted : recursiveSize [.file (.size 5), .fails, .file (.size 7)] 0 = none := rfl

example : recursiveSize [.file (.size 5), .other, .file .gone, .file (.size 7)] 0 = some (some 12) ∧ commandSize { output := str "1048576\n" } = .size 1048576 := by
  decide +kernel

end Verif.Output
