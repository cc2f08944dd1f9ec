import Verif.DataText.Main

/-!
C69: the text of a value is read as that value.
-/
namespace Verif.DataText
open Verif.Data Verif.Address Spec

/-- A text of ASCII characters. -/
def text (s : String) : Str := s.toList.map ch

/-- **C69, partial.** Whatever floating-point arithmetic, clock and compiler do: the text of a value (nulls, Booleans,
    integers, counts, strings, patterns, addresses, subnets, and lists, maps and records of such values to every depth)
    is defined, and reading it returns that value. Missing: floating-point numbers, durations and points in time, whose
    texts are not modelled; enumeration values; and the values that `Spec.Ok` leaves out, for which the property is
    false (see the refutations). -/
theorem C69_print_parse_partial (env : Env) (d : Data) (h : Ok d) :
    ∃ t, print env d = some t ∧ toData env t = some d := toData_print env d h

/-- **C69, partial.** No two of these values have the same text. -/
theorem C69_injective_partial (env : Env) (d d' : Data) (h : Ok d) (h' : Ok d') (e : print env d = print env d') : d = d' := by
  obtain ⟨t, h1, h2⟩ := toData_print env d h
  obtain ⟨t', h1', h2'⟩ := toData_print env d' h'
  rw [h1, h1'] at e
  injection e with e
  subst e
  rw [h2] at h2'
  injection h2'

/-- Non-vacuity: `<a: {+1 -> "x\"y", +2 -> nil}, b_1: [10.0.0.0/8, fe80::1, /foo.*/, T]>`. -/
def sample : Data := .record [text "a", text "b_1"]
  [.map [.int 1, .int 2] [.string (text "x\"y"), .none],
   .list [.subnet (.make (.v4 10 1 2 3) 8), .address (.v6 [0xfe, 0x80, 0, 0, 0, 0, 0, 0, 0, 0, 0, 0, 0, 0, 0, 1] rfl),
     .pattern (text "foo.*"), .bool true]]

theorem likeDays_iff (w : Nat) : LikeDays w ↔ (hexDigits w).takeWhile (· ≤ 9) ≠ [] ∧ ((hexDigits w).dropWhile (· ≤ 9)).head? = some 13 := by
  constructor
  · rintro ⟨a, b, h1, h2, h3⟩
    have e1 : (a ++ 13 :: b).takeWhile (fun x => decide (x ≤ 9)) = a := by
      rw [List.takeWhile_append_of_pos (by simpa using h3)]; simp
    have e2 : (a ++ 13 :: b).dropWhile (fun x => decide (x ≤ 9)) = 13 :: b := by
      rw [List.dropWhile_append_of_pos (by simpa using h3)]; simp
    rw [h1, e1, e2]
    exact ⟨h2, rfl⟩
  · rintro ⟨h1, h2⟩
    match hd : (hexDigits w).dropWhile (fun x => decide (x ≤ 9)), h2 with
    | x :: b, h2 =>
      simp only [List.head?_cons, Option.some.injEq] at h2
      subst h2
      refine ⟨_, b, (by rw [← hd, List.takeWhile_append_dropWhile]), h1, fun d hd' => ?_⟩
      have := List.all_takeWhile (l := hexDigits w) (p := fun d => decide (d ≤ 9))
      rw [List.all_eq_true] at this
      simpa using this d hd'

theorem stringOk_plain (s : Str) (h : ∀ b ∈ s, Visible b) (hb : ∀ b ∈ s, b ≠ backslash) : StringOk s := by
  refine ⟨h, fun a b e _ => ?_⟩
  have : a.reverse.takeWhile (· == backslash) = [] := by
    cases hr : a.reverse with
    | nil => rfl
    | cons x r =>
      have : x ∈ a := by rw [← List.mem_reverse, hr]; simp
      have := hb x (by rw [e]; simp [this])
      simp [this]
  simp [trail, this]

theorem nameOk_sample : ∀ n ∈ [text "a", text "b_1"], NameOk n := by
  intro n hn
  simp only [List.mem_cons, List.not_mem_nil, or_false] at hn
  rcases hn with rfl | rfl
  · exact ⟨by decide, by simp only [NameChar]; decide⟩
  · exact ⟨by decide, by simp only [NameChar]; decide⟩

theorem sample_ok : Ok sample := by
  simp only [sample, Ok, AllOk, and_true]
  refine ⟨⟨⟨⟨⟨by decide, by decide⟩, by decide, by decide⟩, ?_, rfl, by decide⟩,
    ⟨⟨_, 8, by decide, rfl⟩, .inl (by decide)⟩, .inr ?_, ?_⟩, rfl, by decide, nameOk_sample⟩
  · exact stringOk_plain _ (by simp only [Visible]; decide) (by decide)
  · rw [likeDays_iff, show firstWord _ = 0xfe80 from rfl]
    have e : hexDigits 0xfe80 = [15, 14, 8, 0] := by
      rw [hexDigits_big _ (by omega), hexDigits_big _ (by omega), hexDigits_big _ (by omega), hexDigits_small _ (by omega)]
      rfl
    rw [e]; decide
  · exact ⟨by decide, by decide⟩

example (env : Env) : ∃ t, print env sample = some t ∧ toData env t = some sample := C69_print_parse_partial env sample sample_ok

/-! Refutations -/

theorem alt_record (env : Env) (p : P Data) (s : Str) :
    alternatives env p (ch '<' :: s) = (namedRecordP p (ch '<' :: s)).or (unnamedRecordP p (ch '<' :: s)) := by
  have h1 : (kw ['n', 'i', 'l'] (ch '<' :: s)).map (fun r => (Data.none, r)) = none := rfl
  have h2 : (eat '_' (ch '<' :: s)).map (fun r => (Data.none, r)) = none := rfl
  unfold alternatives
  rw [h1, h2]
  show firstOf [none, none, none, none, none, none, none, none, none, none, none, none, namedRecordP p (ch '<' :: s), unnamedRecordP p (ch '<' :: s), none, none] = _
  cases namedRecordP p (ch '<' :: s) <;> cases unnamedRecordP p (ch '<' :: s) <;> rfl

theorem alt_list (env : Env) (p : P Data) (s : Str) :
    alternatives env p (ch '[' :: s) = listP p (ch '[' :: s) := by
  have h1 : (kw ['n', 'i', 'l'] (ch '[' :: s)).map (fun r => (Data.none, r)) = none := rfl
  have h2 : (eat '_' (ch '[' :: s)).map (fun r => (Data.none, r)) = none := rfl
  unfold alternatives
  rw [h1, h2]
  show firstOf [none, none, none, none, none, none, none, none, none, none, listP p (ch '[' :: s), none, none, none, none, none] = _
  cases listP p (ch '[' :: s) <;> rfl

theorem toData_some (env : Env) (s : Str) (d : Data) (h : alternatives env (dataP env s.length) s = some (d, [])) :
    toData env s = some d := by simp [toData, dataP, h]

theorem toData_none (env : Env) (s : Str) (h : alternatives env (dataP env s.length) s = none) : toData env s = none := by
  simp [toData, dataP, h]

/-- **C69, refutation.** Printing the smallest integer negates it in `int64_t`, which is undefined. -/
theorem C69_smallest_refuted (env : Env) : print env (.int (-(2 ^ 63))) = none := rfl

/-- **C69, refutation.** A string that is one backslash: its text has no end. -/
theorem C69_backslash_refuted (env : Env) :
    print env (.string (text "\\")) = some (text "\"\\\"") ∧ toData env (text "\"\\\"") = none := ⟨rfl, rfl⟩

set_option maxRecDepth 20000 in
/-- **C69, refutation.** A string with a backslash in front of a quotation mark ends there when read. -/
theorem C69_backslash_quote_refuted (env : Env) :
    print env (.string (text "a\\\"b")) = some (text "\"a\\\\\"b\"") ∧ toData env (text "\"a\\\\\"b\"") = none := ⟨rfl, rfl⟩

set_option maxRecDepth 20000 in
/-- **C69, refutation.** In a list such strings make the whole text unreadable: the text of `["\", "\"]`, a list of two strings,
    is that of no value. -/
theorem C69_backslash_list_refuted (env : Env) :
    print env (.list [.string (text "\\"), .string (text "\\")]) = some (text "[\"\\\", \"\\\"]") ∧
    toData env (text "[\"\\\", \"\\\"]") = none := by
  refine ⟨rfl, ?_⟩
  apply toData_none
  exact (alt_list env (dataP env 10) (text "\"\\\", \"\\\"]")).trans rfl

set_option maxRecDepth 20000 in
/-- **C69, refutation.** A string with a newline, or any other character outside of printable ASCII, is read as a string
    with the escape sequence. -/
theorem C69_newline_refuted (env : Env) :
    print env (.string [10]) = some (text "\"\\x0A\"") ∧ toData env (text "\"\\x0A\"") = some (.string (text "\\x0A")) := ⟨rfl, rfl⟩

set_option maxRecDepth 20000 in
/-- **C69, refutation.** Two strings have the same text. -/
theorem C69_same_text_refuted (env : Env) :
    print env (.string [10]) = print env (.string (text "\\x0A")) := rfl

/-- **C69, refutation.** A pattern with a slash ends there when read. -/
theorem C69_slash_refuted (env : Env) :
    print env (.pattern (text "a/b")) = some (text "/a/b/") ∧ toData env (text "/a/b/") = none := ⟨rfl, rfl⟩

set_option maxRecDepth 20000 in
/-- **C69, refutation.** A pattern with an escaped slash is read as a pattern without the escape character. -/
theorem C69_escaped_slash_refuted (env : Env) :
    print env (.pattern (text "a\\/b")) = some (text "/a\\/b/") ∧ toData env (text "/a\\/b/") = some (.pattern (text "a/b")) := ⟨rfl, rfl⟩

set_option maxRecDepth 20000 in
/-- **C69, refutation.** The address `5d::1` begins like five days, so its text is not read as an address. -/
theorem C69_days_refuted (env : Env) :
    print env (.address (.v6 [0, 0x5d, 0, 0, 0, 0, 0, 0, 0, 0, 0, 0, 0, 0, 0, 1] rfl)) = some (text "5d::1") ∧
    toData env (text "5d::1") = none := ⟨rfl, rfl⟩

set_option maxRecDepth 20000 in
/-- **C69, refutation.** The reader accepts a record without field names. Its text is not accepted. -/
theorem C69_unnamed_refuted (env : Env) :
    toData env (text "<T, F>") = some (.record [[], []] [.bool true, .bool false]) ∧
    print env (.record [[], []] [.bool true, .bool false]) = some (text "<: T, : F>") ∧
    toData env (text "<: T, : F>") = none := by
  refine ⟨?_, rfl, ?_⟩
  · apply toData_some
    exact (alt_record env (dataP env 6) (text "T, F>")).trans rfl
  · apply toData_none
    exact (alt_record env (dataP env 10) (text ": T, : F>")).trans rfl

set_option maxRecDepth 20000 in
/-- **C69, refutation.** A field whose name has a dash is printed but not read. -/
theorem C69_name_refuted (env : Env) :
    print env (.record [text "a-b"] [.bool true]) = some (text "<a-b: T>") ∧ toData env (text "<a-b: T>") = none := by
  refine ⟨rfl, ?_⟩
  apply toData_none
  exact (alt_record env (dataP env 8) (text "a-b: T>")).trans rfl

/-- **C69, refutation.** An enumeration value is read as a count. -/
theorem C69_enum_refuted (env : Env) (n : Nat) (hn : n < 2 ^ 64) :
    ∃ t, print env (.enum n) = some t ∧ toData env t = some (.count n) := by
  obtain ⟨t, h1, h2⟩ := toData_print env (.count n) (by simpa only [Ok] using hn)
  exact ⟨t, by simpa only [print] using h1, h2⟩

end Verif.DataText
