import Verif.Escape.Lemmas

/-! # C46: escaping round-trips. C59: escaped strings can be embedded. -/

namespace Verif.Escape

namespace Spec

/-- The text between the quotes of a JSON string (RFC 4627, section 2.5), on bytes: bytes other than
    the quotation mark, the reverse solidus and control characters stand for themselves, others are
    escaped. -/
inductive JsonText : List UInt8 → Prop
  | nil : JsonText []
  | plain (c : UInt8) (rest : List UInt8) : 32 ≤ c.toNat → c ≠ 34 → c ≠ 92 → JsonText rest → JsonText (c :: rest)
  | short (c : UInt8) (rest : List UInt8) : c ∈ [34, 92, 47, 98, 102, 110, 114, 116] → JsonText rest →
      JsonText (92 :: c :: rest)
  | unicode (a b c d : UInt8) (rest : List UInt8) :
      (∀ x ∈ [a, b, c, d], (48 ≤ x.toNat ∧ x.toNat ≤ 57) ∨ (65 ≤ x.toNat ∧ x.toNat ≤ 70)
        ∨ (97 ≤ x.toNat ∧ x.toNat ≤ 102)) → JsonText rest → JsonText (92 :: 117 :: a :: b :: c :: d :: rest)

/-- The unreserved characters of RFC 3986 and the percent sign. -/
def UriChar (c : UInt8) : Prop :=
  (48 ≤ c.toNat ∧ c.toNat ≤ 57) ∨ (65 ≤ c.toNat ∧ c.toNat ≤ 90) ∨ (97 ≤ c.toNat ∧ c.toNat ≤ 122)
    ∨ c ∈ [45, 46, 95, 126, 37]

end Spec

/-- C46 for JSON: `json_unescape(json_escape(s)) = s` for every string. -/
theorem C46_json (s : List UInt8) : jsonUnescape (jsonEscape s) = some s := by
  by_cases h : s = []
  · subst h; decide
  · have hl : ([quote] ++ escape jsonEscaper s ++ [quote]).length ≥ 2 := by simp
    simp only [jsonEscape, if_neg h, jsonUnescape]
    rw [if_neg (by omega), if_pos ⟨by simp, List.getLast?_concat⟩]
    have : (([quote] ++ escape jsonEscaper s ++ [quote]).drop 1).dropLast = escape jsonEscaper s := by simp
    rw [this, unescape,
      run_escape jsonUnescaper_consumes (ok := fun _ => True) (fun c tail _ => json_step c tail) s []
        _ (by simp) (Nat.le_refl _)]
    simp

example : jsonEscape [97, 34, 10, 0, 200] = [34, 97, 92, 34, 92, 110, 92, 117, 48, 48, 48, 48, 200, 34] := by decide

/-- C46 for percent encoding: `percent_unescape(percent_escape(s)) = s` for every string. -/
theorem C46_percent (s : List UInt8) : percentUnescape (percentEscape s) = some s := by
  rw [percentUnescape, unescape, percentEscape,
    run_escape percentUnescaper_consumes (ok := fun _ => True) (fun c tail _ => percent_step c tail) s []
      _ (by simp) (Nat.le_refl _)]
  simp

example : percentEscape [97, 37, 200] = [97, 37, 50, 53, 37, 67, 56] := by decide

/-- C46 for bytes: `byte_unescape(byte_escape_all(s)) = s` for every string. -/
theorem C46_byte_all (s : List UInt8) : byteUnescape (byteEscapeAll s) = some s := by
  rw [byteUnescape, unescape, byteEscapeAll,
    run_escape byteUnescaper_consumes (e := hexEscaper) (ok := fun _ => True)
      (fun c tail _ => ⟨backslash, _, rfl, byteUnescaper_hex c tail⟩) s [] _ (by simp) (Nat.le_refl _)]
  simp

example : byteEscapeAll [97, 10] = [92, 120, 54, 49, 92, 120, 48, 65] := by decide

/-- C46 for `byte_escape`, restricted to strings without backslash. Missing: strings that hold one
    (`C46_byte_refuted`). -/
theorem C46_byte_partial (s : List UInt8) (hs : backslash ∉ s) : byteUnescape (byteEscape s) = some s := by
  rw [byteUnescape, unescape, byteEscape,
    run_escape byteUnescaper_consumes (ok := fun c => c ≠ backslash) ?_ s [] _ ?_ (Nat.le_refl _)]
  · simp
  · intro c tail hc
    by_cases hp : isPrint c = true
    · exact ⟨c, [], by simp [printEscaper, hp], byteUnescaper_plain hc tail⟩
    · exact ⟨backslash, _, by simp only [printEscaper, if_neg hp, hexEscaper], byteUnescaper_hex c tail⟩
  · intro c hc hc'; subst hc'; exact hs hc

example : byteEscape [97, 10, 98] = [97, 92, 120, 48, 65, 98] ∧ backslash ∉ ([97, 10, 98] : List UInt8) := by decide

/-- C46 refuted for `byte_escape`: it does not escape the backslash. The string `\x41` is escaped to
    itself and comes back as `A`; the string `\` comes back empty. -/
theorem C46_byte_refuted :
    byteUnescape (byteEscape [92, 120, 52, 49]) = some [65] ∧ byteUnescape (byteEscape [92]) = some [] := by
  decide

/-- C46 refuted for `byte_escape` with the backslash as extra character: the string `\` is escaped to
    `\\`, which `byte_unescape` rejects, because it demands four characters from every backslash on. -/
theorem C46_byte_extra_refuted :
    byteEscapeExtra [92] [92] = [92, 92] ∧ byteUnescape (byteEscapeExtra [92] [92]) = some [] := by decide

/-- C46 for `double_escape`, restricted to strings of special characters. Missing: strings with other
    characters (`C46_double_refuted`). -/
theorem C46_double_partial (s esc : List UInt8) (hs : ∀ c ∈ s, c ∈ esc) :
    doubleUnescape (doubleEscape s esc) esc = some s := by
  rw [doubleUnescape, unescape, doubleEscape,
    run_escape (doubleUnescaper_consumes esc) (ok := fun c => c ∈ esc) ?_ s [] _ hs (Nat.le_refl _)]
  · simp
  · intro c tail hc
    exact ⟨c, [c], by simp [doubleEscaper, hc], by simp [doubleUnescaper, hc]⟩

example : doubleEscape [34, 39, 34] [34, 39] = [34, 34, 39, 39, 34, 34]
    ∧ ∀ c ∈ ([34, 39, 34] : List UInt8), c ∈ ([34, 39] : List UInt8) := by decide

/-- C46 refuted for `double_escape`: the unescaper drops every second character that is not doubled.
    The string `abc` comes back as `ac`. -/
theorem C46_double_refuted :
    doubleUnescape (doubleEscape [97, 98, 99] [34]) [34] = some [97, 99] := by decide

/-- C46, safety: `byte_unescape`, `percent_unescape` and `double_unescape` never access anything
    outside of their input. -/
theorem C46_unescape_safe (s esc : List UInt8) :
    byteUnescape s ≠ none ∧ percentUnescape s ≠ none ∧ doubleUnescape s esc ≠ none :=
  ⟨run_safe byteUnescaper_safe _ _ _, run_safe percentUnescaper_safe _ _ _,
    run_safe (doubleUnescaper_safe esc) _ _ _⟩

example : byteUnescape [97, 92, 120, 48] = some [] ∧ percentUnescape [37] = some [] := by decide

/-- C46, safety, for `json_unescape`, restricted to inputs that do not end with `\u`, three characters
    and the closing quote. Missing: those (`C46_json_unsafe_refuted`). -/
theorem C46_json_safe_partial (s : List UInt8)
    (hs : ¬ ∃ (p : List UInt8) (x y z : UInt8), s = p ++ [92, 117, x, y, z, 34]) :
    jsonUnescape s ≠ none := by
  simp only [jsonUnescape]
  split
  · simp
  · split
    · rename_i hl hq
      intro h
      obtain ⟨p, x, y, z, hp⟩ := run_json_ub _ _ _ h
      apply hs
      match s, hl, hq, hp with
      | a :: r, hl, hq, hp =>
        have hr : r ≠ [] := by intro hr; subst hr; simp at hl
        refine ⟨a :: p, x, y, z, ?_⟩
        have h1 : r = r.dropLast ++ [r.getLast hr] := (List.dropLast_concat_getLast hr).symm
        have h2 : r.getLast hr = quote := by
          have := hq.2
          rw [List.getLast?_cons, Option.some.injEq] at this
          rw [← this]
          rw [List.getLast?_eq_some_getLast hr]; rfl
        have h3 : r.dropLast = p ++ [backslash, 117, x, y, z] := by simpa using hp
        rw [h1, h2, h3]
        simp [quote, backslash]
      | [], hl, _, _ => simp at hl
    · simp

example : jsonUnescape [34, 92, 117, 97, 98, 34] = some [] ∧
    jsonUnescape [34, 92, 117, 48, 48, 52, 49, 34] = some [65] := by decide

/-- C46 refuted, safety of `json_unescape`: the input `"\uabc"` makes it read behind its end. -/
theorem C46_json_unsafe_refuted : jsonUnescape [34, 92, 117, 97, 98, 99, 34] = none := by decide

/-! ### C59 -/

theorem jsonText_step (c : UInt8) (rest : List UInt8) (h : Spec.JsonText rest) :
    Spec.JsonText (jsonEscaper c ++ rest) := by
  simp only [jsonEscaper]
  by_cases h1 : c = quote ∨ c = backslash
  · rw [if_pos h1]
    refine .short c rest ?_ h
    rcases h1 with h1 | h1 <;> subst h1 <;> decide
  simp only [if_neg h1]
  split
  · exact .short _ _ (by decide) h
  split
  · exact .short _ _ (by decide) h
  split
  · exact .short _ _ (by decide) h
  split
  · exact .short _ _ (by decide) h
  split
  · exact .short _ _ (by decide) h
  simp only [jsonPrintEscaper]
  by_cases h7 : isCntrl c = true
  · rw [if_pos h7]
    refine .unicode 48 48 (hexHi c) (hexLo c) rest ?_ h
    have h1 := isXdigit_hexHi c
    have h2 := isXdigit_hexLo c
    simp only [isXdigit, decide_eq_true_eq] at h1 h2
    intro x hx
    simp only [List.mem_cons, List.not_mem_nil, or_false] at hx
    rcases hx with hx | hx | hx | hx <;> subst hx
    · decide
    · decide
    · exact h1
    · exact h2
  · rw [if_neg h7]
    refine .plain c rest ?_ ?_ ?_ h
    · simp only [isCntrl, decide_eq_true_eq, not_or] at h7; omega
    · intro hc; exact h1 (.inl hc)
    · intro hc; exact h1 (.inr hc)

/-- C59 for JSON: the result of `json_escape` is a JSON string, for every input. -/
theorem C59_json (s : List UInt8) : ∃ t, jsonEscape s = [34] ++ t ++ [34] ∧ Spec.JsonText t := by
  by_cases h : s = []
  · exact ⟨[], by subst h; rfl, .nil⟩
  · refine ⟨escape jsonEscaper s, by simp only [jsonEscape, if_neg h]; rfl, ?_⟩
    clear h
    induction s with
    | nil => exact .nil
    | cons c rest ih => exact jsonText_step c _ ih

theorem escape_all {P : UInt8 → Prop} {e : UInt8 → List UInt8} (h : ∀ c, ∀ x ∈ e c, P x) :
    ∀ s, ∀ x ∈ escape e s, P x
  | [], x, hx => by simp [escape] at hx
  | c :: rest, x, hx => by
    rw [escape, List.mem_append] at hx
    rcases hx with hx | hx
    · exact h c x hx
    · exact escape_all h rest x hx

/-- C59 for percent encoding: the result of `percent_escape` has only unreserved characters and percent
    signs, for every input. -/
theorem C59_percent (s : List UInt8) : ∀ x ∈ percentEscape s, Spec.UriChar x := by
  apply escape_all
  intro c x hx
  have hhex : ∀ y : UInt8, isXdigit y = true → Spec.UriChar y := by
    intro y hy
    simp only [isXdigit, decide_eq_true_eq] at hy
    simp only [Spec.UriChar]
    omega
  simp only [percentEscaper] at hx
  split at hx
  · rename_i h
    have hx : x = c := by simpa using hx
    subst hx
    simp only [isUnreserved, Bool.or_eq_true, decide_eq_true_eq, beq_iff_eq] at h
    simp only [Spec.UriChar]
    rcases h with (((h | h) | h) | h) | h
    · omega
    all_goals (subst h; decide)
  · simp only [List.mem_cons, List.not_mem_nil, or_false] at hx
    rcases hx with hx | hx | hx
    · subst hx; simp only [Spec.UriChar]; decide
    · rw [hx]; exact hhex _ (isXdigit_hexHi c)
    · rw [hx]; exact hhex _ (isXdigit_hexLo c)

/-- C59 for bytes: the results of `byte_escape` and `byte_escape_all` have only printable ASCII
    characters, and so has that of `byte_escape` with extra characters if these are printable. -/
theorem C59_byte (s extra : List UInt8) (he : ∀ c ∈ extra, 32 ≤ c.toNat ∧ c.toNat ≤ 126) :
    (∀ x ∈ byteEscape s, 32 ≤ x.toNat ∧ x.toNat ≤ 126)
    ∧ (∀ x ∈ byteEscapeAll s, 32 ≤ x.toNat ∧ x.toNat ≤ 126)
    ∧ (∀ x ∈ byteEscapeExtra s extra, 32 ≤ x.toNat ∧ x.toNat ≤ 126) := by
  have hhex : ∀ y : UInt8, isXdigit y = true → 32 ≤ y.toNat ∧ y.toNat ≤ 126 := by
    intro y hy
    simp only [isXdigit, decide_eq_true_eq] at hy
    omega
  have hesc : ∀ c : UInt8, ∀ x ∈ hexEscaper c, 32 ≤ x.toNat ∧ x.toNat ≤ 126 := by
    intro c x hx
    simp only [hexEscaper, List.mem_cons, List.not_mem_nil, or_false] at hx
    rcases hx with hx | hx | hx | hx
    · subst hx; decide
    · subst hx; decide
    · rw [hx]; exact hhex _ (isXdigit_hexHi c)
    · rw [hx]; exact hhex _ (isXdigit_hexLo c)
  have hpr : ∀ c : UInt8, ∀ x ∈ printEscaper c, 32 ≤ x.toNat ∧ x.toNat ≤ 126 := by
    intro c x hx
    simp only [printEscaper] at hx
    split at hx
    · rename_i h
      have hx : x = c := by simpa using hx
      subst hx
      simpa [isPrint] using h
    · exact hesc c x hx
  refine ⟨escape_all hpr s, escape_all hesc s, escape_all ?_ s⟩
  intro c x hx
  simp only [extraPrintEscaper] at hx
  split at hx
  · rename_i h
    simp only [List.mem_cons, List.not_mem_nil, or_false] at hx
    rcases hx with hx | hx
    · subst hx; decide
    · rw [hx]; exact he c h
  · exact hpr c x hx

example : byteEscapeExtra [34, 200] [34] = [92, 34, 92, 120, 67, 56] := by decide

end Verif.Escape
