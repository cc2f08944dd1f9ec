import Verif.Escape.Model

/-! Lemmas on escaping. -/

namespace Verif.Escape

/-- An unescaper that, when it succeeds, leaves no more than the characters behind the first. -/
def Consumes (u : UInt8 → List UInt8 → Step) : Prop :=
  ∀ (c : UInt8) (rest out rest' : List UInt8), u c rest = .ok out rest' → rest'.length ≤ rest.length

theorem run_fuel {u : UInt8 → List UInt8 → Step} (hu : Consumes u) :
    ∀ (n m : Nat) (res s : List UInt8), s.length ≤ n → s.length ≤ m → run u n res s = run u m res s := by
  intro n
  induction n with
  | zero =>
    intro m res s hn _
    cases s with
    | nil => cases m <;> simp [run]
    | cons c rest => simp at hn
  | succ n ih =>
    intro m res s hn hm
    cases s with
    | nil => cases m <;> simp [run]
    | cons c rest =>
      cases m with
      | zero => simp at hm
      | succ m =>
        simp only [run]
        cases h : u c rest with
        | fail => rfl
        | ub => rfl
        | ok out rest' =>
          have := hu _ _ _ _ h
          simp only [List.length_cons] at hn hm
          exact ih m _ _ (by omega) (by omega)

/-- If the unescaper reads back the text of each character, unescaping reads back the string. -/
theorem run_escape {u : UInt8 → List UInt8 → Step} (hu : Consumes u) {e : UInt8 → List UInt8}
    {ok : UInt8 → Prop}
    (he : ∀ c tail, ok c → ∃ d ds, e c = d :: ds ∧ u d (ds ++ tail) = .ok [c] tail) :
    ∀ (s res : List UInt8) (n : Nat), (∀ c ∈ s, ok c) → (escape e s).length ≤ n →
      run u n res (escape e s) = some (res ++ s) := by
  intro s
  induction s with
  | nil => intro res n _ _; cases n <;> simp [run, escape]
  | cons c rest ih =>
    intro res n hok hn
    obtain ⟨d, ds, hd, hs⟩ := he c (escape e rest) (hok c (by simp))
    have hesc : escape e (c :: rest) = d :: (ds ++ escape e rest) := by simp [escape, hd]
    rw [hesc] at hn ⊢
    cases n with
    | zero => simp at hn
    | succ n =>
      simp only [run, hs]
      rw [ih (res ++ [c]) n (fun x hx => hok x (by simp [hx])) (by simp at hn; omega)]
      simp

/-- An unescaper that accesses nothing outside of the string lets `unescape` do so neither. -/
theorem run_safe {u : UInt8 → List UInt8 → Step} (hu : ∀ c rest, u c rest ≠ .ub) :
    ∀ (n : Nat) (res s : List UInt8), run u n res s ≠ none := by
  intro n
  induction n with
  | zero => intro res s; cases s <;> simp [run]
  | succ n ih =>
    intro res s
    cases s with
    | nil => simp [run]
    | cons c rest =>
      simp only [run]
      cases h : u c rest with
      | fail => simp
      | ub => exact absurd h (hu c rest)
      | ok out rest' => exact ih _ _

/-! ### Hexadecimal digits -/

theorem forall_byte {P : UInt8 → Prop} (h : ∀ n : Fin 256, P (UInt8.ofNat n.val)) (c : UInt8) : P c := by
  have := h ⟨c.toNat, c.toNat_lt⟩
  simpa using this

theorem hexByte_hex (c : UInt8) : hexByte (hexHi c) (hexLo c) = c :=
  forall_byte (P := fun c => hexByte (hexHi c) (hexLo c) = c) (by decide +kernel) c

theorem isXdigit_hexHi (c : UInt8) : isXdigit (hexHi c) = true :=
  forall_byte (P := fun c => isXdigit (hexHi c) = true) (by decide +kernel) c

theorem isXdigit_hexLo (c : UInt8) : isXdigit (hexLo c) = true :=
  forall_byte (P := fun c => isXdigit (hexLo c) = true) (by decide +kernel) c

theorem hexUnescaper_hex (c : UInt8) (tail : List UInt8) :
    hexUnescaper (hexHi c :: hexLo c :: tail) = .ok [c] tail := by
  simp [hexUnescaper, isXdigit_hexHi, isXdigit_hexLo, hexByte_hex]

theorem hexUnescaper_consumes {s out rest : List UInt8} (h : hexUnescaper s = .ok out rest) :
    rest.length + 2 = s.length := by
  match s, h with
  | hi :: lo :: r, h =>
    simp only [hexUnescaper] at h
    split at h
    · simp only [Step.ok.injEq] at h; simp [h.2]
    · cases h

/-! ### Byte unescaping -/

theorem byteUnescaper_consumes : Consumes byteUnescaper := by
  intro c rest out rest' h
  simp only [byteUnescaper] at h
  split at h
  · simp only [Step.ok.injEq] at h; simp [h.2]
  · split at h
    · cases h
    · split at h
      · simp only [Step.ok.injEq] at h; simp [← h.2]
      · have := hexUnescaper_consumes h
        simp only [List.length_drop] at this
        omega

theorem byteUnescaper_hex (c : UInt8) (tail : List UInt8) :
    byteUnescaper backslash ([120, hexHi c, hexLo c] ++ tail) = .ok [c] tail := by
  have := hexUnescaper_hex c tail
  simp [byteUnescaper, this]

theorem byteUnescaper_plain {c : UInt8} (h : c ≠ backslash) (tail : List UInt8) :
    byteUnescaper c tail = .ok [c] tail := by simp [byteUnescaper, h]

theorem byteUnescaper_safe (c : UInt8) (rest : List UInt8) : byteUnescaper c rest ≠ .ub := by
  simp only [byteUnescaper]
  split
  · simp
  · split
    · simp
    · split
      · simp
      · rename_i h _
        match rest, h with
        | a :: b :: d :: r, _ =>
          simp only [List.drop_succ_cons, List.drop_zero, hexUnescaper]
          split <;> simp
        | [_, _], h => simp at h
        | [_], h => simp at h
        | [], h => simp at h

/-! ### Percent unescaping -/

theorem percentUnescaper_consumes : Consumes percentUnescaper := by
  intro c rest out rest' h
  simp only [percentUnescaper] at h
  split at h
  · simp only [Step.ok.injEq] at h; simp [h.2]
  · split at h
    · cases h
    · have := hexUnescaper_consumes h
      omega

theorem percentUnescaper_safe (c : UInt8) (rest : List UInt8) : percentUnescaper c rest ≠ .ub := by
  simp only [percentUnescaper]
  split
  · simp
  · split
    · simp
    · rename_i h
      match rest, h with
      | a :: b :: r, _ =>
        simp only [hexUnescaper]
        split <;> simp
      | [_], h => simp at h
      | [], h => simp at h

theorem percent_reserved (c : UInt8) : isUnreserved c = true → c ≠ percent :=
  forall_byte (P := fun c => isUnreserved c = true → c ≠ percent) (by decide +kernel) c

theorem percent_step (c : UInt8) (tail : List UInt8) :
    ∃ d ds, percentEscaper c = d :: ds ∧ percentUnescaper d (ds ++ tail) = .ok [c] tail := by
  by_cases h : isUnreserved c = true
  · exact ⟨c, [], by simp [percentEscaper, h], by simp [percentUnescaper, percent_reserved c h]⟩
  · refine ⟨percent, [hexHi c, hexLo c], by simp [percentEscaper, h], ?_⟩
    have := hexUnescaper_hex c tail
    simp [percentUnescaper, this]

/-! ### Double unescaping -/

theorem doubleUnescaper_consumes (esc : List UInt8) : Consumes (doubleUnescaper esc) := by
  intro c rest out rest' h
  cases rest with
  | nil => simp only [doubleUnescaper, Step.ok.injEq] at h; simp [← h.2]
  | cons y r => simp only [doubleUnescaper, Step.ok.injEq] at h; simp [← h.2]

theorem doubleUnescaper_safe (esc : List UInt8) (c : UInt8) (rest : List UInt8) :
    doubleUnescaper esc c rest ≠ .ub := by
  cases rest <;> simp [doubleUnescaper]

/-! ### JSON -/

theorem jsonUnicode_rest {b0 b1 b2 b3 : UInt8} {rest out rest' : List UInt8}
    (h : jsonUnicode b0 b1 b2 b3 rest = .ok out rest') : rest' = rest := by
  simp only [jsonUnicode] at h
  split at h
  · simp only [Step.ok.injEq] at h; exact h.2.symm
  · split at h
    · simp only [Step.ok.injEq] at h; exact h.2.symm
    · cases h

theorem jsonUnicode_safe {b0 b1 b2 b3 : UInt8} {rest : List UInt8} :
    jsonUnicode b0 b1 b2 b3 rest ≠ .ub := by
  simp only [jsonUnicode]
  split
  · simp
  · split <;> simp

theorem beyond_ok {s : Step} {out rest : List UInt8} : beyond s ≠ .ok out rest := by
  cases s <;> simp [beyond]

theorem jsonU_consumes {rest out rest' : List UInt8} (h : jsonU rest = .ok out rest') :
    rest'.length + 4 = rest.length := by
  match rest, h with
  | b0 :: b1 :: b2 :: b3 :: r, h =>
    have := jsonUnicode_rest h
    simp [this]
  | [b0, b1, b2], h => exact absurd h beyond_ok
  | [_, _], h => cases h
  | [_], h => cases h
  | [], h => cases h

theorem jsonU_safe {rest : List UInt8} (h : rest.length ≠ 3) : jsonU rest ≠ .ub := by
  match rest, h with
  | b0 :: b1 :: b2 :: b3 :: r, _ => exact jsonUnicode_safe
  | [b0, b1, b2], h => simp at h
  | [_, _], _ => simp [jsonU]
  | [_], _ => simp [jsonU]
  | [], _ => simp [jsonU]

theorem jsonEscaped_consumes {c : UInt8} {rest out rest' : List UInt8}
    (h : jsonEscaped c rest = .ok out rest') : rest'.length ≤ rest.length := by
  simp only [jsonEscaped] at h
  repeat' split at h
  all_goals first
    | (simp only [Step.ok.injEq] at h; simp [h.2]; done)
    | (have := jsonU_consumes h; omega)
    | cases h

theorem jsonUnescaper_consumes : Consumes jsonUnescaper := by
  intro c rest out rest' h
  simp only [jsonUnescaper] at h
  split at h
  · cases h
  · split at h
    · simp only [Step.ok.injEq] at h; simp [h.2]
    · split at h
      · cases h
      · have := jsonEscaped_consumes h
        simp only [List.length_drop] at this
        omega

theorem jsonUnescaper_ub {c : UInt8} {rest : List UInt8} (h : jsonUnescaper c rest = .ub) :
    c = backslash ∧ ∃ x y z : UInt8, rest = [117, x, y, z] := by
  simp only [jsonUnescaper] at h
  split at h
  · cases h
  · split at h
    · cases h
    · rename_i hc
      split at h
      · cases h
      · rename_i hl
        refine ⟨by simpa using hc, ?_⟩
        simp only [jsonEscaped] at h
        repeat' split at h
        all_goals first
          | cases h; done
          | skip
        rename_i h117
        by_cases h3 : (rest.drop 1).length = 3
        · match rest, h3, h117 with
          | [a, x, y, z], _, h117 => exact ⟨x, y, z, by simp at h117; rw [h117]⟩
        · exact absurd h (jsonU_safe h3)

theorem json_step (c : UInt8) (tail : List UInt8) :
    ∃ d ds, jsonEscaper c = d :: ds ∧ jsonUnescaper d (ds ++ tail) = .ok [c] tail := by
  have key : ∀ (x : UInt8) (ys : List UInt8), jsonUnescaper backslash (x :: ys) = jsonEscaped x ys := by
    intro x ys; simp [jsonUnescaper, show backslash ≠ quote by decide]; intro h; omega
  simp only [jsonEscaper]
  by_cases h1 : c = quote ∨ c = backslash
  · refine ⟨backslash, [c], by simp only [if_pos h1], ?_⟩
    rw [List.singleton_append, key]
    rcases h1 with h1 | h1 <;> subst h1 <;> simp [jsonEscaped, quote, backslash]
  simp only [if_neg h1]
  by_cases h2 : c = 8
  · exact ⟨backslash, [98], by simp only [if_pos h2], by
      rw [List.singleton_append, key]; simp [jsonEscaped, h2, quote, backslash]⟩
  simp only [if_neg h2]
  by_cases h3 : c = 12
  · exact ⟨backslash, [102], by simp only [if_pos h3], by
      rw [List.singleton_append, key]; simp [jsonEscaped, h3, quote, backslash]⟩
  simp only [if_neg h3]
  by_cases h4 : c = 13
  · exact ⟨backslash, [114], by simp only [if_pos h4], by
      rw [List.singleton_append, key]; simp [jsonEscaped, h4, quote, backslash]⟩
  simp only [if_neg h4]
  by_cases h5 : c = 10
  · exact ⟨backslash, [110], by simp only [if_pos h5], by
      rw [List.singleton_append, key]; simp [jsonEscaped, h5, quote, backslash]⟩
  simp only [if_neg h5]
  by_cases h6 : c = 9
  · exact ⟨backslash, [116], by simp only [if_pos h6], by
      rw [List.singleton_append, key]; simp [jsonEscaped, h6, quote, backslash]⟩
  simp only [if_neg h6, jsonPrintEscaper]
  by_cases h7 : isCntrl c = true
  · refine ⟨backslash, [117, 48, 48, hexHi c, hexLo c], by simp only [if_pos h7], ?_⟩
    show jsonUnescaper backslash (117 :: 48 :: 48 :: hexHi c :: hexLo c :: tail) = _
    rw [key]
    simp [jsonEscaped, jsonU, jsonUnicode, isXdigit_hexHi, isXdigit_hexLo, hexByte_hex, quote, backslash]
  · refine ⟨c, [], by simp only [if_neg h7], ?_⟩
    have h1' : c ≠ quote ∧ c ≠ backslash := by simpa [not_or] using h1
    simp [jsonUnescaper, h1'.1, h1'.2]

/-- Where the loop of `json_unescape` can leave the string. -/
theorem run_json_ub : ∀ (n : Nat) (res s : List UInt8), run jsonUnescaper n res s = none →
    ∃ (p : List UInt8) (x y z : UInt8), s = p ++ [backslash, 117, x, y, z] := by
  intro n
  induction n with
  | zero => intro res s h; cases s <;> simp [run] at h
  | succ n ih =>
    intro res s h
    cases s with
    | nil => simp [run] at h
    | cons c rest =>
      simp only [run] at h
      cases hs : jsonUnescaper c rest with
      | fail => simp [hs] at h
      | ub =>
        obtain ⟨hc, x, y, z, hr⟩ := jsonUnescaper_ub hs
        exact ⟨[], x, y, z, by simp [hc, hr]⟩
      | ok out rest' =>
        simp only [hs] at h
        obtain ⟨p, x, y, z, hr⟩ := ih _ _ h
        have hsuf : rest' <:+ rest := by
          simp only [jsonUnescaper] at hs
          split at hs
          · cases hs
          · split at hs
            · simp only [Step.ok.injEq] at hs; rw [hs.2]; exact List.suffix_refl _
            · split at hs
              · cases hs
              · refine List.IsSuffix.trans ?_ (List.drop_suffix 1 rest)
                generalize rest.drop 1 = r at hs ⊢
                simp only [jsonEscaped] at hs
                repeat' split at hs
                all_goals first
                  | (simp only [Step.ok.injEq] at hs; rw [hs.2]; exact List.suffix_refl _)
                  | skip
                · match r, hs with
                  | b0 :: b1 :: b2 :: b3 :: r, h =>
                    have := jsonUnicode_rest h
                    rw [this]
                    exact ⟨[b0, b1, b2, b3], rfl⟩
                  | [b0, b1, b2], h => exact absurd h beyond_ok
                  | [_, _], h => cases h
                  | [_], h => cases h
                  | [], h => cases h
                · cases hs
        obtain ⟨q, hq⟩ := hsuf
        exact ⟨c :: q ++ p, x, y, z, by rw [← hq, hr]; simp⟩

end Verif.Escape
