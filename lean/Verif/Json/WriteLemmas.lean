import Verif.Json.Spec
import Verif.Json.ParseLemmas
import Verif.Escape.Lemmas
import Verif.Number.DurationProps
/-!
Texts written by the printer: strings, numbers, other plain texts.
-/
namespace Verif.Json
open Verif.Data Verif.DataText Verif.DataText.Spec Verif.Json.Spec Verif.Calendar

/-! ## UTF-8 -/

theorem utf8_nil : Utf8 [] := ⟨[], rfl⟩

theorem utf8_append {a b : Str} (ha : Utf8 a) (hb : Utf8 b) : Utf8 (a ++ b) := by
  obtain ⟨x, rfl⟩ := ha
  obtain ⟨y, rfl⟩ := hb
  exact ⟨x ++ y, by simp⟩

theorem utf8_char (c : Char) : Utf8 (utf8 c) := ⟨[c], by simp⟩

theorem utf8_byte (b : UInt8) (h : b.toNat < 128) : utf8 (Char.ofNat b.toNat) = [b] := by
  revert h
  refine Escape.forall_byte (P := fun b => b.toNat < 128 → utf8 (Char.ofNat b.toNat) = [b]) ?_ b
  decide +kernel

theorem utf8_ascii {s : Str} (h : ∀ b ∈ s, b.toNat < 128) : Utf8 s := by
  induction s with
  | nil => exact utf8_nil
  | cons b s ih =>
    have h1 : Utf8 [b] := by
      rw [← utf8_byte b (h b (by simp))]; exact utf8_char _
    exact utf8_append h1 (ih fun x hx => h x (by simp [hx]))

/-- The bytes of a character: one below 128, or several that are not. -/
theorem utf8_bytes (c : Char) : (∃ b, utf8 c = [b] ∧ b.toNat < 128) ∨ ∀ b ∈ utf8 c, 128 ≤ b.toNat := by
  have hv : c.val.toNat < 0xD800 ∨ (0xDFFF < c.val.toNat ∧ c.val.toNat < 0x110000) := by
    have := c.valid
    simpa [UInt32.isValidChar, Nat.isValidChar] using this
  simp only [utf8, String.utf8EncodeChar]
  generalize c.val.toNat = v at hv
  split
  · refine .inl ⟨_, rfl, ?_⟩
    rw [byte_toNat (by omega)]; omega
  · right
    split
    · intro b hb
      simp only [List.mem_cons, List.not_mem_nil, or_false] at hb
      rcases hb with rfl | rfl <;> (rw [byte_toNat (by omega)]; omega)
    · split
      · intro b hb
        simp only [List.mem_cons, List.not_mem_nil, or_false] at hb
        rcases hb with rfl | rfl | rfl <;> (rw [byte_toNat (by omega)]; omega)
      · intro b hb
        simp only [List.mem_cons, List.not_mem_nil, or_false] at hb
        rcases hb with rfl | rfl | rfl | rfl <;> (rw [byte_toNat (by omega)]; omega)

/-! ## Strings -/

theorem escape_append (a b : Str) : Escape.escape Escape.jsonEscaper (a ++ b) = Escape.escape Escape.jsonEscaper a ++ Escape.escape Escape.jsonEscaper b := by
  induction a with
  | nil => rfl
  | cons x a ih => simp [Escape.escape, ih]

theorem escaper_ascii (b : UInt8) (h : b.toNat < 128) : ∀ x ∈ Escape.jsonEscaper b, x.toNat < 128 := by
  revert h
  refine Escape.forall_byte (P := fun b => b.toNat < 128 → ∀ x ∈ Escape.jsonEscaper b, x.toNat < 128) ?_ b
  decide +kernel

theorem escaper_high (b : UInt8) (h : 128 ≤ b.toNat) : Escape.jsonEscaper b = [b] := by
  revert h
  refine Escape.forall_byte (P := fun b => 128 ≤ b.toNat → Escape.jsonEscaper b = [b]) ?_ b
  decide +kernel

theorem escape_high {s : Str} (h : ∀ b ∈ s, 128 ≤ b.toNat) : Escape.escape Escape.jsonEscaper s = s := by
  induction s with
  | nil => rfl
  | cons b s ih =>
    rw [Escape.escape, escaper_high b (h b (by simp)), ih fun x hx => h x (by simp [hx])]
    rfl

theorem escape_utf8 {s : Str} (h : Utf8 s) : Utf8 (Escape.escape Escape.jsonEscaper s) := by
  obtain ⟨cs, rfl⟩ := h
  induction cs with
  | nil => exact utf8_nil
  | cons c cs ih =>
    rw [List.flatMap_cons, escape_append]
    refine utf8_append ?_ ih
    rcases utf8_bytes c with ⟨b, hb, hl⟩ | hb
    · rw [hb]
      simp only [Escape.escape, List.append_nil]
      exact utf8_ascii (escaper_ascii b hl)
    · rw [escape_high hb]; exact utf8_char c

theorem hex_alphabet (k : Nat) (h : k < 16) : Hex (Escape.hexAlphabet.getD k 0) k := by
  by_cases hk : k < 10
  · have : Escape.hexAlphabet.getD k 0 = (48 + k).toUInt8 := by
      have : ∀ k, k < 10 → Escape.hexAlphabet.getD k 0 = (48 + k).toUInt8 := by decide
      exact this k hk
    rw [this]; exact .digit k hk
  · obtain ⟨j, rfl⟩ : ∃ j, k = 10 + j := ⟨k - 10, by omega⟩
    have : Escape.hexAlphabet.getD (10 + j) 0 = (65 + j).toUInt8 := by
      have : ∀ j, j < 6 → Escape.hexAlphabet.getD (10 + j) 0 = (65 + j).toUInt8 := by decide
      exact this j (by omega)
    rw [this]; exact .upper j (by omega)

theorem hexHi_hex (b : UInt8) : Hex (Escape.hexHi b) (b.toNat / 16) := by
  have e : (b.toNat >>> 4) &&& 0x0f = b.toNat / 16 :=
    Escape.forall_byte (P := fun b => (b.toNat >>> 4) &&& 0x0f = b.toNat / 16) (by decide +kernel) b
  unfold Escape.hexHi
  rw [e]
  have := b.toNat_lt
  exact hex_alphabet _ (by omega)

theorem hexLo_hex (b : UInt8) : Hex (Escape.hexLo b) (b.toNat % 16) := by
  have e : b.toNat &&& 0x0f = b.toNat % 16 :=
    Escape.forall_byte (P := fun b => b.toNat &&& 0x0f = b.toNat % 16) (by decide +kernel) b
  unfold Escape.hexLo
  rw [e]
  exact hex_alphabet _ (by omega)

theorem escape_chars (s : Str) : Chars (Escape.escape Escape.jsonEscaper s) s := by
  induction s with
  | nil => exact .nil
  | cons b s ih =>
    simp only [Escape.escape, Escape.jsonEscaper]
    split
    · rename_i h
      refine Chars.short b b _ _ ?_ ih
      rcases h with rfl | rfl <;> decide
    split
    · subst_vars; exact Chars.short _ _ _ _ (by decide) ih
    split
    · subst_vars; exact Chars.short _ _ _ _ (by decide) ih
    split
    · subst_vars; exact Chars.short _ _ _ _ (by decide) ih
    split
    · subst_vars; exact Chars.short _ _ _ _ (by decide) ih
    split
    · subst_vars; exact Chars.short _ _ _ _ (by decide) ih
    unfold Escape.jsonPrintEscaper
    split
    · rename_i hc
      simp only [Escape.isCntrl, decide_eq_true_eq] at hc
      have hu : Unit16 [92, 117, 48, 48, Escape.hexHi b, Escape.hexLo b] (0 * 4096 + 0 * 256 + b.toNat / 16 * 16 + b.toNat % 16) :=
        .mk _ _ _ _ _ _ _ _ (Hex.digit 0 (by omega)) (Hex.digit 0 (by omega)) (hexHi_hex b) (hexLo_hex b)
      have e : 0 * 4096 + 0 * 256 + b.toNat / 16 * 16 + b.toNat % 16 = b.toNat := by omega
      rw [e] at hu
      have := Chars.unicode _ _ _ _ hu (by omega) ih
      rw [utf8_byte b (by omega)] at this
      exact this
    · rename_i h1 _ _ _ _ _ hc
      simp only [Escape.isCntrl, decide_eq_true_eq] at hc
      refine Chars.plain b _ _ (by omega) ?_ ?_ ih
      · intro h; exact h1 (.inl h)
      · intro h; exact h1 (.inr h)

/-- The text of a string is that of a JSON string. -/
theorem jsonString_text (s : Str) : Text (jsonString s) (.str s) := .str _ _ (escape_chars s)

theorem jsonString_utf8 {s : Str} (h : Utf8 s) : Utf8 (jsonString s) := by
  have h1 : Utf8 [34] := utf8_ascii (by simp)
  exact utf8_append h1 (utf8_append (escape_utf8 h) h1)

/-! ## Plain texts -/

/-- Printable ASCII without quotes and backslashes. -/
def Plain (s : Str) : Prop := ∀ b ∈ s, 32 ≤ b.toNat ∧ b.toNat < 127 ∧ b ≠ 34 ∧ b ≠ 92

theorem plain_append {a b : Str} (ha : Plain a) (hb : Plain b) : Plain (a ++ b) := by
  intro x hx
  rcases List.mem_append.mp hx with h | h
  · exact ha x h
  · exact hb x h

theorem plain_cons {c : UInt8} {s : Str} (hc : 32 ≤ c.toNat ∧ c.toNat < 127 ∧ c ≠ 34 ∧ c ≠ 92) (hs : Plain s) : Plain (c :: s) := by
  intro x hx
  rcases List.mem_cons.mp hx with rfl | h
  · exact hc
  · exact hs x h

theorem plain_nil : Plain [] := by simp [Plain]

theorem plain_chars {s : Str} (h : Plain s) : Chars s s := by
  induction s with
  | nil => exact .nil
  | cons b s ih =>
    obtain ⟨h1, _, h2, h3⟩ := h b (by simp)
    exact .plain b _ _ h1 h2 h3 (ih fun x hx => h x (by simp [hx]))

theorem plain_escape {s : Str} (h : Plain s) : Escape.escape Escape.jsonEscaper s = s := by
  induction s with
  | nil => rfl
  | cons b s ih =>
    obtain ⟨h1, h4, h2, h3⟩ := h b (by simp)
    have : Escape.jsonEscaper b = [b] :=
      Escape.forall_byte (P := fun b => 32 ≤ b.toNat → b.toNat < 127 → b ≠ 34 → b ≠ 92 → Escape.jsonEscaper b = [b])
        (by decide +kernel) b h1 h4 h2 h3
    rw [Escape.escape, this, ih fun x hx => h x (by simp [hx])]
    rfl

theorem plain_utf8 {s : Str} (h : Plain s) : Utf8 s := utf8_ascii fun b hb => by have := (h b hb).2.1; omega

theorem plain_quoted {s : Str} (h : Plain s) : Text (34 :: (s ++ [34])) (.str s) ∧ Utf8 (34 :: (s ++ [34])) := by
  have h1 : Utf8 [34] := utf8_ascii (by simp)
  exact ⟨.str _ _ (plain_chars h), utf8_append h1 (utf8_append (plain_utf8 h) h1)⟩

theorem plain_digits {ds : List Nat} (h : ∀ d ∈ ds, d < 10) : Plain (digitText ds) := by
  intro b hb
  simp only [digitText, List.mem_map] at hb
  obtain ⟨d, hd, rfl⟩ := hb
  have := h d hd
  have : ∀ d, d < 10 → 32 ≤ (48 + d).toUInt8.toNat ∧ (48 + d).toUInt8.toNat < 127 ∧ (48 + d).toUInt8 ≠ 34 ∧ (48 + d).toUInt8 ≠ 92 := by decide
  exact this d (h d hd)

theorem plain_printNat (n : Nat) : Plain (printNat n) := by
  rw [printNat_eq]; exact plain_digits (digits_lt n)

theorem plain_pad (w n : Nat) : Plain (padNat w n) := by
  refine plain_append ?_ (plain_printNat n)
  intro b hb
  rw [List.eq_of_mem_replicate hb]
  decide

theorem plain_printSub (n : Nat) : Plain (printSub n) := by
  unfold printSub
  repeat' split
  all_goals first | exact plain_nil | exact plain_cons (by decide) (plain_pad _ _)

theorem plain_printTime (t : Int) : Plain (printTime t) := by
  unfold printTime
  simp only
  exact plain_append (plain_append (plain_append (plain_append (plain_append (plain_append (plain_printNat _)
    (plain_cons (by decide) (plain_pad _ _))) (plain_cons (by decide) (plain_pad _ _))) (plain_cons (by decide) (plain_pad _ _)))
    (plain_cons (by decide) (plain_pad _ _))) (plain_cons (by decide) (plain_pad _ _))) (plain_printSub _)

theorem plain_join {sep : Str} (hs : Plain sep) : ∀ {ts : List Str}, (∀ t ∈ ts, Plain t) → Plain (join sep ts)
  | [], _ => plain_nil
  | [t], h => h t (by simp)
  | t :: u :: ts, h => plain_append (plain_append (h t (by simp)) hs) (plain_join hs fun x hx => h x (by simp only [List.mem_cons] at hx ⊢; exact .inr hx))

theorem plain_printHex (n : Nat) (h : n < 65536) : Plain (printHex n) := by
  have hx : ∀ d, d < 16 → 32 ≤ (hexLower d).toNat ∧ (hexLower d).toNat < 127 ∧ hexLower d ≠ 34 ∧ hexLower d ≠ 92 := by decide
  unfold printHex
  repeat' split
  · exact plain_cons (hx _ (by omega)) plain_nil
  · exact plain_cons (hx _ (by omega)) (plain_cons (hx _ (by omega)) plain_nil)
  · exact plain_cons (hx _ (by omega)) (plain_cons (hx _ (by omega)) (plain_cons (hx _ (by omega)) plain_nil))
  · exact plain_cons (hx _ (by omega)) (plain_cons (hx _ (by omega)) (plain_cons (hx _ (by omega)) (plain_cons (hx _ (by omega)) plain_nil)))

theorem plain_ntop4 (bs : List Nat) : Plain (ntop4 bs) := by
  refine plain_join (by intro b hb; simp at hb; subst hb; decide) ?_
  intro t ht
  obtain ⟨n, _, rfl⟩ := List.mem_map.mp ht
  exact plain_printNat n

theorem words_lt : ∀ {bs : List Nat}, (∀ b ∈ bs, b < 256) → ∀ w ∈ wordsOf bs, w < 65536
  | a :: b :: r, h, w, hw => by
    simp only [wordsOf, List.mem_cons] at hw
    rcases hw with rfl | hw
    · have := h a (by simp); have := h b (by simp); omega
    · exact words_lt (fun x hx => h x (by simp [hx])) w hw
  | [], _, w, hw => by simp [wordsOf] at hw
  | [_], _, w, hw => by simp [wordsOf] at hw

theorem plain_ntop6 (bs : List Nat) (h : ∀ b ∈ bs, b < 256) : Plain (ntop6 bs) := by
  have hc : Plain [ch ':'] := by intro b hb; simp at hb; subst hb; decide
  have hcc : Plain [ch ':', ch ':'] := by intro b hb; simp at hb; subst hb; decide
  have hw : ∀ ws : List Nat, (∀ w ∈ ws, w ∈ wordsOf bs) → Plain (join [ch ':'] (ws.map printHex)) := by
    intro ws hws
    refine plain_join hc ?_
    intro t ht
    obtain ⟨n, hn, rfl⟩ := List.mem_map.mp ht
    exact plain_printHex n (words_lt h n (hws n hn))
  unfold ntop6
  split
  · exact hw _ fun w h => h
  split
  · exact plain_append hcc (plain_ntop4 _)
  split
  · exact plain_append (plain_append (plain_append hcc (plain_printHex _ (by omega))) hc) (plain_ntop4 _)
  · exact plain_append (plain_append (hw _ fun w h => List.mem_of_mem_take h) hcc) (hw _ fun w h => List.mem_of_mem_drop h)

theorem plain_printAddr (a : Address.Address) : Plain (printAddr a) := by
  unfold printAddr
  split
  · exact plain_ntop4 _
  · refine plain_ntop6 _ ?_
    intro b hb
    simp only [addrBytes, List.mem_map] at hb
    obtain ⟨x, _, rfl⟩ := hb
    exact x.isLt

theorem plain_printNet (n : Address.Subnet) : Plain (printNet n) :=
  plain_append (plain_append (plain_printAddr _) (by intro b hb; simp at hb; subst hb; decide)) (plain_printNat _)

theorem plain_chars_of {s : Str} (h : s.all (fun b => decide (32 ≤ b.toNat ∧ b.toNat < 127 ∧ b ≠ 34 ∧ b ≠ 92)) = true) : Plain s := by
  intro b hb
  have := List.all_eq_true.mp h b hb
  simpa using this

theorem plain_printReal {D : Nat} {x : Real} {t : Str} (h : Number.printReal D x = some t) : Plain t := by
  have habs : ∀ {y : Rat} {t : Str}, Number.printAbs D y = some t → Plain t := by
    intro y t h
    unfold Number.printAbs at h
    split at h
    · simp only [Option.some.injEq] at h
      subst h
      refine plain_append (plain_printNat _) (plain_cons (by decide) (plain_append ?_ (plain_printNat _)))
      intro b hb
      rw [List.eq_of_mem_replicate hb]
      decide
    · simp at h
  unfold Number.printReal at h
  split at h
  · split at h
    · rw [Option.map_eq_some_iff] at h
      obtain ⟨u, hu, rfl⟩ := h
      exact plain_cons (by decide) (habs hu)
    · exact habs h
  · simp at h

theorem pick_cases (d : Int) : (Number.pick d).2 ∈ [['d'], ['h'], ['m'], ['s'], ['m', 's'], ['u', 's'], ['n', 's']] := by
  rw [Number.pick_eq]
  repeat' split
  all_goals simp

theorem plain_printDuration {d : Int} {t : Str} (h : Number.printDuration d = some t) : Plain t := by
  unfold Number.printDuration at h
  split at h
  · simp at h
  · rw [Option.map_eq_some_iff] at h
    obtain ⟨u, hu, rfl⟩ := h
    refine plain_append (plain_printReal hu) ?_
    have := pick_cases d
    simp only [List.mem_cons, List.not_mem_nil, or_false] at this
    rcases this with h | h | h | h | h | h | h <;> rw [h] <;> exact plain_chars_of (by decide)

end Verif.Json
