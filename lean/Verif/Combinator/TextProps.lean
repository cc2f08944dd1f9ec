import Verif.Combinator.TextSound
/-! # C182: the text that a combined parser stores is the text that it read. -/
namespace Verif.Combinator.Text
open Spec

/-- **C182 (partial).**  A parser that stores its text in an empty string succeeds exactly if its expression says so, stops where it says, and the string then holds exactly the text
that was consumed and not ignored, whatever the value of an uninitialised character; if it fails, it has not moved.  A parser that does not replace text appends to what is there, and
one that leaves texts alone when it fails has not changed it.
Missing: attributes other than characters and texts, and the parsers below, for which this fails. -/
theorem C182_text_partial (p : Parser) (hp : proper p = true) (hτ : p.ty.isSome = true) (junk : Char) (fuel : Nat) (a s : List Char) (b : Bool) (t : List Char) (d : Dest)
    (h : p.run junk fuel s (.str a) = some (b, t, d)) :
    (b = true → ∃ u, (∀ r, Keeps p s r ↔ r = some (t, u)) ∧ (a = [] ∨ replaces p = false → d = .str (a ++ u))) ∧
    (b = false → (∀ r, Keeps p s r ↔ r = none) ∧ t = s ∧ (tidy p = true → d = .str a)) := by
  obtain ⟨τ, hτ⟩ := Option.isSome_iff_exists.mp hτ
  have ⟨h1, h2⟩ := good junk fuel p hp τ hτ s (.str a) b t d (fun h => by cases h) h
  constructor
  · intro hb
    obtain ⟨u, h3, _, h5⟩ := h1 hb
    refine ⟨u, fun r => ⟨fun hr => keeps_unique p s _ _ hr h3, fun hr => hr ▸ h3⟩, fun hc => h5 ?_⟩
    rcases hc with rfl | hc
    · exact .inr fun a e => by cases e; rfl
    · exact .inl hc
  · intro hb
    obtain ⟨h3, h4, h5⟩ := h2 hb
    exact ⟨fun r => ⟨fun hr => keeps_unique p s _ _ hr h3, fun hr => hr ▸ h3⟩, h4, h5⟩

/-- **C182 (partial).**  A parser of one character stores the character that it kept. -/
theorem C182_character_partial (p : Parser) (hp : proper p = true) (hτ : p.ty = some .chr) (junk : Char) (fuel : Nat) (c : Char) (s : List Char) (t : List Char) (d : Dest)
    (h : p.run junk fuel s (.chr c) = some (true, t, d)) : ∃ x, d = .chr x ∧ ∀ r, Keeps p s r ↔ r = some (t, [x]) := by
  obtain ⟨u, h3, h4, h5⟩ := (good junk fuel p hp .chr hτ s (.chr c) true t d (fun _ h => by cases h) h).1 rfl
  obtain ⟨x, rfl⟩ := h4.2 rfl
  exact ⟨x, h5 (.inr fun a e => by cases e), fun r => ⟨fun hr => keeps_unique p s _ _ hr h3, fun hr => hr ▸ h3⟩⟩

/-- **C182 (partial).**  Whether and where a parser stops does not depend on whether its text is stored. -/
theorem C182_unused_partial (p : Parser) (hp : proper p = true) (hτ : p.ty.isSome = true) (junk junk' : Char) (fuel fuel' : Nat) (a s : List Char) (b b' : Bool) (t t' : List Char) (d d' : Dest)
    (h : p.run junk fuel s (.str a) = some (b, t, d)) (h' : p.run junk' fuel' s .unused = some (b', t', d')) : b = b' ∧ t = t' := by
  obtain ⟨τ, hτ⟩ := Option.isSome_iff_exists.mp hτ
  have ⟨h1, h2⟩ := good junk fuel p hp τ hτ s (.str a) b t d (fun h => by cases h) h
  have ⟨h3, h4⟩ := good junk' fuel' p hp τ hτ s .unused b' t' d' (fun h => by cases h) h'
  cases b <;> cases b'
  · exact ⟨rfl, by rw [(h2 rfl).2.1, (h4 rfl).2.1]⟩
  · obtain ⟨u, hu, _⟩ := h3 rfl
    cases keeps_unique p s _ _ hu (h2 rfl).1
  · obtain ⟨u, hu, _⟩ := h1 rfl
    cases keeps_unique p s _ _ hu (h4 rfl).1
  · obtain ⟨u, hu, _⟩ := h1 rfl
    obtain ⟨v, hv, _⟩ := h3 rfl
    have := keeps_unique p s _ _ hu hv
    simp only [Option.some.injEq, Prod.mk.injEq] at this
    exact ⟨rfl, this.1⟩

def alpha : Parser := .sat Char.isAlpha
def digit : Parser := .sat Char.isDigit
def upper : Parser := .sat Char.isUpper
/-- One character. -/
def is (c : Char) : Parser := .sat (· == c)

/-- A key: optional blanks, quotes that are not kept around letters and escaped quotes, an optional dash that is not kept, and a digit without a period behind it. -/
def demo : Parser :=
  .seq (.ignore (.kleene (is ' ')))
    (.seq (.ignore (is '"')) (.seq (.kleene (.choice (.seq (.ignore (is '\\')) (is '"')) (.diff alpha (is 'x'))))
      (.seq (.ignore (is '"')) (.seq (.maybe (.ignore (is '-'))) (.seq digit (.neg (is '.')))))))

example : proper demo = true ∧ demo.ty = some .str ∧ replaces demo = false ∧
    demo.run '?' 20 " \"a\\\"b\"-1!".toList (.str []) = some (true, ['!'], .str "a\"b1".toList) ∧
    demo.run '?' 20 "\"a\"1".toList (.str ['k']) = some (true, [], .str "ka1".toList) ∧
    demo.run '?' 20 "\"x\"".toList (.str []) = some (false, "\"x\"".toList, .str []) ∧
    demo.run '?' 20 " \"a\\\"b\"-1!".toList .unused = some (true, ['!'], .unused) := by
  decide +kernel

example : let p : Parser := .seq (.ignore (is '\'')) (.seq (.choice alpha digit) (.ignore (is '\'')))
    proper p = true ∧ p.ty = some .chr ∧ p.run '?' 20 "'7'.".toList (.chr 'c') = some (true, ['.'], .chr '7') := by
  decide +kernel

/-- **C182 (refuted).**  A choice behind a character, and a text behind a character, replace what was stored: of a letter and a digit only the digit is left. -/
theorem C182_overwritten_refuted (junk : Char) :
    ((Parser.seq alpha (.choice digit upper)).run junk 2 ['a', '1'] (.str []) = some (true, [], .str ['1']) ∧
      Keeps (.seq alpha (.choice digit upper)) ['a', '1'] (some ([], ['a', '1']))) ∧
    ((Parser.seq alpha (.str ['=', '='])).run junk 2 ['a', '=', '='] (.str []) = some (true, [], .str ['=', '=']) ∧
      Keeps (.seq alpha (.str ['=', '='])) ['a', '=', '='] (some ([], ['a', '=', '=']))) := by
  have ha : ∀ s, Keeps alpha ('a' :: s) (some (s, ['a'])) := fun s => .inl ⟨'a', s, rfl, by decide +kernel, rfl⟩
  refine ⟨⟨by rfl, ?_⟩, ⟨by rfl, ?_⟩⟩
  · exact .inl ⟨['1'], ['a'], ha _, .inl ⟨[], ['1'], .inl ⟨([], ['1']), .inl ⟨'1', [], rfl, by decide +kernel, rfl⟩, rfl⟩, rfl⟩⟩
  · exact .inl ⟨['=', '='], ['a'], ha _, .inl ⟨[], ['=', '='], .inl ⟨[], rfl, rfl⟩, rfl⟩⟩

/-- **C182 (refuted).**  An option that is not there leaves what it stored before it failed. -/
theorem C182_residue_refuted (junk : Char) :
    (Parser.maybe (.seq (is 'a') (is 'b'))).run junk 2 ['a', 'c'] (.str []) = some (true, ['a', 'c'], .str ['a']) ∧
      Keeps (.maybe (.seq (is 'a') (is 'b'))) ['a', 'c'] (some (['a', 'c'], [])) := by
  refine ⟨by rfl, .inr ⟨.inl ⟨['c'], ['a'], .inl ⟨'a', ['c'], rfl, by decide +kernel, rfl⟩, .inr ⟨.inr ⟨?_, rfl⟩, rfl⟩⟩, rfl⟩⟩
  intro c t e
  simp only [List.cons.injEq] at e
  rw [← e.1]; decide +kernel

/-- **C182 (refuted).**  A loop over letters and ignored commas stores an uninitialised character for every comma. -/
theorem C182_garbage_refuted (junk : Char) :
    (Parser.kleene (.choice alpha (.ignore (is ',')))).run junk 4 ['a', ','] (.str []) = some (true, [], .str ['a', junk]) ∧
      Keeps (.kleene (.choice alpha (.ignore (is ',')))) ['a', ','] (some ([], ['a'])) := by
  have hn : ∀ (f : Char → Bool), Keeps (.sat f) [] none := fun f => .inr ⟨fun c t e => (by cases e), rfl⟩
  refine ⟨by rfl, 2, [], ['a'], ⟨[','], ['a'], [], ?_, ⟨[], [], [], ?_, ⟨rfl, rfl⟩, rfl⟩, rfl⟩, ?_, rfl⟩
  · exact .inl ⟨_, .inl ⟨'a', [','], rfl, by decide +kernel, rfl⟩, rfl⟩
  · refine .inr ⟨.inr ⟨?_, rfl⟩, .inl ⟨[], [','], .inl ⟨',', [], rfl, by decide +kernel, rfl⟩, rfl⟩⟩
    intro c t e
    simp only [List.cons.injEq] at e
    rw [← e.1]; decide +kernel
  · exact .inr ⟨hn _, .inr ⟨hn _, rfl⟩⟩

end Verif.Combinator.Text
