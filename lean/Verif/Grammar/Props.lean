import Verif.Grammar.Total
/-! # C183: recursive grammars accept what they say.  C184: parsing with them ends. -/
namespace Verif.Grammar
open Spec

/-- **C183 (partial).**  A parser of a recursive grammar ends with an answer exactly if the grammar gives this answer: it succeeds and stops at the same character, or fails and has not moved.
Missing: guards and `skip`, about which see C180; attributes. -/
theorem C183_meaning_partial {α : Type} (G : Nat → Parser α) (p : Parser α) (s : List α) (b : Bool) (t : List α) :
    (∃ n, p.run G n s = some (b, t)) ↔ (b = true ∧ Accepts G p s (some t)) ∨ (b = false ∧ t = s ∧ Accepts G p s none) := by
  constructor
  · rintro ⟨n, h⟩
    obtain ⟨r, h1, h2⟩ := sound G n p s _ h
    cases r with
    | some u => cases h2; exact .inl ⟨rfl, h1⟩
    | none => cases h2; exact .inr ⟨rfl, rfl, h1⟩
  · rintro (⟨rfl, h⟩ | ⟨rfl, rfl, h⟩)
    · exact complete G h
    · exact complete G h

/-- **C183.**  There is at most one answer. -/
theorem C183_unique {α : Type} (G : Nat → Parser α) (p : Parser α) (s : List α) (r r' : Option (List α)) (h : Accepts G p s r) (h' : Accepts G p s r') : r = r' := by
  obtain ⟨n, h⟩ := complete G h
  obtain ⟨m, h'⟩ := complete G h'
  have := run_unique G h h'
  cases r <;> cases r' <;> simp_all [answer]

/-- **C184 (partial).**  If no rule can come back to itself before anything is consumed, and loops are about parsers that consume something, parsing ends for every input.
Missing: other grammars, for which this fails. -/
theorem C184_ends_partial {α : Type} (G : Nat → Parser α) (hG : WellFormed G) (i : Nat) (s : List α) : ∃ n b t, (Parser.rule i).run G n s = some (b, t) ∧ t.length ≤ s.length := by
  obtain ⟨c, rank, hG⟩ := hG
  obtain ⟨r, h⟩ := total hG s.length (.rule i) trivial s rfl
  obtain ⟨n, hn⟩ := complete G h
  cases r with
  | none => exact ⟨n, false, s, hn, Nat.le_refl _⟩
  | some t => exact ⟨n, true, t, hn, (shrink hG h trivial t rfl).1⟩

theorem strip_length : ∀ (w s t : List Char), strip w s = some t → s.length = w.length + t.length
  | [], s, t, h => by cases h; simp
  | _ :: _, [], t, h => by cases h
  | a :: w, b :: s, t, h => by
    rw [strip] at h
    split at h
    · have := strip_length w s t h
      simp only [List.length_cons]; omega
    · cases h

theorem lit_bounded (c : Nat → Prop) (w : String) : Bounded c (lit w) := fun s t h => by have := strip_length _ _ _ h; omega

theorem lit_consumes (c : Nat → Prop) (w : String) (hw : w.toList ≠ []) : Consumes c (lit w) := fun s t h => by
  have := strip_length _ _ _ h
  have := List.length_pos_iff.mpr hw
  omega

theorem sat_consumes (c : Nat → Prop) (f : Char → Bool) : Consumes c (sat f) := fun s t h => by
  cases s with
  | nil => cases h
  | cons a s =>
    simp only at h
    split at h
    · cases h; simp
    · cases h

theorem ws_bounded (c : Nat → Prop) : Bounded c ws := ⟨fun s t h => Nat.le_of_lt (sat_consumes c isSpace s t h), sat_consumes c isSpace⟩

theorem eoi_bounded (c : Nat → Prop) : Bounded c eoi := fun s t h => by
  simp only at h
  split at h
  · cases h; exact Nat.le_refl _
  · cases h

theorem query_sane (f : List Char → Option (List Char)) (hf : ∀ s t, f s = some t → t.length ≤ s.length) :
    Sane (query (.leaf f)) (fun _ => False) (fun i => if i = 0 then 1 else 0) := by
  have b := lit_bounded fun _ => False
  have k := lit_consumes fun _ => False
  have w := ws_bounded fun _ => False
  intro i
  refine ⟨fun h => h.elim, ?_, ?_⟩
  · cases i with
    | zero => exact ⟨trivial, ⟨⟨w, ⟨b _, b _⟩, w, trivial⟩, .inr (.inl ⟨k _ (by decide), k _ (by decide)⟩)⟩, w⟩
    | succ i => exact ⟨⟨b _, w, trivial, w, b _⟩, ⟨b _, w, hf⟩, ⟨b _, w, b _, w, trivial, w, b _⟩, hf⟩
  · intro j h
    have hw : ∀ j, ¬ Left (fun _ => False) j ws := fun _ h => h
    cases i with
    | zero =>
      rcases h with h | ⟨_, h | ⟨_, h⟩⟩
      · cases h; decide
      · rcases h with h | ⟨_, h | ⟨h, _⟩⟩
        · exact (hw _ h).elim
        · rcases h with h | h <;> exact h.elim
        · exact absurd ⟨k _ (by decide), k _ (by decide)⟩ h
      · exact (hw _ h).elim
    | succ i =>
      exfalso
      rcases h with h | h | h | h
      · rcases h with h | ⟨h, _⟩
        · exact h
        · exact h (k _ (by decide))
      · rcases h with h | ⟨h, _⟩
        · exact h
        · exact h (k _ (by decide))
      · rcases h with h | ⟨h, _⟩
        · exact h
        · exact h (k _ (by decide))
      · exact h

/-- **C184.**  Parsing a query ends for every text, whatever texts are predicates. -/
theorem C184_query (f : List Char → Option (List Char)) (hf : ∀ s t, f s = some t → t.length ≤ s.length) (s : List Char) :
    ∃ n b t, (Parser.seq (.rule 0) eoi).run (query (.leaf f)) n s = some (b, t) := by
  obtain ⟨r, h⟩ := total (query_sane f hf) s.length (.seq (.rule 0) eoi) ⟨trivial, eoi_bounded _⟩ s rfl
  obtain ⟨n, hn⟩ := complete _ h
  exact ⟨n, _, _, hn⟩

theorem sigma_sane (f : List Char → Option (List Char)) (hf : ∀ s t, f s = some t → t.length ≤ s.length) :
    Sane (sigma (.leaf f)) (fun _ => False) (fun i => if i = 0 then 1 else 0) := by
  have b := lit_bounded fun _ => False
  have k := lit_consumes fun _ => False
  have w := ws_bounded fun _ => False
  intro i
  refine ⟨fun h => h.elim, ?_, ?_⟩
  · cases i with
    | zero => exact ⟨trivial, ⟨⟨w, ⟨b _, b _⟩, w, trivial⟩, .inr (.inl ⟨k _ (by decide), k _ (by decide)⟩)⟩, w⟩
    | succ i => exact ⟨⟨b _, w, trivial, w, b _⟩, ⟨b _, w, b _, w, trivial, w, b _⟩, ⟨b _, w, hf⟩, hf⟩
  · intro j h
    have hw : ∀ j, ¬ Left (fun _ => False) j ws := fun _ h => h
    cases i with
    | zero =>
      rcases h with h | ⟨_, h | ⟨_, h⟩⟩
      · cases h; decide
      · rcases h with h | ⟨_, h | ⟨h, _⟩⟩
        · exact (hw _ h).elim
        · rcases h with h | h <;> exact h.elim
        · exact absurd ⟨k _ (by decide), k _ (by decide)⟩ h
      · exact (hw _ h).elim
    | succ i =>
      exfalso
      rcases h with h | h | h | h
      · rcases h with h | ⟨h, _⟩
        · exact h
        · exact h (k _ (by decide))
      · rcases h with h | ⟨h, _⟩
        · exact h
        · exact h (k _ (by decide))
      · rcases h with h | ⟨h, _⟩
        · exact h
        · exact h (k _ (by decide))
      · exact h

/-- **C184.**  Parsing the condition of a Sigma rule ends for every text, whatever the names of searches are. -/
theorem C184_sigma (f : List Char → Option (List Char)) (hf : ∀ s t, f s = some t → t.length ≤ s.length) (s : List Char) :
    ∃ n b t, (Parser.seq (.rule 0) eoi).run (sigma (.leaf f)) n s = some (b, t) := by
  obtain ⟨r, h⟩ := total (sigma_sane f hf) s.length (.seq (.rule 0) eoi) ⟨trivial, eoi_bounded _⟩ s rfl
  obtain ⟨n, hn⟩ := complete _ h
  exact ⟨n, _, _, hn⟩

theorem datum_sane (f g : List Char → Option (List Char)) (hf : ∀ s t, f s = some t → t.length ≤ s.length) (hg : ∀ s t, g s = some t → t.length ≤ s.length) :
    Sane (datum (.leaf f) (.leaf g)) (fun _ => False) (fun _ => 0) := by
  have b := lit_bounded fun _ => False
  have k := lit_consumes fun _ => False
  have w := ws_bounded fun _ => False
  have v : Bounded (fun _ => False) value := ⟨w, trivial, w⟩
  have m : Bounded (fun _ => False) comma := ⟨b _, w⟩
  have sep : Consumes (fun _ => False) (lit ",") := k _ (by decide)
  intro i
  refine ⟨fun h => h.elim, ?_, ?_⟩
  · exact ⟨hf, ⟨b _, ⟨v, b _, .inr sep⟩, m, b _⟩, ⟨b _, ⟨⟨v, b _, v⟩, b _, .inr sep⟩, m, b _⟩,
      ⟨⟨b _, ⟨⟨w, hg, b _, v⟩, b _, .inr sep⟩, m, b _⟩, ⟨b _, ⟨v, b _, .inr sep⟩, m, b _⟩⟩, b _, b _⟩
  · intro j h
    exfalso
    have no : ∀ (x : String) (q : Parser Char), x.toList ≠ [] → ¬ Left (fun _ => False) j (lit x ⟫ q) := by
      intro x q hx h
      rcases h with h | ⟨h, _⟩
      · exact h
      · exact h (k _ hx)
    rcases h with h | h | h | (h | h) | h | h
    · exact h
    · exact no _ _ (by decide) h
    · exact no _ _ (by decide) h
    · exact no _ _ (by decide) h
    · exact no _ _ (by decide) h
    · exact h
    · exact h

/-- **C184.**  Parsing data ends for every text, whatever texts are scalars and identifiers. -/
theorem C184_data (f g : List Char → Option (List Char)) (hf : ∀ s t, f s = some t → t.length ≤ s.length) (hg : ∀ s t, g s = some t → t.length ≤ s.length) (s : List Char) :
    ∃ n b t, (Parser.rule 0).run (datum (.leaf f) (.leaf g)) n s = some (b, t) := by
  obtain ⟨r, h⟩ := total (datum_sane f g hf hg) s.length (.rule 0) trivial s rfl
  obtain ⟨n, hn⟩ := complete _ h
  exact ⟨n, _, _, hn⟩

/-- A digit. -/
def digit (s : List Char) : Option (List Char) := match s with
  | c :: t => if c.isDigit then some t else none
  | [] => none

theorem digit_shrinks (s t : List Char) (h : digit s = some t) : t.length ≤ s.length := Nat.le_of_lt (sat_consumes (fun _ => False) Char.isDigit s t h)

example : WellFormed (query (.leaf digit)) := ⟨_, _, query_sane digit digit_shrinks⟩

example : (Parser.seq (.rule 0) eoi).run (query (.leaf digit)) 60 "!(1 && (2||!3)) ".toList = some (true, []) ∧
    (Parser.seq (.rule 0) eoi).run (query (.leaf digit)) 60 "!(1 && (2||!3) ".toList = some (false, "!(1 && (2||!3) ".toList) := by decide +kernel

example : (Parser.rule 0).run (datum (.leaf digit) (.leaf digit)) 60 "[1, {2->[], nil -> <1: _, 2: 3,>}, <4, []>,] x".toList = some (true, " x".toList) ∧
    (Parser.rule 0).run (datum (.leaf digit) (.leaf digit)) 60 "[1,,]".toList = some (false, "[1,,]".toList) := by decide +kernel

/-- **C184 (refuted).**  A rule that begins with itself never ends, whatever the input. -/
theorem C184_left_recursion_refuted {α : Type} (G : Nat → Parser α) (i : Nat) (q r : Parser α) (h : G i = .choice (.seq (.rule i) q) r) (s : List α) :
    (∀ n, (Parser.rule i).run G n s = none) ∧ ∀ x, ¬ Accepts G (.rule i) s x := by
  have hn : ∀ n, (Parser.rule i).run G n s = none := by
    intro n
    induction n using Nat.strongRecOn with
    | ind n ih =>
      match n with
      | 0 => rfl
      | 1 => rfl
      | 2 => rw [Parser.run, h]; rfl
      | n + 3 =>
        rw [Parser.run, h, Parser.run, Parser.run, ih n (by omega)]; rfl
  refine ⟨hn, fun x hx => ?_⟩
  obtain ⟨n, h'⟩ := complete G hx
  rw [hn n] at h'
  cases h'

example : (Parser.rule 0).run (types ws identifier (lit "count") (.leaf fun _ => none) (.opt (lit "#x")) identifier) 60 "record{a: list<count>, b: foo +> bar - x}#x;".toList = some (true, [';']) := by
  decide +kernel

/-- **C184 (refuted).**  Parsing a type does not end if the text is empty or begins with no character of a name: the grammar of types is recursive on the left. -/
theorem C184_type_refuted (skp fieldName basic enumeration attributes qualified : Parser Char) (s : List Char) (hs : ∀ c t, s = c :: t → isName c = false) (n : Nat) :
    (Parser.rule 0).run (types skp fieldName basic enumeration attributes qualified) n s = none := by
  have hname : ∀ n x, identifier.run (types skp fieldName basic enumeration attributes qualified) n s = some x → x = (false, s) := by
    intro n x h
    match n with
    | 0 => cases h
    | 1 => cases h
    | n + 2 =>
      have e : (sat isName).run (types skp fieldName basic enumeration attributes qualified) (n + 1) s = some (false, s) := by
        cases s with
        | nil => rfl
        | cons c t => simp [sat, Parser.run, hs c t rfl]
      rw [identifier, Parser.run, e] at h
      cases h; rfl
  have hrec : ∀ n x, (recordType skp fieldName).run (types skp fieldName basic enumeration attributes qualified) n s = some x → x = (false, s) := by
    intro n x h
    match n with
    | 0 => cases h
    | 1 => cases h
    | n + 2 =>
      have e : (lit "record").run (types skp fieldName basic enumeration attributes qualified) (n + 1) s = some (false, s) := by
        cases s with
        | nil => rfl
        | cons c t =>
          have : c ≠ 'r' := by rintro rfl; exact absurd (hs _ t rfl) (by decide)
          have e2 : strip "record".toList (c :: t) = none := by
            show strip ('r' :: "ecord".toList) (c :: t) = none
            rw [strip, if_neg (Ne.symm this)]
          simp only [lit, Parser.run, e2]
      rw [recordType, Parser.run, e] at h
      cases h; rfl
  have hexpr : ∀ n, (Parser.rule 1).run (types skp fieldName basic enumeration attributes qualified) n s = none := by
    intro n
    induction n using Nat.strongRecOn with
    | ind n ih =>
      match n with
      | 0 => rfl
      | 1 => rfl
      | 2 => rfl
      | n + 3 =>
        show on ((operand skp fieldName).run _ (n + 1) s) _ _ = none
        have : (operand skp fieldName).run (types skp fieldName basic enumeration attributes qualified) (n + 1) s = none := by
          show on ((recordType skp fieldName ∣∣ identifier).run _ n s) _ _ = none
          cases e : (recordType skp fieldName ∣∣ identifier).run (types skp fieldName basic enumeration attributes qualified) n s with
          | none => rfl
          | some x =>
            have hx : x = (false, s) := by
              cases n with
              | zero => cases e
              | succ n =>
                rcases on_some e with ⟨t, h1, h2⟩ | ⟨t, h1, h2⟩
                · cases hrec _ _ h1
                · rcases on_some h2 with ⟨u, h3, h4⟩ | ⟨u, h3, h4⟩
                  · cases hname _ _ h3
                  · cases h4; rfl
            rw [hx]
            show on ((Parser.rule 1).run _ n s) _ _ = none
            rw [ih n (by omega)]; rfl
        rw [this]; rfl
  match n with
  | 0 => rfl
  | 1 => rfl
  | 2 => rfl
  | n + 3 =>
    show on (on ((Parser.rule 1).run _ n s) _ _) _ _ = none
    rw [hexpr n]; rfl

end Verif.Grammar
