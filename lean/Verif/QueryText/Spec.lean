import Verif.QueryText.Model
/-!
# What the text of an expression means

The usual layered grammar: an expression is a chain of terms joined by OR, a term a chain of factors joined by AND,
a factor an operand or an expression in parentheses, possibly negated.  Whitespace may stand between any two tokens.
-/
namespace Verif.QueryText

variable {α : Type}

/-- The truth value of an expression when each operand has one. -/
def E.eval (v : α → Bool) : E α → Bool
  | .leaf a => v a
  | .conj xs => evalAll xs
  | .disj xs => evalAny xs
  | .neg x => !E.eval v x
where
  /-- all of them -/
  evalAll : List (E α) → Bool
    | [] => true
    | x :: xs => E.eval v x && evalAll xs
  /-- any of them -/
  evalAny : List (E α) → Bool
    | [] => false
    | x :: xs => E.eval v x || evalAny xs

/-- A syntax tree with its whitespace: an operand with its text, parentheses, negation, AND, OR. -/
inductive Syn (α : Type) where
  | leaf (t : Text) (x : E α)
  | paren (w₁ : Text) (s : Syn α) (w₂ : Text)
  | not (w : Text) (s : Syn α)
  | and (l : Syn α) (w₁ w₂ : Text) (r : Syn α)
  | or (l : Syn α) (w₁ w₂ : Text) (r : Syn α)

/-- Only whitespace: blanks, tabs, line feeds, vertical tabs, form feeds and carriage returns. -/
def Blank (w : Text) : Prop := ∀ c ∈ w, c ∈ [' ', '\t', '\n', Char.ofNat 11, Char.ofNat 12, '\r']

theorem Blank.space {w : Text} (h : Blank w) : ∀ c ∈ w, isSpace c = true := by
  intro c hc
  have := h c hc
  simp only [List.mem_cons, List.not_mem_nil, or_false] at this
  rcases this with rfl | rfl | rfl | rfl | rfl | rfl <;> decide

/-- A factor without negation. -/
def Syn.atomic : Syn α → Bool
  | .leaf .. => true
  | .paren .. => true
  | _ => false

/-- A factor. -/
def Syn.factor : Syn α → Bool
  | .not .. => true
  | s => s.atomic

/-- A term. -/
def Syn.term : Syn α → Bool
  | .and .. => true
  | s => s.factor

/-- The tree is one of the layered grammar. -/
def Syn.Wf : Syn α → Prop
  | .leaf .. => True
  | .paren w₁ s w₂ => Blank w₁ ∧ Blank w₂ ∧ s.Wf
  | .not w s => Blank w ∧ s.atomic = true ∧ s.Wf
  | .and l w₁ w₂ r => Blank w₁ ∧ Blank w₂ ∧ l.term = true ∧ r.factor = true ∧ l.Wf ∧ r.Wf
  | .or l w₁ w₂ r => Blank w₁ ∧ Blank w₂ ∧ r.term = true ∧ l.Wf ∧ r.Wf

/-- Its text. -/
def Syn.text (g : Grammar α) : Syn α → Text
  | .leaf t _ => t
  | .paren w₁ s w₂ => ['('] ++ w₁ ++ s.text g ++ w₂ ++ [')']
  | .not w s => g.notTok ++ w ++ s.text g
  | .and l w₁ w₂ r => l.text g ++ w₁ ++ g.andTok ++ w₂ ++ r.text g
  | .or l w₁ w₂ r => l.text g ++ w₁ ++ g.orTok ++ w₂ ++ r.text g

/-- Its meaning. -/
def Syn.value (v : α → Bool) : Syn α → Bool
  | .leaf _ x => x.eval v
  | .paren _ s _ => s.value v
  | .not _ s => !s.value v
  | .and l _ _ r => l.value v && r.value v
  | .or l _ _ r => l.value v || r.value v

/-- The operands are read as such where they stand, `rest` being the text behind: each starts with neither a
parenthesis nor the negation nor a blank, and its parser takes exactly its text. -/
def Syn.Readable (g : Grammar α) : Syn α → Text → Prop
  | .leaf t x, rest => g.leaf (t ++ rest) = some (x, rest) ∧ lit ['('] (t ++ rest) = none
      ∧ lit g.notTok (t ++ rest) = none ∧ ws (t ++ rest) = t ++ rest
  | .paren _ s w₂, rest => s.Readable g (w₂ ++ [')'] ++ rest)
  | .not w s, rest => s.Readable g rest
      ∧ (g.leafFirst = true → ∀ w₁ s' w₂, s = .paren w₁ s' w₂ → g.leaf (s.text g ++ rest) = none)
  | .and l w₁ w₂ r, rest => l.Readable g (w₁ ++ g.andTok ++ w₂ ++ r.text g ++ rest) ∧ r.Readable g rest
  | .or l w₁ w₂ r, rest => l.Readable g (w₁ ++ g.orTok ++ w₂ ++ r.text g ++ rest) ∧ r.Readable g rest

/-- The tokens do not get into each other's way. -/
structure Grammar.Sane (g : Grammar α) : Prop where
  notTok : ∃ c t, g.notTok = c :: t ∧ c ≠ '(' ∧ isSpace c = false
  andTok : ∃ c t, g.andTok = c :: t ∧ c ≠ ')' ∧ isSpace c = false
  orTok : ∃ c t, g.orTok = c :: t ∧ c ≠ ')' ∧ isSpace c = false
  differ : g.orTok.head? ≠ g.andTok.head?

end Verif.QueryText
