import Verif.QueryText.Props
/-!
# C80: nothing else is accepted

The converse of `C80_meaning`: a text that is accepted is one of the grammar, and means what the grammar says.
-/
namespace Verif.QueryText

variable {α : Type}

/-- The operands are read as such where they stand, `rest` being the text behind: the parser of operands takes exactly their texts. -/
def Syn.Reads (g : Grammar α) : Syn α → Text → Prop
  | .leaf t x, rest => g.leaf (t ++ rest) = some (x, rest)
  | .paren _ s w₂, rest => s.Reads g (w₂ ++ [')'] ++ rest)
  | .not _ s, rest => s.Reads g rest
  | .and l w₁ w₂ r, rest => l.Reads g (w₁ ++ g.andTok ++ w₂ ++ r.text g ++ rest) ∧ r.Reads g rest
  | .or l w₁ w₂ r, rest => l.Reads g (w₁ ++ g.orTok ++ w₂ ++ r.text g ++ rest) ∧ r.Reads g rest

/-- The parser of operands takes a part of the text from its beginning. -/
def Prefixes (leaf : Text → Option (E α × Text)) : Prop := ∀ s x r, leaf s = some (x, r) → ∃ t, s = t ++ r

theorem blank_of_space {c : Char} (h : isSpace c = true) : c ∈ [' ', '\t', '\n', Char.ofNat 11, Char.ofNat 12, '\r'] := by
  simp only [isSpace, Bool.or_eq_true, beq_iff_eq] at h
  rcases h with ((((h | h) | h) | h) | h) | h <;> simp [h]

theorem blank_append {a b : Text} (ha : Blank a) (hb : Blank b) : Blank (a ++ b) := by
  intro c hc
  rcases List.mem_append.1 hc with h | h
  · exact ha c h
  · exact hb c h

theorem ws_back (s : Text) : ∃ w, Blank w ∧ s = w ++ ws s := by
  induction s with
  | nil => exact ⟨[], by intro c hc; simp at hc, rfl⟩
  | cons c s ih =>
    by_cases h : isSpace c = true
    · obtain ⟨w, hw, e⟩ := ih
      refine ⟨c :: w, ?_, ?_⟩
      · intro d hd
        rcases List.mem_cons.1 hd with rfl | hd
        · exact blank_of_space h
        · exact hw d hd
      · rw [ws, if_pos h, List.cons_append, ← e]
    · exact ⟨[], by intro c hc; simp at hc, by rw [ws, if_neg h]; rfl⟩

theorem lit_back {t s r : Text} (h : lit t s = some r) : s = t ++ r := by
  induction t generalizing s with
  | nil => simpa [lit] using h
  | cons c t ih =>
    cases s with
    | nil => cases h
    | cons d s =>
      rw [lit] at h
      split at h
      · rename_i e; rw [e, List.cons_append, ← ih h]
      · cases h

/-- What a parser of factors gives. -/
def FactorBack (g : Grammar α) (p : Text → Option (E α × Text)) : Prop :=
  ∀ s x r, p s = some (x, r) →
    ∃ t : Syn α, t.factor = true ∧ t.Wf ∧ s = t.text g ++ r ∧ (∀ v, x.eval v = t.value v) ∧ t.Reads g r

/-- The same without negation. -/
def AtomBack (g : Grammar α) (p : Text → Option (E α × Text)) : Prop :=
  ∀ s x r, p s = some (x, r) →
    ∃ t : Syn α, t.atomic = true ∧ t.Wf ∧ s = t.text g ++ r ∧ (∀ v, x.eval v = t.value v) ∧ t.Reads g r

/-- What a parser of expressions gives: there may be whitespace behind. -/
def ExprBack (g : Grammar α) (p : Text → Option (E α × Text)) : Prop :=
  ∀ s x r, p s = some (x, r) →
    ∃ (t : Syn α) (w : Text), t.Wf ∧ Blank w ∧ s = t.text g ++ w ++ r ∧ (∀ v, x.eval v = t.value v) ∧ t.Reads g (w ++ r)

theorem leaf_back {g : Grammar α} (h : Prefixes g.leaf) : AtomBack g g.leaf := by
  intro s x r hs
  obtain ⟨t, rfl⟩ := h s x r hs
  exact ⟨.leaf t x, rfl, trivial, rfl, fun _ => rfl, hs⟩

theorem parens_back {g : Grammar α} {sub : Text → Option (E α × Text)} (h : ExprBack g sub) : AtomBack g (parens sub) := by
  intro s x r hs
  unfold parens at hs
  split at hs
  · cases hs
  rename_i s1 h1
  split at hs
  · cases hs
  rename_i y s2 h2
  split at hs
  · cases hs
  rename_i s3 h3
  cases hs
  obtain ⟨t, w, ht, hw, e, hv, hr⟩ := h _ _ _ h2
  obtain ⟨w1, hw1, e1⟩ := ws_back s1
  obtain ⟨w2, hw2, e2⟩ := ws_back s2
  have e3 := lit_back h3
  refine ⟨.paren w1 t (w ++ w2), rfl, ⟨hw1, blank_append hw hw2, ht⟩, ?_, hv, ?_⟩
  · rw [lit_back h1, e1, e, e2, e3]
    simp [Syn.text]
  · show t.Reads g (w ++ w2 ++ [')'] ++ r)
    rw [e2, e3] at hr
    simpa using hr

theorem negated_back {g : Grammar α} {p : Text → Option (E α × Text)} (h : AtomBack g p) : FactorBack g (negated g p) := by
  intro s x r hs
  unfold negated at hs
  split at hs
  · cases hs
  rename_i s1 h1
  split at hs
  · cases hs
  rename_i y s2 h2
  cases hs
  obtain ⟨t, ha, ht, e, hv, hr⟩ := h _ _ _ h2
  obtain ⟨w, hw, e1⟩ := ws_back s1
  refine ⟨.not w t, rfl, ⟨hw, ha, ht⟩, ?_, ?_, hr⟩
  · rw [lit_back h1, e1, e]
    simp [Syn.text]
  · intro v; simp only [E.eval, Syn.value, hv]

theorem atom_factor {g : Grammar α} {p : Text → Option (E α × Text)} (h : AtomBack g p) : FactorBack g p := by
  intro s x r hs
  obtain ⟨t, ha, ht, e, hv, hr⟩ := h _ _ _ hs
  refine ⟨t, ?_, ht, e, hv, hr⟩
  cases t <;> simp_all [Syn.atomic, Syn.factor]

theorem group_back {g : Grammar α} (hl : Prefixes g.leaf) {sub : Text → Option (E α × Text)} (h : ExprBack g sub) :
    FactorBack g (group g sub) := by
  have a1 : AtomBack g (if g.leafFirst then g.leaf else parens sub) := by
    split
    · exact leaf_back hl
    · exact parens_back h
  have a2 : AtomBack g (if g.leafFirst then parens sub else g.leaf) := by
    split
    · exact parens_back h
    · exact leaf_back hl
  intro s x r hs
  unfold group at hs
  split at hs
  · rename_i hp; cases hs; exact atom_factor (parens_back h) _ _ _ hp
  split at hs
  · rename_i hp; cases hs; exact negated_back a1 _ _ _ hp
  split at hs
  · rename_i hp; cases hs; exact negated_back a2 _ _ _ hp
  · exact atom_factor (leaf_back hl) _ _ _ hs

/-- A factor behind an expression: AND binds to the last term only. -/
def Syn.extend (s : Syn α) (op : Bool) (w₁ w₂ : Text) (f : Syn α) : Syn α :=
  match op, s with
  | true, s => .or s w₁ w₂ f
  | false, .or l a b t => .or l a b (.and t w₁ w₂ f)
  | false, s => .and s w₁ w₂ f

/-- The values of what is before the last term, and of the last term. -/
def Syn.parts (v : α → Bool) : Syn α → Bool × Bool
  | .or l _ _ t => (l.value v, t.value v)
  | s => (false, s.value v)

theorem parts_value (v : α → Bool) (s : Syn α) : s.value v = ((s.parts v).1 || (s.parts v).2) := by
  cases s <;> simp [Syn.parts, Syn.value]

theorem parts_extend (v : α → Bool) (s : Syn α) (op : Bool) (w₁ w₂ : Text) (f : Syn α) :
    (s.extend op w₁ w₂ f).parts v
      = if op then ((s.parts v).1 || (s.parts v).2, f.value v) else ((s.parts v).1, (s.parts v).2 && f.value v) := by
  cases op
  · cases s <;> simp [Syn.extend, Syn.parts, Syn.value]
  · show (s.value v, f.value v) = _
    rw [parts_value]; rfl

theorem extend_text (g : Grammar α) (s : Syn α) (op : Bool) (w₁ w₂ : Text) (f : Syn α) :
    (s.extend op w₁ w₂ f).text g = s.text g ++ w₁ ++ (if op then g.orTok else g.andTok) ++ w₂ ++ f.text g := by
  cases op
  · cases s <;> simp [Syn.extend, Syn.text]
  · simp [Syn.extend, Syn.text]

theorem factor_term {f : Syn α} (h : f.factor = true) : f.term = true := by
  cases f <;> simp_all [Syn.factor, Syn.term, Syn.atomic]

theorem extend_wf {s : Syn α} (hs : s.Wf) (op : Bool) {w₁ w₂ : Text} (h₁ : Blank w₁) (h₂ : Blank w₂) {f : Syn α} (hf : f.factor = true)
    (hw : f.Wf) : (s.extend op w₁ w₂ f).Wf := by
  cases op
  · cases s with
    | or l a b t => exact ⟨hs.1, hs.2.1, rfl, hs.2.2.2.1, h₁, h₂, hs.2.2.1, hf, hs.2.2.2.2, hw⟩
    | leaf t x => exact ⟨h₁, h₂, rfl, hf, hs, hw⟩
    | paren a t b => exact ⟨h₁, h₂, rfl, hf, hs, hw⟩
    | not a t => exact ⟨h₁, h₂, rfl, hf, hs, hw⟩
    | and l a b t => exact ⟨h₁, h₂, rfl, hf, hs, hw⟩
  · exact ⟨h₁, h₂, factor_term hf, hs, hw⟩

theorem extend_reads {g : Grammar α} {s : Syn α} (op : Bool) {w₁ w₂ : Text} {f : Syn α} {rest : Text}
    (hs : s.Reads g (w₁ ++ (if op then g.orTok else g.andTok) ++ w₂ ++ f.text g ++ rest)) (hf : f.Reads g rest) :
    (s.extend op w₁ w₂ f).Reads g rest := by
  cases op
  · cases s with
    | or l a b t =>
      refine ⟨?_, hs.2, hf⟩
      have := hs.1
      simpa [Syn.text] using this
    | leaf t x => exact ⟨hs, hf⟩
    | paren a t b => exact ⟨hs, hf⟩
    | not a t => exact ⟨hs, hf⟩
    | and l a b t => exact ⟨hs, hf⟩
  · exact ⟨hs, hf⟩

theorem andOr_back {g : Grammar α} {s r : Text} {op : Bool} (h : andOr g s = some (op, r)) : s = (if op then g.orTok else g.andTok) ++ r := by
  unfold andOr at h
  split at h
  · rename_i e; cases h; exact lit_back e
  split at h
  · rename_i e; cases h; exact lit_back e
  · cases h

theorem chain_back {g : Grammar α} {grp : Text → Option (E α × Text)} (h : FactorBack g grp) : ∀ (n : Nat) (s : Text) (acc : Syn α),
    acc.Wf → acc.Reads g s →
    ∃ t : Syn α, t.Wf ∧ acc.text g ++ s = t.text g ++ (chain g grp n s).2 ∧ t.Reads g (chain g grp n s).2
      ∧ ∀ v, t.value v = chainVal (acc.parts v).1 (acc.parts v).2 ((chain g grp n s).1.map fun x => (x.1, x.2.eval v)) := by
  intro n
  induction n with
  | zero => intro s acc hw hr; exact ⟨acc, hw, rfl, hr, fun v => by simp [chain, chainVal, parts_value]⟩
  | succ n ih =>
    intro s acc hw hr
    unfold chain
    split
    · exact ⟨acc, hw, rfl, hr, fun v => by simp [chainVal, parts_value]⟩
    rename_i op r h1
    split
    · exact ⟨acc, hw, rfl, hr, fun v => by simp [chainVal, parts_value]⟩
    rename_i x r2 h2
    obtain ⟨f, hf, hfw, e, hv, hfr⟩ := h _ _ _ h2
    obtain ⟨w1, hw1, e1⟩ := ws_back s
    obtain ⟨w2, hw2, e2⟩ := ws_back r
    have es : s = w1 ++ (if op then g.orTok else g.andTok) ++ w2 ++ f.text g ++ r2 := by
      rw [e1, andOr_back h1, e2, e]; simp
    rw [es] at hr
    obtain ⟨t, ht, et, hrt, hvt⟩ := ih r2 (acc.extend op w1 w2 f) (extend_wf hw op hw1 hw2 hf hfw) (extend_reads op hr hfr)
    refine ⟨t, ht, ?_, hrt, ?_⟩
    · rw [← et, extend_text, es]; simp
    · intro v
      rw [hvt v, parts_extend]
      cases op <;> simp [chainVal, hv]

theorem expr_back {g : Grammar α} (hl : Prefixes g.leaf) : ∀ d, ExprBack g (expr g d) := by
  intro d
  induction d with
  | zero => intro s x r h; cases h
  | succ d ih =>
    intro s x r h
    unfold expr at h
    split at h
    · cases h
    rename_i y r1 h1
    obtain ⟨f, hf, hfw, e, hv, hfr⟩ := group_back hl ih _ _ _ h1
    obtain ⟨t, ht, et, hrt, hvt⟩ := chain_back (group_back hl ih) r1.length r1 f hfw hfr
    simp only [Option.some.injEq, Prod.mk.injEq] at h
    obtain ⟨rfl, rfl⟩ := h
    obtain ⟨w, hw, ew⟩ := ws_back (chain g (group g (expr g d)) r1.length r1).2
    refine ⟨t, w, ht, hw, ?_, ?_, ?_⟩
    · rw [e, et, List.append_assoc, ← ew]
    · intro v
      have : f.parts v = (false, f.value v) := by cases f <;> first | rfl | cases hf
      rw [toExpr_val, hvt v, this, hv]
    · rw [← ew]; exact hrt

theorem parse_back {g : Grammar α} (hl : Prefixes g.leaf) {t : Text} {e : E α} (h : parse g t = some e) :
    ∃ (s : Syn α) (w : Text), s.Wf ∧ Blank w ∧ t = s.text g ++ w ∧ s.Reads g w ∧ ∀ v, e.eval v = s.value v := by
  unfold parse at h
  split at h
  · rename_i x h1
    cases h
    obtain ⟨s, w, hs, hw, e, hv, hr⟩ := expr_back hl _ _ _ _ h1
    exact ⟨s, w, hs, hw, by simpa using e, by simpa using hr, hv⟩
  · cases h

/-- **C80 (nothing else).**  A query that is accepted is a text of the layered grammar, possibly with whitespace at the end, whose
operands are those that the parser of predicates and values reads at their places; and it has the truth value the grammar gives it. -/
theorem C80_only (leaf : Text → Option (E α × Text)) (hl : Prefixes leaf) {t : Text} {e : E α} (h : parse (query leaf) t = some e) :
    ∃ (s : Syn α) (w : Text), s.Wf ∧ Blank w ∧ t = s.text (query leaf) ++ w ∧ s.Reads (query leaf) w ∧ ∀ v, e.eval v = s.value v :=
  parse_back hl h

example : Prefixes letter := by
  intro s x r h
  cases s with
  | nil => cases h
  | cons c s =>
    rw [letter] at h
    split at h
    · cases h; exact ⟨[c], rfl⟩
    · cases h

example : (parse (query letter) "! (a || b) && c ".toList).isSome := by decide

end Verif.QueryText
