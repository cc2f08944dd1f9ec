import Verif.QueryText.Lemmas
/-!
# C80: the text of a query
-/
namespace Verif.QueryText

variable {α : Type}

/-- The query language: `&&`, `||` and `!`, over a parser of predicates and values
(libvast/src/concept/parseable/vast/expression.cpp:239-252). -/
def query (leaf : Text → Option (E α × Text)) : Grammar α := ⟨['&', '&'], ['|', '|'], ['!'], leaf, true⟩

theorem query_sane (leaf : Text → Option (E α × Text)) : (query leaf).Sane :=
  ⟨⟨'!', [], rfl, by decide, by decide⟩, ⟨'&', ['&'], rfl, by decide, by decide⟩, ⟨'|', ['|'], rfl, by decide, by decide⟩,
    by simp [query]⟩

/-- **C80.**  A query built from operands with `!`, `&&`, `||`, parentheses and whitespace has the truth value that the
layered grammar gives it: negation binds tightest, then AND, then OR, parentheses override. -/
theorem C80_meaning (leaf : Text → Option (E α × Text)) (s : Syn α) (hs : s.Wf) (w : Text) (hw : Blank w)
    (hr : s.Readable (query leaf) w) :
    ∃ e, parse (query leaf) (s.text (query leaf) ++ w) = some e ∧ ∀ v, e.eval v = s.value v :=
  parse_read _ (query_sane leaf) s w hs hw hr

/-- Operands for the examples: single letters. -/
def letter : Text → Option (E Char × Text)
  | c :: s => if c.isAlpha then some (.leaf c, s) else none
  | [] => none

/-- `a || b && ! (c || d)  ` -/
def someSyn : Syn Char :=
  .or (.leaf ['a'] (.leaf 'a')) [' '] [' ']
    (.and (.leaf ['b'] (.leaf 'b')) [' '] [' ']
      (.not [' '] (.paren [] (.or (.leaf ['c'] (.leaf 'c')) [' '] [] (.leaf ['d'] (.leaf 'd'))) [' '])))

example : someSyn.text (query letter) = "a || b && ! (c ||d )".toList := rfl
example : someSyn.Wf ∧ Blank [' '] ∧ someSyn.Readable (query letter) [' '] := by
  refine ⟨?_, by simp [Blank, isSpace], ?_⟩
  · simp [someSyn, Syn.Wf, Blank, isSpace, Syn.atomic, Syn.factor, Syn.term]
  · simp [someSyn, Syn.Readable, Syn.text, query, letter, lit, ws, isSpace]
example : someSyn.value (fun c => c == 'a' || c == 'c') = true ∧ someSyn.value (fun c => c == 'b') = true
    ∧ someSyn.value (fun c => c == 'b' || c == 'c') = false := by decide

/-! ## Printing and reading again -/

/-- What may follow an operand in a printed expression. -/
def Follow (rest : Text) : Prop := rest = [] ∨ ∃ r, rest = ' ' :: r ∨ rest = ')' :: r

/-- Printing and reading of operands agree. -/
structure LeafOk (leaf : Text → Option (E α × Text)) (pr : α → Text) (a : α) : Prop where
  same : ∀ rest, Follow rest → leaf (pr a ++ rest) = some (.leaf a, rest)
  start : ∃ c t, pr a = c :: t ∧ c ≠ '(' ∧ c ≠ '!' ∧ isSpace c = false

mutual
/-- Connectives have at least two operands and a negation does not follow another. -/
def Printable (leaf : Text → Option (E α × Text)) (pr : α → Text) : E α → Prop
  | .leaf a => LeafOk leaf pr a
  | .conj xs => 2 ≤ xs.length ∧ PrintableAll leaf pr xs
  | .disj xs => 2 ≤ xs.length ∧ PrintableAll leaf pr xs
  | .neg x => (∀ y, x ≠ .neg y) ∧ Printable leaf pr x

/-- All of them are. -/
def PrintableAll (leaf : Text → Option (E α × Text)) (pr : α → Text) : List (E α) → Prop
  | [] => True
  | x :: xs => Printable leaf pr x ∧ PrintableAll leaf pr xs
end

mutual
/-- Nesting. -/
def E.depth : E α → Nat
  | .leaf _ => 0
  | .conj xs => E.depthAll xs + 1
  | .disj xs => E.depthAll xs + 1
  | .neg x => E.depth x

/-- Nesting of a list. -/
def E.depthAll : List (E α) → Nat
  | [] => 0
  | x :: xs => max (E.depth x) (E.depthAll xs)
end

theorem toExpr_and (x y : E α) (ys : List (E α)) :
    toExpr x ((y :: ys).map fun z => (false, z)) = .conj (x :: y :: ys) := by
  have h : ∀ (zs con : List (E α)), toExprLoop [] con (zs.map fun z => (false, z)) = ([], con ++ zs) := by
    intro zs
    induction zs with
    | nil => intro con; simp [toExprLoop]
    | cons z zs ih => intro con; simp [toExprLoop, ih]
  have := h (y :: ys) [x]
  simp only [List.map_cons] at this
  simp [toExpr, this, single]

theorem toExpr_or (x y : E α) (ys : List (E α)) :
    toExpr x ((y :: ys).map fun z => (true, z)) = .disj (x :: y :: ys) := by
  have h : ∀ (zs : List (E α)) (dis : List (E α)) (c : E α), ∃ ds d,
      toExprLoop dis [c] (zs.map fun z => (true, z)) = (ds, [d]) ∧ ds ++ [d] = dis ++ c :: zs := by
    intro zs
    induction zs with
    | nil => intro dis c; exact ⟨dis, c, by simp [toExprLoop], rfl⟩
    | cons z zs ih =>
      intro dis c
      obtain ⟨ds, d, h1, h2⟩ := ih (dis ++ [c]) z
      exact ⟨ds, d, by simpa [toExprLoop, single] using h1, by simpa using h2⟩
  obtain ⟨ds, d, h1, h2⟩ := h (y :: ys) [] x
  simp only [List.map_cons] at h1
  simp only [toExpr, List.map_cons, h1, single, h2, List.nil_append]

section
variable (leaf : Text → Option (E α × Text)) (pr : α → Text)

theorem print_start : ∀ (e : E α), Printable leaf pr e → ∃ c t, print pr e = c :: t ∧ isSpace c = false
  | .leaf a, h => by
    obtain ⟨c, t, h1, _, _, h2⟩ := h.start
    exact ⟨c, t, by simp [print, h1], h2⟩
  | .conj xs, _ => ⟨'(', _, by simp [print]; rfl, by decide⟩
  | .disj xs, _ => ⟨'(', _, by simp [print]; rfl, by decide⟩
  | .neg x, _ => ⟨'!', _, by simp [print]; rfl, by decide⟩

theorem print_ws (e : E α) (h : Printable leaf pr e) (rest : Text) : ws (print pr e ++ rest) = print pr e ++ rest := by
  obtain ⟨c, t, h1, h2⟩ := print_start leaf pr e h
  rw [h1]
  exact ws_cons _ _ h2

/-- The text of an operator. -/
def opText (op : Bool) : Text := if op then [' ', '|', '|', ' '] else [' ', '&', '&', ' ']

theorem follow_more (op : Bool) (xs : List (E α)) (rest : Text) (h : Follow rest) :
    Follow (printMore pr (opText op) xs ++ rest) := by
  cases xs with
  | nil => simpa [printMore] using h
  | cons x xs => cases op <;> exact .inr ⟨_, .inl (by simp [printMore, opText]; rfl)⟩

theorem andOr_op (op : Bool) (s : Text) :
    andOr (query leaf) (ws (opText op ++ s)) = some (op, ' ' :: s) := by
  cases op <;> simp [opText, ws, isSpace, andOr, query, lit]

theorem chain_more (op : Bool) (grp : Text → Option (E α × Text)) (rest : Text) : ∀ (xs : List (E α)) (n : Nat),
    xs.length ≤ n → PrintableAll leaf pr xs →
    (∀ x ∈ xs, ∀ r, Follow r → grp (print pr x ++ r) = some (x, r)) →
    chain (query leaf) grp n (printMore pr (opText op) xs ++ ')' :: rest) = (xs.map fun x => (op, x), ')' :: rest)
  | [], n, _, _, _ => by
    cases n with
    | zero => rfl
    | succ n => simp [chain, printMore, ws, isSpace, andOr, query, lit]
  | x :: xs, 0, h, _, _ => by simp at h
  | x :: xs, n + 1, h, hp, hg => by
    have ih := chain_more op grp rest xs n (by simpa using h) hp.2 fun y hy => hg y (by simp [hy])
    have h2 : ws (' ' :: (print pr x ++ (printMore pr (opText op) xs ++ ')' :: rest)))
        = print pr x ++ (printMore pr (opText op) xs ++ ')' :: rest) := by
      have := ws_blank [' '] (print pr x ++ (printMore pr (opText op) xs ++ ')' :: rest)) (by simp [Blank, isSpace])
      rw [List.singleton_append] at this
      rw [this]
      exact print_ws leaf pr x hp.1 _
    simp only [printMore, chain]
    rw [List.append_assoc, List.append_assoc, andOr_op]
    simp only
    rw [h2, hg x (by simp) _ (follow_more pr op xs _ (.inr ⟨rest, .inr rfl⟩))]
    simp only [ih, List.map_cons]

theorem more_length (op : Bool) (xs : List (E α)) : xs.length ≤ (printMore pr (opText op) xs).length := by
  induction xs with
  | nil => simp
  | cons x xs ih => cases op <;> simp [printMore, opText] at ih ⊢ <;> omega

/-- A printed connective is read by the first alternative of `group`. -/
theorem parens_conn (op : Bool) (d : Nat) (x : E α) (xs : List (E α)) (rest : Text) (hp : PrintableAll leaf pr (x :: xs))
    (hg : ∀ y ∈ x :: xs, ∀ r, Follow r → group (query leaf) (expr (query leaf) d) (print pr y ++ r) = some (y, r)) :
    parens (expr (query leaf) (d + 1)) (['('] ++ (print pr x ++ printMore pr (opText op) xs) ++ [')'] ++ rest)
      = some (toExpr x (xs.map fun x => (op, x)), rest) := by
  simp only [parens, List.cons_append, List.nil_append, lit, if_true, List.append_assoc]
  rw [print_ws leaf pr x hp.1]
  have h1 := hg x (by simp) (printMore pr (opText op) xs ++ ')' :: rest) (follow_more pr op xs _ (.inr ⟨rest, .inr rfl⟩))
  have h2 := chain_more leaf pr op (group (query leaf) (expr (query leaf) d)) rest xs
    (printMore pr (opText op) xs ++ ')' :: rest).length
    (by have := more_length pr op xs; rw [List.length_append]; omega) hp.2 fun y hy => hg y (by simp [hy])
  simp only [expr, h1, h2]
  rw [ws_cons _ _ (by decide), ws_cons _ _ (by decide)]
  simp [lit]

mutual
theorem print_read (hpar : ∀ s, leaf ('(' :: s) = none) : ∀ (e : E α) (d : Nat) (rest : Text), e.depth ≤ d →
    Printable leaf pr e → Follow rest →
    group (query leaf) (expr (query leaf) d) (print pr e ++ rest) = some (e, rest)
      ∧ ((∀ a, e ≠ .leaf a) → (∀ y, e ≠ .neg y) →
        parens (expr (query leaf) d) (print pr e ++ rest) = some (e, rest) ∧ ∃ t, print pr e = '(' :: t)
  | .leaf a, d, rest, _, hp, hf => by
    refine ⟨?_, fun h => absurd rfl (h a)⟩
    obtain ⟨c, t, h1, h2, h3, _⟩ := hp.start
    have h4 := hp.same rest hf
    simp only [print, h1, List.cons_append] at h4 ⊢
    have h5 : parens (expr (query leaf) d) (c :: (t ++ rest)) = none := by
      simp only [parens]; rw [lit_head _ _ (Ne.symm h2)]
    have h6 : ∀ p, negated (query leaf) p (c :: (t ++ rest)) = none := by
      intro p
      simp only [negated, query]; rw [lit_head _ _ (Ne.symm h3)]
    simp only [group, h5, h6]
    exact h4
  | .neg x, d, rest, hd, hp, hf => by
    refine ⟨?_, fun _ h => absurd rfl (h x)⟩
    obtain ⟨h1, h2⟩ := hp
    obtain ⟨hr, hr'⟩ := print_read hpar x d rest hd h2 hf
    have h3 : parens (expr (query leaf) d) (print pr (.neg x) ++ rest) = none := by
      simp [print, parens, lit]
    have h4 : ∀ p, negated (query leaf) p (print pr (.neg x) ++ rest)
        = match p (print pr x ++ rest) with | none => none | some (x, s) => some (.neg x, s) := by
      intro p
      have h5 : ws (' ' :: (print pr x ++ rest)) = print pr x ++ rest := by
        have := ws_blank [' '] (print pr x ++ rest) (by simp [Blank, isSpace])
        rw [List.singleton_append] at this
        rw [this]
        exact print_ws leaf pr x h2 _
      simp only [negated, query, print, List.cons_append, List.nil_append, lit, if_true, h5]
      rfl
    simp only [group, h3, h4]
    have hq : (query leaf).leafFirst = true := rfl
    have hl : (query leaf).leaf = leaf := rfl
    simp only [hq, hl, if_true]
    match x, h1, h2, hr, hr' with
    | .leaf a, _, h2, _, _ => simp only [print, h2.same rest hf]
    | .neg y, h1, _, _, _ => exact absurd rfl (h1 y)
    | .conj xs, _, _, _, hr' =>
      obtain ⟨h6, t, h7⟩ := hr' (by simp) (by simp)
      have : leaf (print pr (.conj xs) ++ rest) = none := by rw [h7]; exact hpar _
      simp only [this, h6]
    | .disj xs, _, _, _, hr' =>
      obtain ⟨h6, t, h7⟩ := hr' (by simp) (by simp)
      have : leaf (print pr (.disj xs) ++ rest) = none := by rw [h7]; exact hpar _
      simp only [this, h6]
  | .conj xs, d, rest, hd, hp, hf => by
    match xs, hp, hd with
    | x :: y :: ys, hp, hd =>
      simp only [E.depth] at hd
      match d, hd with
      | d + 1, hd =>
        have hall := printAll_read hpar (x :: y :: ys) d (by omega) hp.2
        have hc := parens_conn leaf pr false d x (y :: ys) rest hp.2 hall
        rw [toExpr_and] at hc
        have hpr : print pr (.conj (x :: y :: ys)) ++ rest
            = ['('] ++ (print pr x ++ printMore pr (opText false) (y :: ys)) ++ [')'] ++ rest := by
          simp [print, printAll, opText]
        have hres : parens (expr (query leaf) (d + 1)) (print pr (.conj (x :: y :: ys)) ++ rest)
            = some (.conj (x :: y :: ys), rest) := by rw [hpr, hc]
        exact ⟨by simp only [group, hres], fun _ _ => ⟨hres, _, by simp [print]; rfl⟩⟩
  | .disj xs, d, rest, hd, hp, hf => by
    match xs, hp, hd with
    | x :: y :: ys, hp, hd =>
      simp only [E.depth] at hd
      match d, hd with
      | d + 1, hd =>
        have hall := printAll_read hpar (x :: y :: ys) d (by omega) hp.2
        have hc := parens_conn leaf pr true d x (y :: ys) rest hp.2 hall
        rw [toExpr_or] at hc
        have hpr : print pr (.disj (x :: y :: ys)) ++ rest
            = ['('] ++ (print pr x ++ printMore pr (opText true) (y :: ys)) ++ [')'] ++ rest := by
          simp [print, printAll, opText]
        have hres : parens (expr (query leaf) (d + 1)) (print pr (.disj (x :: y :: ys)) ++ rest)
            = some (.disj (x :: y :: ys), rest) := by rw [hpr, hc]
        exact ⟨by simp only [group, hres], fun _ _ => ⟨hres, _, by simp [print]; rfl⟩⟩

theorem printAll_read (hpar : ∀ s, leaf ('(' :: s) = none) : ∀ (xs : List (E α)) (d : Nat), E.depthAll xs ≤ d →
    PrintableAll leaf pr xs → ∀ y ∈ xs, ∀ r, Follow r →
      group (query leaf) (expr (query leaf) d) (print pr y ++ r) = some (y, r)
  | [], _, _, _, y, hy, _, _ => by simp at hy
  | x :: xs, d, hd, hp, y, hy, r, hf => by
    simp only [E.depthAll] at hd
    rcases List.mem_cons.mp hy with h | h
    · rw [h]; exact (print_read hpar x d r (by omega) hp.1 hf).1
    · exact printAll_read hpar xs d (by omega) hp.2 y h r hf
end

mutual
theorem depth_print : ∀ (e : E α), e.depth ≤ (print pr e).length
  | .leaf a => by simp [E.depth]
  | .neg x => by have := depth_print x; simp only [E.depth, print, List.length_append]; omega
  | .conj xs => by
    have := depth_printAll [' ', '&', '&', ' '] xs
    simp only [E.depth, print, List.length_append, List.length_cons]; omega
  | .disj xs => by
    have := depth_printAll [' ', '|', '|', ' '] xs
    simp only [E.depth, print, List.length_append, List.length_cons]; omega

theorem depth_printAll (sep : Text) : ∀ (xs : List (E α)), E.depthAll xs ≤ (printAll pr sep xs).length
  | [] => by simp [E.depthAll]
  | x :: xs => by
    have h1 := depth_print x
    have h2 := depth_printMore sep xs
    simp only [E.depthAll, printAll, List.length_append]; omega

theorem depth_printMore (sep : Text) : ∀ (xs : List (E α)), E.depthAll xs ≤ (printMore pr sep xs).length
  | [] => by simp [E.depthAll]
  | x :: xs => by
    have h1 := depth_print x
    have h2 := depth_printMore sep xs
    simp only [E.depthAll, printMore, List.length_append]; omega
end
end

/-- **C80 (round trip).**  An expression that is printed and read again is the same.

Partial: connectives have at least two operands, a negation does not follow another, and the operands survive being
printed and read. -/
theorem C80_roundtrip_partial (leaf : Text → Option (E α × Text)) (pr : α → Text) (hpar : ∀ s, leaf ('(' :: s) = none)
    (e : E α) (he : Printable leaf pr e) : parse (query leaf) (print pr e) = some e := by
  have h := (print_read leaf pr hpar e (print pr e).length [] (depth_print pr e) he (.inl rfl)).1
  simp only [List.append_nil] at h
  simp only [parse, expr, h, List.length_nil, chain, toExpr, ws]

/-- `! (a && (b || c)) `: an expression that meets the hypotheses. -/
example : Printable letter (fun c => [c]) (.neg (.conj [.leaf 'a', .disj [.leaf 'b', .neg (.leaf 'c')]])) := by
  have h : ∀ c : Char, c.isAlpha = true → c ≠ '(' → c ≠ '!' → isSpace c = false → LeafOk letter (fun c => [c]) c :=
    fun c hc h1 h2 h3 => ⟨fun rest _ => by simp [letter, hc], ⟨c, [], rfl, h1, h2, h3⟩⟩
  simp only [Printable, PrintableAll]
  exact ⟨by simp, by decide, h _ (by decide) (by decide) (by decide) (by decide), ⟨by decide,
    h _ (by decide) (by decide) (by decide) (by decide),
    ⟨by simp, h _ (by decide) (by decide) (by decide) (by decide)⟩, trivial⟩, trivial⟩

/-- **C80 refuted (double negation).**  A negated negation is printed as a text that is not accepted. -/
theorem C80_double_negation_refuted :
    ∃ e : E Char, (∀ v, e.eval v = v 'a') ∧ print (fun c => [c]) e = "! ! a".toList
      ∧ (parse (query letter) (print (fun c => [c]) e)).isNone :=
  ⟨.neg (.neg (.leaf 'a')), by simp [E.eval], rfl, by decide⟩

/-- **C80 refuted (empty connective).**  An empty connective is printed as a text that is not accepted. -/
theorem C80_empty_refuted :
    ∃ e : E Char, print (fun c => [c]) e = "()".toList ∧ (parse (query letter) (print (fun c => [c]) e)).isNone :=
  ⟨.conj [], rfl, by decide⟩

/-- **C80 refuted (leading whitespace).**  Whitespace in front of a query is not accepted, although it is everywhere
else. -/
theorem C80_leading_blank_refuted :
    (parse (query letter) "a ".toList).isSome ∧ (parse (query letter) " a".toList).isNone
      ∧ (parse (query letter) "( a)".toList).isSome := by decide

end Verif.QueryText
