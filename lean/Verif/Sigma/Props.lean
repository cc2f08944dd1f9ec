import Verif.Sigma.Lemmas
/-!
# C81 and C82: Sigma rules
-/
namespace Verif.Sigma
open Verif.QueryText

variable {α : Type}

/-! ## C81: search identifiers -/

/-- **C81.**  A search identifier is accepted exactly if it has the form Sigma prescribes. -/
theorem C81_accepted (y : Y) : (∃ e, parseSearchId y = some e) ↔ y.wellFormed = true := by
  rw [← search_some, Option.isSome_iff_exists]

/-- **C81.**  An accepted search identifier means what Sigma says: a map that all of its entries hold, a list of maps
that one of them holds, a list of values that one of them matches, or all of them with the modifier `all`.  `v` is the
truth of predicates. -/
theorem C81_search (y : Y) (e : E Pred) (h : parseSearchId y = some e) (v : Pred → Bool) :
    e.eval v = y.holds fun k x => (makePredicate k x).elim false v :=
  search_holds v y e h

/-- A search identifier for the examples: a map of a list, a list with `all`, and a scalar. -/
def someId : Y :=
  .map [(⟨['a'], []⟩, .list [.str ['x'], .str ['y']]), (⟨['b'], [.contains, .all]⟩, .list [.str ['u'], .str ['v']]),
    (⟨['c'], []⟩, .scalar 3)]

example : someId.wellFormed = true := by decide
example : parseSearchId someId = some (.conj [
    .disj [.leaf ⟨['a'], .equal, .str ['x']⟩, .leaf ⟨['a'], .equal, .str ['y']⟩],
    .conj [.leaf ⟨['b'], .ni, .str ['u']⟩, .leaf ⟨['b'], .ni, .str ['v']⟩],
    .leaf ⟨['c'], .equal, .scalar 3⟩]) := rfl
example : (Y.list [.str ['x']]).wellFormed = false := by decide

/-- **C81.**  *Partial.*  A text without special characters matches the texts equal to it, and with `contains` those
that contain it.  What is missing, see below: letters of either case, `startswith` and `endswith`, and special
characters. -/
theorem C81_value_partial (rx : Text → Text → Bool) (field s : Text) (hs : NoWildcards s) (x : Text) :
    (∃ p, makePredicate ⟨field, []⟩ (.str s) = some p ∧ p.field = field ∧ (strHolds rx p x = true ↔ x = s))
    ∧ (∃ p, makePredicate ⟨field, [.contains]⟩ (.str s) = some p ∧ p.field = field
        ∧ (strHolds rx p x = true ↔ ∃ a b, x = a ++ s ++ b)) := by
  have h := patternLoop_plain s hs
  have hni : (decide (s <:+: x) = true) ↔ ∃ a b, x = a ++ s ++ b := by
    rw [decide_eq_true_eq]
    exact ⟨fun ⟨a, b, h⟩ => ⟨a, b, h.symm⟩, fun ⟨a, b, h⟩ => ⟨a, b, h.symm⟩⟩
  constructor
  · refine ⟨⟨field, .equal, .str s⟩, ?_, rfl, by simp [strHolds]⟩
    simp [makePredicate, makePattern, h, opOf]
  · refine ⟨⟨field, .ni, .str s⟩, ?_, rfl, hni⟩
    simp [makePredicate, makePattern, h, opOf]

example : NoWildcards "cmd.exe".toList := by unfold NoWildcards; decide

/-- **C81, refuted.**  `startswith` and `endswith` match texts that contain the value elsewhere. -/
theorem C81_startswith_refuted : ∃ p q, makePredicate ⟨['f'], [.startswith]⟩ (.str "b".toList) = some p
    ∧ makePredicate ⟨['f'], [.endswith]⟩ (.str "b".toList) = some q
    ∧ ∀ rx, strHolds rx p "abc".toList = true ∧ strHolds rx q "abc".toList = true :=
  ⟨⟨['f'], .ni, .str ['b']⟩, ⟨['f'], .ni, .str ['b']⟩, rfl, rfl, fun _ =>
    have h : ['b'] <:+: "abc".toList := ⟨['a'], ['c'], rfl⟩
    ⟨by simpa [strHolds] using h, by simpa [strHolds] using h⟩⟩

/-- **C81, refuted.**  A value with a wildcard loses its modifier: `contains` becomes a match of the whole text by an
expression that says nothing of what surrounds it. -/
theorem C81_contains_wildcard_refuted :
    makePredicate ⟨['f'], [.contains]⟩ (.str "a*b".toList) = makePredicate ⟨['f'], []⟩ (.str "a*b".toList)
    ∧ makePredicate ⟨['f'], [.contains]⟩ (.str "a*b".toList) = some ⟨['f'], .match, .pattern "a.*b".toList⟩ :=
  ⟨rfl, rfl⟩

/-- **C81, refuted.**  In a value with a wildcard the characters that are special in regular expressions only are not
escaped: the dot of `a.b*` stays a dot, and so do the parentheses of `f(*)`. -/
theorem C81_escape_refuted :
    makePredicate ⟨['f'], []⟩ (.str "a.b*".toList) = some ⟨['f'], .match, .pattern "a.b.*".toList⟩
    ∧ makePredicate ⟨['f'], []⟩ (.str "f(*)".toList) = some ⟨['f'], .match, .pattern "f(.*)".toList⟩ :=
  ⟨rfl, rfl⟩

/-- **C81, refuted.**  An escaped wildcard becomes a bare one, which repeats the character before it. -/
theorem C81_escaped_wildcard_refuted :
    makePredicate ⟨['f'], []⟩ (.str "a\\*".toList) = some ⟨['f'], .match, .pattern "a*".toList⟩ := rfl

/-- **C81, refuted.**  Values are compared with regard to case. -/
theorem C81_case_refuted : ∃ p, makePredicate ⟨['f'], []⟩ (.str "CMD".toList) = some p
    ∧ ∀ rx, strHolds rx p "cmd".toList = false :=
  ⟨⟨['f'], .equal, .str "CMD".toList⟩, rfl, fun _ => by simp [strHolds]⟩

/-! ## C82: conditions -/

/-- **C82.**  *Partial.*  A condition over plain identifiers, built with `not`, `and`, `or`, parentheses, `all of` and
`1 of` identifiers or `them`, has the truth value Sigma gives it: quantifiers bind tightest, then `not`, `and`, `or`.
`find` is the search of a regular expression, of which only that `.*` is found everywhere is assumed.  What is missing,
see below: patterns with wildcards, and identifiers that are not plain. -/
theorem C82_condition_partial (find : Text → Text → Bool) (hfind : ∀ n, find ['*'] n = true) (tbl : Table α)
    (ht : PlainTable tbl) (s : Syn α) (hs : s.Wf) (hsp : Spaced s) (ho : Operands tbl s) (w : Text) (hw : Blank w) :
    ∃ e, parse (condition find tbl) (s.text (condition find tbl) ++ w) = some e ∧ ∀ v, e.eval v = s.value v := by
  have hf : Follow w := by
    cases w with
    | nil => exact .inl rfl
    | cons c w => exact .inr ⟨c, w, rfl, .inl (hw.space c (by simp))⟩
  obtain ⟨h1, h2⟩ := condition_readable find hfind tbl ht s w hs hsp ho hf
  obtain ⟨e, h3, h4⟩ := parse_read _ (condition_sane find tbl) _ w (mapLeaf_wf _ s hs) hw h1
  rw [mapLeaf_text] at h3
  exact ⟨e, h3, fun v => by rw [h4 v, h2 v]⟩

/-- Two identifiers. -/
def someTable : Table Char := [("sel".toList, .disj [.leaf 'a', .leaf 'b']), ("flt".toList, .leaf 'c')]

/-- `(all of sel or 1 of them) and not flt` -/
def someCondition : Syn Char :=
  .and (.paren [] (.or (.leaf "all of sel".toList (.conj [.leaf 'a', .leaf 'b'])) [' '] [' ']
      (.leaf "1 of them".toList (.disj [.disj [.leaf 'a', .leaf 'b'], .leaf 'c']))) []) [' '] [' ']
    (.not [' '] (.leaf "flt".toList (.leaf 'c')))

example (find : Text → Text → Bool) :
    someCondition.text (condition find someTable) = "(all of sel or 1 of them) and not flt".toList := rfl
example : PlainTable someTable := by
  refine ⟨?_, by decide⟩
  intro k hk
  simp only [someTable, List.mem_cons, List.not_mem_nil, or_false] at hk
  rcases hk with rfl | rfl <;> exact ⟨by decide, by decide, by decide, by decide, by decide, by decide⟩
example : someCondition.Wf ∧ Spaced someCondition ∧ Operands someTable someCondition := by
  refine ⟨?_, ?_, ?_⟩
  · simp [someCondition, Syn.Wf, Blank, isSpace, Syn.atomic, Syn.factor, Syn.term]
  · simp [someCondition, Spaced]
  · exact ⟨⟨.allOf [' '] "sel".toList (.disj [.leaf 'a', .leaf 'b']) (by simp [Blank, isSpace]) (by simp [someTable]),
      .oneThem [' '] (by simp [Blank, isSpace])⟩, .name _ _ (by simp [someTable])⟩

/-- The table has the parsed search identifiers under their names. -/
theorem parseTable_some (ids : List (Text × Y)) (tbl : Table Pred)
    (hi : ids.map (fun i => (i.1, parseSearchId i.2)) = tbl.map fun i => (i.1, some i.2)) : parseTable ids = some tbl := by
  induction ids generalizing tbl with
  | nil => cases tbl with
    | nil => rfl
    | cons t tbl => simp at hi
  | cons x xs ih => cases tbl with
    | nil => simp at hi
    | cons t tbl =>
      obtain ⟨k, y⟩ := x
      obtain ⟨k', e⟩ := t
      simp only [List.map_cons, List.cons.injEq, Prod.mk.injEq] at hi
      obtain ⟨⟨rfl, he⟩, hi⟩ := hi
      simp only [parseTable, he, ih tbl hi]

/-- **C82.**  A whole rule: if the search identifiers are accepted, the rule is what its condition says of them. -/
theorem C82_rule_partial (find : Text → Text → Bool) (hfind : ∀ n, find ['*'] n = true) (ids : List (Text × Y))
    (tbl : Table Pred) (hi : ids.map (fun i => (i.1, parseSearchId i.2)) = tbl.map fun i => (i.1, some i.2))
    (ht : PlainTable tbl) (s : Syn Pred) (hs : s.Wf) (hsp : Spaced s) (ho : Operands tbl s) (w : Text) (hw : Blank w) :
    ∃ e, parseRule find ids (s.text (condition find tbl) ++ w) = some e ∧ ∀ v, e.eval v = s.value v := by
  have hi : parseTable ids = some tbl := parseTable_some ids tbl hi
  simp only [parseRule, hi]
  exact C82_condition_partial find hfind tbl ht s hs hsp ho w hw

/-- The search of literal texts, with `*` standing for anything, as in `std::regex_search` (for the examples). -/
def findAny : Text → Text → Bool
  | [], _ => true
  | '*' :: p, s => (List.range (s.length + 1)).any fun i => findAny p (s.drop i)
  | _ :: _, [] => false
  | c :: p, d :: s => decide (c = d) && findAny p s

/-- The pattern is found somewhere. -/
def found (p s : Text) : Bool := findAny ('*' :: p) s

/-- **C82.**  A pattern behind a quantifier that no identifier is a prefix of, up to the next blank or the end, stands
for the identifiers in which it is found. -/
theorem C82_pattern (find : Text → Text → Bool) (tbl : Table α) (any : Bool) (w p rest : Text)
    (hw : Blank w) (hp : ∀ c ∈ p, isSpace c = false) (hne : p ≠ []) (ht : lit "them".toList (p ++ rest) = none)
    (hr : rest = [] ∨ ∃ c r, rest = c :: r ∧ isSpace c = true) (hi : ∀ k ∈ tbl, isPrefix k.1 (p ++ rest) = false) :
    ∃ e, searchId find tbl ((if any then "1 of".toList else "all of".toList) ++ w ++ p ++ rest) = some (e, rest)
      ∧ ∀ v, e.eval v = if any then (tbl.filter fun k => find p k.1).any (·.2.eval v)
          else (tbl.filter fun k => find p k.1).all (·.2.eval v) := by
  have h1 : ident tbl (p ++ rest) = none := by simp [ident, longest_none _ tbl hi]
  have h2 : ws (w ++ (p ++ rest)) = p ++ rest := by
    rw [ws_blank _ _ hw]
    cases p with
    | nil => exact absurd rfl hne
    | cons c p => exact ws_cons _ _ (hp c (by simp))
  have h3 : (p ++ rest).takeWhile (fun c => !isSpace c) = p := by
    rw [List.takeWhile_append_of_pos (by simpa using hp)]
    rcases hr with rfl | ⟨c, r, rfl, hc⟩
    · simp
    · simp [hc]
  have h4 : selection find tbl (p ++ rest) = some (search find tbl p, rest) := by
    simp only [selection, ht, word, h3]
    cases p with
    | nil => exact absurd rfl hne
    | cons c p => simp
  cases any with
  | false =>
    refine ⟨join false (search find tbl p), ?_, fun v => ?_⟩
    · simp only [Bool.false_eq_true, if_false]
      rw [List.append_assoc, List.append_assoc]
      simp only [searchId, quantified, lit_append, h2, h1, h4, lit_all_one]
    · rw [join_eval]; simp [search, List.all_map, Function.comp_def]
  | true =>
    refine ⟨join true (search find tbl p), ?_, fun v => ?_⟩
    · simp only [if_true]
      rw [List.append_assoc, List.append_assoc]
      simp only [searchId, quantified, lit_append, h2, h1, h4, lit_one_all]
    · rw [join_eval]; simp [search, List.any_map, Function.comp_def]

example : (∀ k ∈ ([("sel1".toList, .leaf 'a'), ("sel2".toList, .leaf 'b')] : Table Char),
    isPrefix k.1 ("sel*".toList ++ " and x".toList) = false) ∧ lit "them".toList ("sel*".toList ++ " and x".toList) = none
    ∧ found "sel*".toList "sel1".toList = true := by decide

/-- **C82, refuted.**  An identifier that begins with `not` is read as the negation of the identifiers in which the
rest is found; here of itself. -/
theorem C82_not_refuted : parse (condition found [("notepad".toList, E.leaf 'a')]) "notepad".toList
    = some (.neg (.leaf 'a')) := by rfl

/-- **C82, refuted.**  A wildcard behind the whole name of an identifier is refused. -/
theorem C82_wildcard_refuted : (parse (condition found [("sel".toList, E.leaf 'a'), ("sel2".toList, .leaf 'b')])
    "1 of sel*".toList).isNone = true := by decide +kernel

/-- **C82, refuted.**  A pattern swallows a closing parenthesis. -/
theorem C82_paren_refuted : (parse (condition found [("sel1".toList, E.leaf 'a'), ("sel2".toList, .leaf 'b')])
      "1 of sel*".toList).isSome = true
    ∧ (parse (condition found [("sel1".toList, E.leaf 'a'), ("sel2".toList, .leaf 'b')])
      "(1 of sel*)".toList).isNone = true := by decide +kernel

/-- **C82, refuted.**  A pattern also selects identifiers that contain it in the middle. -/
theorem C82_anchor_refuted : ∃ e, parse (condition found [("sel1".toList, E.leaf 'a'), ("no_sel".toList, .leaf 'b')])
    "1 of sel*".toList = some e ∧ e.eval (fun c => c == 'b') = true :=
  ⟨.disj [.leaf 'a', .leaf 'b'], by rfl, by decide⟩

/-- **C82, refuted.**  An unknown identifier is not an error: the condition holds of every event. -/
theorem C82_unknown_refuted : ∃ e, parse (condition found [("sel".toList, E.leaf 'a')]) "slection".toList = some e
    ∧ ∀ v, e.eval v = true :=
  ⟨.conj [], by rfl, fun _ => rfl⟩

end Verif.Sigma
