import Verif.Csv.Lemmas

/-! # C107: CSV export -/

namespace Verif.Csv
open Verif.Data Verif.DataText Verif.Csv.Spec

theorem line_parse (env : Env) (records : List Str → List Data → Str) : ∀ (values : List Data), (∀ v ∈ values, Plain v) →
    ∃ t cells, line env records values = some t ∧ List.Forall₂ (CellText env) values cells ∧
      ∀ cell row rest, parse false cell row (t ++ rest) = (row ++ cell :: cells) :: parse false [] [] rest
  | [], _ => ⟨_, [], rfl, .nil, fun cell row rest => by
      have e : (ch '\n' : UInt8) = 10 := rfl
      rw [e, List.cons_append, List.nil_append, parse, if_neg (by decide), if_neg (by simp), if_pos ⟨rfl, rfl⟩]⟩
  | x :: xs, h => by
    obtain ⟨h1, h2, h3⟩ := cell_text env records x (h x List.mem_cons_self)
    obtain ⟨t, cells, i1, i2, i3⟩ := line_parse env records xs fun y hy => h y (List.mem_cons_of_mem _ hy)
    refine ⟨ch ',' :: ((render env records x).1 ++ t), (render env records x).1 :: cells, by rw [line, if_pos h1, i1]; rfl, .cons h2 i2,
      fun cell row rest => ?_⟩
    have e : (ch ',' : UInt8) = 44 := rfl
    rw [e, List.cons_append, parse, if_neg (by decide), if_pos ⟨rfl, rfl⟩, List.append_assoc, h3, List.nil_append, i3]
    simp

theorem lines_parse (env : Env) (records : List Str → List Data → Str) (name : Str) (hn : Clean name) :
    ∀ (rows : List (List Data)), (∀ row ∈ rows, ∀ v ∈ row, Plain v) →
    ∃ t body, lines env records name rows = some t ∧
      List.Forall₂ (fun values row => ∃ cells, row = name :: cells ∧ List.Forall₂ (CellText env) values cells) rows body ∧
      ∀ rest, parse false [] [] (t ++ rest) = body ++ parse false [] [] rest
  | [], _ => ⟨_, [], rfl, .nil, fun rest => rfl⟩
  | r :: rs, h => by
    obtain ⟨t, cells, h1, h2, h3⟩ := line_parse env records r (h r List.mem_cons_self)
    obtain ⟨u, body, i1, i2, i3⟩ := lines_parse env records name hn rs fun y hy => h y (List.mem_cons_of_mem _ hy)
    refine ⟨name ++ t ++ u, (name :: cells) :: body, by rw [lines, h1, i1]; rfl, .cons ⟨cells, rfl, h2⟩ i2, fun rest => ?_⟩
    rw [List.append_assoc, List.append_assoc, neutral_clean hn, List.nil_append, h3, i3]
    simp

theorem keys_parse : ∀ (keys : List Str), (∀ k ∈ keys, Clean k) → ∀ cell row rest,
    parse false cell row (keys.flatMap (fun k => ch ',' :: k) ++ [ch '\n'] ++ rest) = (row ++ cell :: keys) :: parse false [] [] rest
  | [], _, cell, row, rest => by
    have e : (ch '\n' : UInt8) = 10 := rfl
    rw [e, List.flatMap_nil, List.nil_append, List.cons_append, List.nil_append, parse, if_neg (by decide), if_neg (by simp), if_pos ⟨rfl, rfl⟩]
  | k :: ks, h, cell, row, rest => by
    have ih := keys_parse ks (fun y hy => h y (List.mem_cons_of_mem _ hy)) k (row ++ [cell]) rest
    have e : (ch ',' : UInt8) = 44 := rfl
    rw [List.flatMap_cons, e, List.cons_append, List.cons_append, List.cons_append, parse, if_neg (by decide), if_pos ⟨rfl, rfl⟩,
      List.append_assoc, List.append_assoc, neutral_clean (h k List.mem_cons_self), List.nil_append]
    rw [List.append_assoc, e] at ih
    rw [ih]
    simp

theorem header_parse (keys : List Str) (h : ∀ k ∈ keys, Clean k) (rest : Str) :
    parse false [] [] (header keys ++ rest) = (str "type" :: keys) :: parse false [] [] rest := by
  have hn : Clean [ch 't', ch 'y', ch 'p', ch 'e'] := by intro b hb; revert b; decide
  have e : str "type" = [ch 't', ch 'y', ch 'p', ch 'e'] := by decide
  have := keys_parse keys h [ch 't', ch 'y', ch 'p', ch 'e'] [] rest
  rw [header, e, List.append_assoc, List.append_assoc, neutral_clean hn]
  rw [List.append_assoc] at this
  exact this

/-- C107, read back: if the names of layouts and columns have no quotes, commas and line feeds, and the cells are scalars with
    a text or lists of them, then the export succeeds and an ordinary CSV reader finds a header whenever the name of the layout
    changes and, for each event in order, a row with the name of its layout and a text for each of its values. Missing: records
    and maps as cells, patterns with special characters. -/
theorem C107_table_partial (env : Env) (records : List Str → List Data → Str) : ∀ (last : Str) (ts : List Table),
    (∀ t ∈ ts, Clean t.name ∧ (∀ k ∈ t.keys, Clean k) ∧ ∀ row ∈ t.rows, ∀ v ∈ row, Plain v) →
    ∃ out, writeAll env records last ts = some out ∧ Rows env last ts (table out)
  | last, [], _ => ⟨[], rfl, .nil last⟩
  | last, t :: ts, h => by
    obtain ⟨hn, hk, hr⟩ := h t List.mem_cons_self
    obtain ⟨u, body, h1, h2, h3⟩ := lines_parse env records t.name hn t.rows hr
    obtain ⟨out, i1, i2⟩ := C107_table_partial env records t.name ts fun y hy => h y (List.mem_cons_of_mem _ hy)
    refine ⟨(if last = t.name then [] else header t.keys) ++ u ++ out, by rw [writeAll, write, h1, i1]; rfl, ?_⟩
    have : table ((if last = t.name then [] else header t.keys) ++ u ++ out) =
        (if last = t.name then [] else [str "type" :: t.keys]) ++ body ++ table out := by
      unfold table
      split
      · rw [List.append_assoc, List.nil_append, List.nil_append, h3]
      · rw [List.append_assoc, header_parse _ hk, h3]
        simp
    rw [this]
    exact .cons last t ts _ body _ rfl h2 i2

/-- What a string is in the text determines it. -/
theorem C107_string (s s' : Str) (h : quote s = quote s') : s = s' := by
  have := unquote_quote s
  rw [h, unquote_quote] at this
  exact (Option.some.inj this).symm

/-! ### What is not so -/

/-- C107: the header is only repeated when the *name* of the layout changes. After a schema change that renames a column, the
    text is the one for the old name. -/
theorem C107_header_refuted : ∃ (t t' t'' : Table), t'.keys ≠ t''.keys ∧
    ∀ env records, writeAll env records [] [t, t'] = writeAll env records [] [t, t''] ∧ (writeAll env records [] [t, t']).isSome :=
  ⟨⟨str "a", [str "x"], [[.count 1]]⟩, ⟨str "a", [str "y"], [[.count 2]]⟩, ⟨str "a", [str "x"], [[.count 2]]⟩, by decide,
    fun _ _ => ⟨rfl, rfl⟩⟩

/-- C107: the empty list and the list of the empty string have the same text, and so do null and the list of null. -/
theorem C107_list_refuted : ∀ env records,
    render env records (.list []) = render env records (.list [.string []]) ∧
    render env records (.list [.none]) = render env records .none := fun env records => by
  refine ⟨?_, ?_⟩
  · simp [render, renderList, renderMore, quote, escape]
  · simp [render, renderList, renderMore]

/-- C107: patterns are not quoted, so a row with one value can be read as having two. -/
theorem C107_pattern_refuted : ∀ env records, ∃ out,
    writeAll env records [] [⟨str "a", [str "x"], [[.pattern (str "b,c")]]⟩] = some out ∧
    table out = [[str "type", str "x"], [str "a", str "/b", str "c/"]] := fun env records => by
  refine ⟨str "type,x\na,/b,c/\n", ?_, by decide +kernel⟩
  simp only [writeAll, write, lines, line, render, print]
  decide +kernel

/-- C107: a map in a column ends the export, and a map in a list silently ends the list. -/
theorem C107_map_refuted : ∀ env records,
    writeAll env records [] [⟨str "a", [str "x"], [[.map [] []]]⟩] = none ∧
    render env records (.list [.count 1, .map [] [], .count 2]) = render env records (.list [.count 1, .map [] [], .count 3]) :=
  fun env records => by
  refine ⟨?_, ?_⟩
  · simp [writeAll, write, lines, line, render]
  · simp [render, renderList, renderMore]

/-- C107: numbers that differ after the sixth digit have the same text. -/
theorem C107_real_refuted : ∃ r r' : Real, r ≠ r' ∧ ∀ env records, render env records (.real r) = render env records (.real r') ∧
    Number.printReal 6 r = some (str "0.5") :=
  ⟨.fin (1/2), .fin (1/2 + 1/16777216), by decide +kernel, fun env records => by
    have h1 : Number.printReal 6 (.fin (1/2)) = some (str "0.5") := by decide +kernel
    have h2 : Number.printReal 6 (.fin (1/2 + 1/16777216)) = some (str "0.5") := by decide +kernel
    simp [render, real, h1, h2]⟩

/-! ### Concrete cases -/

/-- The hypotheses are met, with a string that has quotes, commas, bars and a line feed. -/
example : ∀ t ∈ [Table.mk (str "zeek.conn") [str "ts", str "tags"]
      [[.time 1, .list [.string (str "a\",|\n"), .none, .count 3]], [.none, .list []], [.int (-4), .real (.fin (1/2))]]],
    Clean t.name ∧ (∀ k ∈ t.keys, Clean k) ∧ ∀ row ∈ t.rows, ∀ v ∈ row, Plain v := by
  intro t ht
  rw [List.mem_singleton] at ht
  subst ht
  refine ⟨by unfold Clean; decide, by unfold Clean; decide, ?_⟩
  simp only [List.mem_cons, List.not_mem_nil, or_false, forall_eq_or_imp, forall_eq, Plain, Scalar, true_and, and_true]
  exact ⟨fun _ h => h.elim, by decide, str "0.5", by decide +kernel⟩

/-- And the text is read as it should be. -/
example : ∀ env records, ∃ out, writeAll env records [] [⟨str "a", [str "x", str "y"],
      [[.string (str "q\",\n|"), .list [.string (str "a | b"), .none, .count 3]]]⟩] = some out ∧
    (table out).length = 2 ∧ (table out)[1]? = some [str "a", str "\"q\"\",\n||\"", str "\"a || b\" |  | 3"] := fun env records => by
  refine ⟨str "type,x,y\na,\"q\"\",\n||\",\"a || b\" |  | 3\n", ?_, by decide +kernel, by decide +kernel⟩
  simp only [writeAll, write, lines, line, render, renderList, renderMore, print]
  decide +kernel

end Verif.Csv
