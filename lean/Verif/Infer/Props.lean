import Verif.Infer.Found
/-!
C140, C141, C142: schemas that are inferred from JSON.
-/
namespace Verif.Infer
open Verif.Data Verif.DataText Verif.DataText.Spec Verif.Calendar Verif.Json Verif.Json.Spec Verif.Infer.Spec Verif.Number Verif.Number.Spec

/-- C140: the schema of an event has a column for everything in the event, and with it every event of the same shape is imported in
full: every column has the value that the event has at its place, and is empty only if there is null, or null on the way to it.
Missing: lists whose elements differ in shape, names that are not distinct or have dots, objects without members, texts that are
none of those in `Alike`, and events that are not the first line or do not end in `\r\n`. -/
theorem C140_import_partial (env : Env) (size : Nat) (input line line' : Str) (ns : List Str) (vs ws : List Value)
    (hb : Begins (input.take size) line) (hd : Document line (.obj ns vs)) (hf : FitsAll vs) (hv : Alike (.obj ns vs) (.obj ns vs))
    (hw : Alike (.obj ns vs) (.obj ns ws)) (hd' : Document line' (.obj ns ws)) (hf' : FitsAll ws) :
    ∃ fs row, infer (withNumbers env) size input = .json fs ∧ (paths fs).map (·.1) = ways ns vs
      ∧ readLine (withNumbers env) fs line' = some (.row row true)
      ∧ List.Forall₂ (fun p x => match along p.1 (.obj ns ws) with
        | none => x = .none
        | some u => Means u p.2 x ∧ (u ≠ .null → x ≠ .none)) (paths fs) row := by
  have hobj : ns ≠ [] ∧ AlikeMembers ns vs vs := by
    cases hv with
    | object _ _ _ h1 _ _ h4 => exact ⟨h1, h4⟩
  have hrec := deduce_object (withNumbers env) hobj.1 (members_length hobj.2).1
  have hi := infer_object (withNumbers env) hb hd hf
  rw [hrec] at hi
  have hdot : Dotless (.obj ns ws) := alike_dotless hw
  have hdotv : Dotless (.obj ns vs) := alike_dotless hv
  have hways : (paths (deduceFields (withNumbers env) ns vs)).map (·.1) = ways ns vs := by
    have := alike_ways (withNumbers env) hv rfl
    rwa [hrec, pathsOf, waysOf] at this
  have hparts : ∀ p ∈ paths (deduceFields (withNumbers env) ns vs), Parts (dotted p.1) p.1 := by
    intro p hp
    refine ⟨paths_ne _ p hp, ?_, rfl⟩
    have hp' : p.1 ∈ ways ns vs := by rw [← hways]; exact List.mem_map_of_mem hp
    exact ways_dotless hdotv p.1 hp'
  have hfind : ∀ p ∈ paths (deduceFields (withNumbers env) ns vs), Finds p.1 ns ws (along p.1 (.obj ns ws)) :=
    fun p hp => finds_along p.1 ns ws (paths_ne _ p hp) hdot
  have hmean : ∀ p ∈ paths (deduceFields (withNumbers env) ns vs), ∀ u, along p.1 (.obj ns ws) = some u →
      ∃ d, Means u p.2 d ∧ (u ≠ .null → d ≠ .none) := by
    intro p hp u hu
    obtain ⟨v', h1, h2⟩ := alike_along (withNumbers env) hw p (by rw [hrec, pathsOf]; exact hp) u hu
    rw [h2]
    exact alike_means env h1
  obtain ⟨row, complete, h1, h2, h3⟩ := C88_row_partial env (deduceFields (withNumbers env) ns vs) line' ns ws hd' hf' (fun p hp =>
    .inr ⟨p.1, _, hparts p hp, hfind p hp, fun v hv => by
      obtain ⟨d, hd, _⟩ := hmean p hp v hv
      exact ⟨d, hd⟩⟩)
  have hc : complete = true := h3 fun p hp => ⟨p.1, _, hparts p hp, hfind p hp, fun v hv => by
      obtain ⟨d, hd, _⟩ := hmean p hp v hv
      exact ⟨d, hd⟩⟩
  subst hc
  refine ⟨_, row, hi, hways, h1, forall2_imp_mem h2 fun p hp x _ hx => ?_⟩
  have hx := hx p.1 _ (hparts p hp) (hfind p hp)
  cases ha : along p.1 (.obj ns ws) with
  | none => exact hx.1 ha
  | some u =>
    obtain ⟨d, hd, hn⟩ := hmean p hp u ha
    have := (hx.2 u ha).1 d hd
    subst this
    exact ⟨hd, hn⟩

/-- C140: the event that the schema comes from is imported in full: there is one column for each of its values, in their order, and it
has that value. Missing: as above. -/
theorem C140_own_partial (env : Env) (size : Nat) (input line : Str) (ns : List Str) (vs : List Value)
    (hb : Begins (input.take size) line) (hd : Document line (.obj ns vs)) (hf : FitsAll vs) (hv : Alike (.obj ns vs) (.obj ns vs)) :
    ∃ fs row, infer (withNumbers env) size input = .json fs ∧ readLine (withNumbers env) fs line = some (.row row true)
      ∧ List.Forall₂ (fun p x => ∃ u t, along p (.obj ns vs) = some u ∧ Means u t x ∧ (u ≠ .null → x ≠ .none)) (ways ns vs) row := by
  obtain ⟨fs, row, h1, h2, h3, h4⟩ := C140_import_partial env size input line line ns vs vs hb hd hf hv hv hd hf
  refine ⟨fs, row, h1, h3, ?_⟩
  rw [← h2, List.forall₂_map_left_iff]
  refine forall2_imp_mem h4 fun p hp x _ hx => ?_
  have hp' : p.1 ∈ ways ns vs := by rw [← h2]; exact List.mem_map_of_mem hp
  obtain ⟨u, hu⟩ := alike_own hv rfl p.1 (by simpa [waysOf] using hp')
  rw [hu] at hx
  exact ⟨u, p.2, hu, hx.1, hx.2⟩

/-! ### An example -/

def exNames : List Str := [str "a", str "b", str "c"]
def exValues : List Value := [.num ⟨false, [1], [], none⟩, .obj [str "x"] [.str (str "key")], .arr [.bool true, .null, .bool false]]
def exOther : List Value := [.num ⟨true, [7], [], none⟩, .null, .arr []]

theorem exWord : Word (str "key") := by
  intro b r e
  have : b = 107 := by
    have e' : (str "key") = 107 :: str "ey" := by decide +kernel
    rw [e'] at e
    exact (List.cons.inj e).1.symm
  subst this
  decide

theorem exInt (n : Num) (i : Int) (hi : n.Integral) (hv : n.value = i) (h0 : -(2 ^ 63) ≤ i) (h1 : i < 2 ^ 63) :
    n.Integral ∧ -(2 ^ 63) ≤ n.value ∧ n.value < 2 ^ 63 := by
  refine ⟨hi, ?_, ?_⟩ <;> rw [hv]
  · exact_mod_cast h0
  · exact_mod_cast h1

theorem exOne : (⟨false, [1], [], none⟩ : Num).Integral ∧ -(2 ^ 63) ≤ (⟨false, [1], [], none⟩ : Num).value ∧ (⟨false, [1], [], none⟩ : Num).value < 2 ^ 63 :=
  exInt _ 1 ⟨rfl, rfl⟩ (by rw [integral_value ⟨rfl, rfl⟩]; decide +kernel) (by decide) (by decide)

theorem exSeven : (⟨true, [7], [], none⟩ : Num).Integral ∧ -(2 ^ 63) ≤ (⟨true, [7], [], none⟩ : Num).value ∧ (⟨true, [7], [], none⟩ : Num).value < 2 ^ 63 :=
  exInt _ (-7) ⟨rfl, rfl⟩ (by rw [integral_value ⟨rfl, rfl⟩]; decide +kernel) (by decide) (by decide)

theorem exAlike : Alike (.obj exNames exValues) (.obj exNames exValues) :=
  .object _ _ _ (by simp [exNames]) (by decide +kernel) (by decide +kernel)
    (.cons _ _ _ _ _ _ (.int _ _ exOne.1 exOne.2.1 exOne.2.2 exOne.1 exOne.2.1 exOne.2.2)
      (.cons _ _ _ _ _ _ (.object _ _ _ (by simp) (by simp) (by decide +kernel) (.cons _ _ _ _ _ _ (.word _ _ exWord) .nil))
        (.cons _ _ _ _ _ _ (.list _ _ _ (.cons _ _ _ (.bool _ _) (.cons _ _ _ (.null _) (.cons _ _ _ (.bool _ _) (.nil _))))) .nil)))

/-- An event of the same shape. -/
example : Alike (.obj exNames exValues) (.obj exNames exOther) :=
  .object _ _ _ (by simp [exNames]) (by decide +kernel) (by decide +kernel)
    (.cons _ _ _ _ _ _ (.int _ _ exOne.1 exOne.2.1 exOne.2.2 exSeven.1 exSeven.2.1 exSeven.2.2)
      (.cons _ _ _ _ _ _ (.null _) (.cons _ _ _ _ _ _ (.list _ _ _ (.nil _)) .nil)))

example : ways exNames exValues = [[str "a"], [str "b", str "x"], [str "c"]] := by decide +kernel

/-! ### What goes wrong -/

theorem infer_text (env : Env) {size : Nat} {input line : Str} {v : Value} (hb : Begins (input.take size) line) (hne : line ≠ [])
    (hz : ((input.take size).dropWhile fun b => b = 10 ∨ b = 13).head? ≠ some 35) (hs : simdjson line = some v) : infer env size input =
      match deduce env v with
      | .record fs => .json fs
      | _ => .nothing := by
  obtain ⟨more, e⟩ := split_begins hb hne
  unfold infer inferJson
  simp only [zeek_none env _ hz, e, hs]
  cases deduce env v <;> rfl

theorem infer_whole (env : Env) {line : Str} {v : Value} (h : (13 : UInt8) ∉ line ∧ line ≠ [] ∧ line.take 8192 = line ∧
    (line.dropWhile fun b => b = 10 ∨ b = 13).head? ≠ some 35) (hs : simdjson line = some v) : infer env bufferSize line =
      match deduce env v with
      | .record fs => .json fs
      | _ => .nothing := by
  obtain ⟨h1, h2, h3, h4⟩ := h
  have h3' : line.take bufferSize = line := h3
  exact infer_text env (line := line) ⟨h1, .inl h3'⟩ h2 (by rw [h3']; exact h4) hs

/-- C140, refuted: that a schema is found for an input with several events, one per line. Lines have to end in `\r\n`. -/
theorem C140_lines_refuted (env : Env) : infer env bufferSize (str "{\"a\": 1}\n{\"a\": 2}\n") = .nothing := by
  have h : (13 : UInt8) ∉ str "{\"a\": 1}\n{\"a\": 2}\n" ∧ str "{\"a\": 1}\n{\"a\": 2}\n" ≠ [] := by decide +kernel
  have ht : (str "{\"a\": 1}\n{\"a\": 2}\n").take bufferSize = str "{\"a\": 1}\n{\"a\": 2}\n" := by decide +kernel
  have hz : ((str "{\"a\": 1}\n{\"a\": 2}\n").dropWhile fun b => b = 10 ∨ b = 13).head? ≠ some 35 := by decide +kernel
  have hs : (simdjson (str "{\"a\": 1}\n{\"a\": 2}\n")).isNone = true := by decide +kernel
  obtain ⟨more, e⟩ := split_begins (text := str "{\"a\": 1}\n{\"a\": 2}\n") ⟨h.1, .inl rfl⟩ h.2
  unfold infer inferJson
  simp only [ht, zeek_none env _ hz, e, Option.isNone_iff_eq_none.mp hs]

/-- C140, refuted: that the event that a schema comes from can be imported with it: a list of different things, an object without
members, and one of two values whose names differ only by a dot. -/
theorem C140_lost_refuted (env : Env) :
    (infer env bufferSize (str "{\"a\": [1, \"x\"]}") = .json (.cons (str "a") (.list .int) .nil)
      ∧ readLine env (.cons (str "a") (.list .int) .nil) (str "{\"a\": [1, \"x\"]}") = some (.row [.none] false))
    ∧ (infer env bufferSize (str "{\"a\": {}}") = .json (.cons (str "a") .none .nil)
      ∧ readLine env (.cons (str "a") .none .nil) (str "{\"a\": {}}") = some (.row [.none] false))
    ∧ (infer env bufferSize (str "{\"a\": {\"b\": 1}, \"a.b\": true}")
        = .json (.cons (str "a") (.record (.cons (str "b") .int .nil)) (.cons (str "a.b") .bool .nil))
      ∧ readLine env (.cons (str "a") (.record (.cons (str "b") .int .nil)) (.cons (str "a.b") .bool .nil)) (str "{\"a\": {\"b\": 1}, \"a.b\": true}")
        = some (.row [.int 1, .none] false)) := by
  have h1 : simdjson (str "{\"a\": [1, \"x\"]}") = some (.obj [str "a"] [.arr [.num ⟨false, [1], [], none⟩, .str (str "x")]]) :=
    simdjson_eq (by decide +kernel)
  have h2 : simdjson (str "{\"a\": {}}") = some (.obj [str "a"] [.obj [] []]) := simdjson_eq (by decide +kernel)
  have h3 : simdjson (str "{\"a\": {\"b\": 1}, \"a.b\": true}")
      = some (.obj [str "a", str "a.b"] [.obj [str "b"] [.num ⟨false, [1], [], none⟩], .bool true]) := simdjson_eq (by decide +kernel)
  refine ⟨⟨?_, ?_⟩, ⟨?_, ?_⟩, ⟨?_, ?_⟩⟩
  · rw [infer_whole env (by decide +kernel) h1]; rfl
  · unfold readLine; rw [h1]; rfl
  · rw [infer_whole env (by decide +kernel) h2]; rfl
  · unfold readLine; rw [h2]; rfl
  · rw [infer_whole env (by decide +kernel) h3]; rfl
  · unfold readLine; rw [h3]; rfl

/-- C141: what is printed is the text of a schema, and it is read as the record that was inferred. Missing: events with nulls,
empty lists or empty objects, or with other names than those of schemas. -/
theorem C141_text_partial (env : Env) (size : Nat) (input line : Str) (ns : List Str) (vs : List Value)
    (hb : Begins (input.take size) line) (hd : Document line (.obj ns vs)) (hf : FitsAll vs) (h : Described (.obj ns vs))
    (order : List (SchemaText.Str × SchemaText.T) → List (SchemaText.Str × SchemaText.T)) (ho : ∀ l, List.Perm l (order l)) :
    ∃ fs, infer env size input = .json fs ∧ SchemaText.schemaP order (shown fs) = .ok (.ok [layout fs]) [] := by
  have hi := infer_object env hb hd hf
  have hrec : ∃ fs, deduce env (.obj ns vs) = .record fs := by
    cases h with
    | object _ _ hne hm =>
      cases hm with
      | nil => exact absurd rfl hne
      | cons n v ns vs _ _ _ => exact ⟨_, by rw [deduce, deduceFields]⟩
  obtain ⟨fs, hrec⟩ := hrec
  rw [hrec] at hi
  obtain ⟨r, h1, h2⟩ := SchemaText.C100_text_partial (layout_faithful env h hrec) (by simp) order ho
  exact ⟨fs, hi, by rw [shown, h1, List.perm_singleton.mp h2]⟩

/-- An event with all that matters. -/
example : Described (.obj [str "a", str "b.c", str "d"] [.bool true, .arr [.str (str "x"), .null], .obj [str "e_1"] [.num ⟨false, [1], [], none⟩]]) :=
  .object _ _ (by simp) (.cons _ _ _ _ (SchemaText.name_of (by decide +kernel)) (.bool _)
    (.cons _ _ _ _ (SchemaText.name_of (by decide +kernel)) (.list _ _ (.str _))
      (.cons _ _ _ _ (SchemaText.name_of (by decide +kernel)) (.object _ _ (by simp) (.cons _ _ _ _ (SchemaText.name_of (by decide +kernel))
        (.num _ (by
          simp only [Fits]
          refine ⟨fun _ => ⟨exOne.2.1, lt_trans exOne.2.2 (by norm_num)⟩, fun h => absurd exOne.1 h⟩)) .nil)) .nil)))

/-- The result of reading a schema. -/
def unread : SchemaText.Res (SchemaText.R (List SchemaText.T)) → Bool
  | .ok (.ok _) _ => false
  | _ => true

/-- C141, refuted: that every text that is printed can be read: not for an event with a null, an empty list, an empty object or a
name with a dash. -/
theorem C141_unread_refuted (env : Env) :
    (infer env bufferSize (str "{\"a\": null}") = .json (.cons (str "a") .none .nil) ∧ unread (SchemaText.schemaP id (shown (.cons (str "a") .none .nil))) = true)
    ∧ (infer env bufferSize (str "{\"a\": []}") = .json (.cons (str "a") (.list .none) .nil)
      ∧ unread (SchemaText.schemaP id (shown (.cons (str "a") (.list .none) .nil))) = true)
    ∧ (infer env bufferSize (str "{\"a\": {}}") = .json (.cons (str "a") .none .nil))
    ∧ (infer env bufferSize (str "{\"a-b\": 1}") = .json (.cons (str "a-b") .int .nil)
      ∧ unread (SchemaText.schemaP id (shown (.cons (str "a-b") .int .nil))) = true) := by
  have h1 : simdjson (str "{\"a\": null}") = some (.obj [str "a"] [.null]) := simdjson_eq (by decide +kernel)
  have h2 : simdjson (str "{\"a\": []}") = some (.obj [str "a"] [.arr []]) := simdjson_eq (by decide +kernel)
  have h3 : simdjson (str "{\"a\": {}}") = some (.obj [str "a"] [.obj [] []]) := simdjson_eq (by decide +kernel)
  have h4 : simdjson (str "{\"a-b\": 1}") = some (.obj [str "a-b"] [.num ⟨false, [1], [], none⟩]) := simdjson_eq (by decide +kernel)
  refine ⟨⟨?_, by decide +kernel⟩, ⟨?_, by decide +kernel⟩, ?_, ⟨?_, by decide +kernel⟩⟩
  · rw [infer_whole env (by decide +kernel) h1]; rfl
  · rw [infer_whole env (by decide +kernel) h2]; rfl
  · rw [infer_whole env (by decide +kernel) h3]; rfl
  · rw [infer_whole env (by decide +kernel) h4]; rfl

/-- C142: fields have the types that their values show: the names and types of the record are those of the members of the event, in
their order. Missing: other texts. -/
theorem C142_types_partial (env : Env) (size : Nat) (input line : Str) (ns : List Str) (vs : List Value) (fs : Fields)
    (hb : Begins (input.take size) line) (hd : Document line (.obj ns vs)) (hf : FitsAll vs) (h : Kind (.obj ns vs) (.record fs)) :
    infer (withNumbers env) size input = .json fs := by
  rw [infer_object (withNumbers env) hb hd hf, kind_deduce env h]

example : Kind (.obj exNames exValues) (.record (.cons (str "a") .int (.cons (str "b") (.record (.cons (str "x") .string .nil))
    (.cons (str "c") (.list .bool) .nil)))) :=
  .object _ _ _ (by simp [exNames]) (.cons _ _ _ _ _ _ (.int _ exOne.1 exOne.2.1 exOne.2.2)
    (.cons _ _ _ _ _ _ (.object _ _ _ (by simp) (.cons _ _ _ _ _ _ (.word _ exWord) .nil)) (.cons _ _ _ _ _ _ (.list _ _ _ (.bool _)) .nil)))

/-- C142, refuted: that words are strings: some look like a date or a duration. -/
theorem C142_word_refuted (env : Env) :
    infer env bufferSize (str "{\"version\": \"2021-02\"}") = .json (.cons (str "version") .time .nil)
    ∧ infer env bufferSize (str "{\"grade\": \"7 d\"}") = .json (.cons (str "grade") .duration .nil) := by
  have h1 : simdjson (str "{\"version\": \"2021-02\"}") = some (.obj [str "version"] [.str (str "2021-02")]) := simdjson_eq (by decide +kernel)
  have h2 : simdjson (str "{\"grade\": \"7 d\"}") = some (.obj [str "grade"] [.str (str "7 d")]) := simdjson_eq (by decide +kernel)
  constructor
  · rw [infer_whole env (by decide +kernel) h1]; rfl
  · rw [infer_whole env (by decide +kernel) h2]; rfl

end Verif.Infer
