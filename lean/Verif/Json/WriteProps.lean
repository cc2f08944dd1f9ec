import Verif.Json.DocLemmas
/-!
C87: the export of events as JSON.
-/
namespace Verif.Json
open Verif.Data Verif.DataText Verif.DataText.Spec Verif.Json.Spec Verif.Calendar

/-- Every event is one line, whatever its values are. -/
theorem C87_line (o : Options) (layout : Fields) (row : List Data) (t : Str) (h : writeRow o layout row = some t) :
    ∃ l : Str, t = l ++ [10] ∧ (10 : UInt8) ∉ l := by
  unfold writeRow at h
  split at h
  · rename_i ns ts r h1
    simp only [Option.some.injEq] at h
    have := fields_lf o.numeric _ row ns ts r h1
    exact ⟨_, h.symm, object_lf this.1 this.2⟩
  · simp at h

/-- A layout for the examples: a record in a record. -/
def exLayout : Fields :=
  .cons (ascii "a") .int (.cons (ascii "b") (.record (.cons (ascii "c") .string (.cons (ascii "d") (.enum [ascii "x", ascii "y"]) .nil))) .nil)

/-- A row for the examples. -/
def exRow : List Data := [.int (-3), .string [34, 10], .enum 1]

example : writeRow ⟨false, false⟩ exLayout exRow = some (ascii "{\"a\": -3, \"b\": {\"c\": \"\\\"\\n\", \"d\": \"y\"}}" ++ [10]) := by decide +kernel

example : writeRow ⟨true, false⟩ exLayout exRow = some (ascii "{\"a\": -3, \"b.c\": \"\\\"\\n\", \"b.d\": \"y\"}" ++ [10]) := by decide +kernel

/-- A table slice is one line for each of its rows, in order. -/
theorem C87_slice (o : Options) (layout : Fields) (rows : List (List Data)) (t : Str) (h : writeSlice o layout rows = some t) :
    ∃ ls : List Str, t = ls.flatMap (· ++ [10]) ∧ (∀ l ∈ ls, (10 : UInt8) ∉ l)
      ∧ List.Forall₂ (fun row l => writeRow o layout row = some (l ++ [10])) rows ls := by
  induction rows generalizing t with
  | nil =>
    simp only [writeSlice, Option.some.injEq] at h
    subst h
    exact ⟨[], rfl, by simp, .nil⟩
  | cons row rows ih =>
    simp only [writeSlice] at h
    split at h
    · rename_i a b h1 h2
      simp only [Option.some.injEq] at h
      subst h
      obtain ⟨l, rfl, hl⟩ := C87_line o layout row a h1
      obtain ⟨ls, rfl, hls, hf⟩ := ih b h2
      exact ⟨l :: ls, by simp, cons_lf hl hls, .cons h1 hf⟩
    · simp at h

example : writeSlice ⟨true, false⟩ (.cons (ascii "a") .count .nil) [[.count 1], [.none]] = some (ascii "{\"a\": 1}\n{\"a\": null}\n") := by decide +kernel

/-- Every event of values that are shown well is a JSON document of one object, with a member for each field, in order, and an
object for each record. -/
theorem C87_json_partial (numeric : Bool) (layout : Fields) (row : List Data) (hl : FieldsOk layout) (hr : RowOk numeric layout row) :
    ∃ line ns vs, writeRow ⟨false, numeric⟩ layout row = some (line ++ [10]) ∧ Document line (.obj ns vs) ∧ ShowsFields numeric layout row ns vs := by
  obtain ⟨ns, ts, vs, h1, h2, h3, h4, h5, h6⟩ := fields_good numeric layout row hl hr []
  rw [List.append_nil] at h1
  refine ⟨jsonObject (ns.map jsonString) ts, ns, vs, ?_, ⟨object_utf8 h6 h5, [], _, [], by simp, ws_nil, object_text h3 h2, ws_nil⟩, h4⟩
  simp [writeRow, h1]

/-- With the option to flatten, the object has one member for each column; its name has all names on the way to the column. -/
theorem C87_flat_partial (numeric : Bool) (layout : Fields) (row : List Data) (hl : FieldsOk layout) (hr : RowOk numeric layout row) :
    ∃ line vs, writeRow ⟨true, numeric⟩ layout row = some (line ++ [10])
      ∧ Document line (.obj ((paths layout).map fun p => dotted p.1) vs) ∧ vs.length = (paths layout).length
      ∧ List.Forall₂ (fun p x => ShowsField numeric p.1.2 [x] p.2) ((paths layout).zip vs) row := by
  obtain ⟨p1, p2⟩ := flatten_paths layout []
  have hr' : List.Forall₂ (fun p x => ColumnOk numeric p.2 x) (paths (flatten [] layout)) row := by
    rw [p1, List.forall₂_map_left_iff]; exact hr
  obtain ⟨ns, ts, vs, h1, h2, h3, h4, h5, h6⟩ := fields_good numeric (flatten [] layout) row (p2 utf8_nil hl) hr' []
  obtain ⟨g1, g2, g3⟩ := shows_flat numeric _ row ns vs (flatten_flat layout []) h4
  rw [List.append_nil] at h1
  have e : ns = (paths layout).map fun p => dotted p.1 := by
    rw [g1, p1, List.map_map]
    apply List.map_congr_left
    intro p _
    simp [dotted]
  have hz : (paths (flatten [] layout)).zip vs = ((paths layout).zip vs).map (fun q => (([dotted q.1.1], q.1.2), q.2)) := by
    rw [p1, List.zip_map_left]
    apply List.map_congr_left
    intro q _
    rfl
  refine ⟨jsonObject (ns.map jsonString) ts, vs, by simp [writeRow, h1], ?_, by rw [g2, p1]; simp, ?_⟩
  · rw [← e]
    exact ⟨object_utf8 h6 h5, [], _, [], by simp, ws_nil, object_text h3 h2, ws_nil⟩
  · rw [hz, List.forall₂_map_left_iff] at g3
    exact g3

example : FieldsOk exLayout ∧ RowOk false exLayout exRow := by
  have hu : ∀ s : String, (ascii s).all (fun b => decide (b.toNat < 128)) = true → Utf8 (ascii s) := by
    intro s hs
    exact utf8_ascii fun b hb => by simpa using List.all_eq_true.mp hs b hb
  constructor
  · exact ⟨hu _ (by decide), trivial, hu _ (by decide), ⟨hu _ (by decide), trivial, hu _ (by decide), trivial, trivial⟩, trivial⟩
  · have hp : paths exLayout = [([ascii "a"], .int), ([ascii "b", ascii "c"], .string), ([ascii "b", ascii "d"], .enum [ascii "x", ascii "y"])] := rfl
    unfold RowOk
    rw [hp]
    refine .cons (.inr ⟨by simp, trivial⟩) (.cons (.inr ⟨by simp, ?_⟩) (.cons (.inl ⟨_, 1, ascii "y", rfl, rfl, rfl, hu _ (by decide)⟩) .nil))
    exact utf8_ascii (by decide)

/-- Numbers close to a whole one, such as 2^-24, lose all their decimals but keep the point: the line is not JSON. -/
theorem C87_real_refuted : ∃ line, writeRow ⟨false, false⟩ (.cons (ascii "x") .real .nil) [.real (.fin (1 / 2 ^ 24))] = some (line ++ [10])
    ∧ line = ascii "{\"x\": 0.}" ∧ ∀ v, ¬ Document line v := by
  refine ⟨ascii "{\"x\": 0.}", by decide +kernel, rfl, ?_⟩
  intro v h
  have h1 := document_reads h
  have h2 : (document (ascii "{\"x\": 0.}")).isNone = true := by decide +kernel
  rw [h1] at h2
  simp at h2

/-- A map from numbers is not JSON. -/
theorem C87_key_refuted : ∃ line, writeRow ⟨false, false⟩ (.cons (ascii "x") (.map .count .count) .nil) [.map [.count 1] [.count 2]] = some (line ++ [10])
    ∧ line = ascii "{\"x\": {1: 2}}" ∧ ∀ v, ¬ Document line v := by
  refine ⟨ascii "{\"x\": {1: 2}}", by decide +kernel, rfl, ?_⟩
  intro v h
  have h1 := document_reads h
  have h2 : (document (ascii "{\"x\": {1: 2}}")).isNone = true := by decide +kernel
  rw [h1] at h2
  simp at h2

/-- A string that is not UTF-8 is copied: the line is not JSON. -/
theorem C87_utf8_refuted : ∃ line, writeRow ⟨false, false⟩ (.cons (ascii "x") .string .nil) [.string [255]] = some (line ++ [10])
    ∧ ∀ v, ¬ Document line v := by
  refine ⟨ascii "{\"x\": \"" ++ 255 :: ascii "\"}", by decide +kernel, ?_⟩
  intro v h
  have h1 := document_reads h
  have h2 : (document (ascii "{\"x\": \"" ++ 255 :: ascii "\"}")).isNone = true := by decide +kernel
  rw [h1] at h2
  simp at h2

/-- An enumeration within a list, or of a type with another name, is shown by its index, not by its label. -/
theorem C87_enum_refuted :
    writeRow ⟨false, false⟩ (.cons (ascii "x") (.list (.enum [ascii "a", ascii "b"])) .nil) [.list [.enum 1]] = some (ascii "{\"x\": [1]}\n")
    ∧ writeRow ⟨false, false⟩ (.cons (ascii "x") (.alias (.enum [ascii "a", ascii "b"])) .nil) [.enum 1] = some (ascii "{\"x\": 1}\n")
    ∧ writeRow ⟨false, false⟩ (.cons (ascii "x") (.enum [ascii "a", ascii "b"]) .nil) [.enum 1] = some (ascii "{\"x\": \"b\"}\n") := by
  decide +kernel

/-- The text of the least duration is undefined. -/
theorem C87_duration_refuted : writeRow ⟨false, false⟩ (.cons (ascii "x") .duration .nil) [.duration (-(2 ^ 63))] = none := by
  decide +kernel

end Verif.Json
