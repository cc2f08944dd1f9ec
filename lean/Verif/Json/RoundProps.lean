import Verif.Json.RoundLemmas
import Verif.Json.ReadProps
/-!
C89: export and import of JSON.
-/
namespace Verif.Json
open Verif.Data Verif.DataText Verif.DataText.Spec Verif.Json.Spec Verif.Calendar Verif.Number

theorem row_back (env : Env) (layout : Fields) (row : List Data) (hd : Distinct layout)
    (hr : List.Forall₂ (fun p x => ColumnKept p.2 x) (paths layout) row) (line : Str) (ns : List Str) (vs : List Value)
    (h1 : Document line (.obj ns vs)) (h2 : FitsAll vs)
    (h3 : List.Forall₂ (fun p x => ∃ w, Finds p.1 ns vs (some w) ∧ ShowsField false p.2 [x] w) (paths layout) row) :
    readLine (withNumbers env) layout line = some (.row row true) := by
  have hfree := fun p hp => paths_free (.record layout) (by simpa [DistinctIn] using hd) p (by simpa [pathsOf] using hp)
  have hleaf := fun p hp => paths_leaf (.record layout) p (by simpa [pathsOf] using hp)
  have hparts : ∀ p ∈ paths layout, Parts (dotted p.1) p.1 := fun p hp => ⟨paths_ne layout p hp, hfree p hp, rfl⟩
  have hm : List.Forall₂ (fun p x => ∃ w, Finds p.1 ns vs (some w) ∧ Means w p.2 x) (paths layout) row := by
    clear h1 h2 hd hfree hparts
    generalize paths layout = ps at *
    induction hr with
    | nil => exact .nil
    | cons hk _ ih =>
      cases h3 with
      | cons h h3 =>
        obtain ⟨w, g1, g2⟩ := h
        exact .cons ⟨w, g1, (column_back hk (hleaf _ (by simp)) g2).1⟩ (ih h3 fun p hp => hleaf p (by simp [hp]))
  have hall : ∀ p ∈ paths layout, ∃ parts r, Parts (dotted p.1) parts ∧ Finds parts ns vs r ∧ ∀ v, r = some v → ∃ d, Means v p.2 d := by
    intro p hp
    obtain ⟨i, hi, rfl⟩ := List.mem_iff_getElem.mp hp
    have hj : i < row.length := by rw [← hm.length_eq]; exact hi
    obtain ⟨w, g1, g2⟩ := (List.forall₂_iff_get.mp hm).2 i hi hj
    refine ⟨_, some w, hparts _ hp, g1, ?_⟩
    intro v hv
    simp only [Option.some.injEq] at hv
    subst hv
    exact ⟨_, g2⟩
  obtain ⟨row', ok, e1, e2, e3⟩ := C88_row_partial env layout line ns vs h1 h2 (fun p hp => .inr (hall p hp))
  rw [e1, e3 hall]
  have : row' = row := by
    clear e1 e3 hall hr h3 hleaf hfree h1 h2 hd
    generalize paths layout = ps at *
    induction hm generalizing row' with
    | nil => cases e2; rfl
    | @cons p x ps row hk _ ih =>
      cases e2 with
      | cons h e2 =>
        obtain ⟨w, g1, g2⟩ := hk
        have := (h _ _ (hparts _ (by simp)) g1).2 w rfl
        rw [this.1 _ g2, ih _ (fun p hp => hparts p (by simp [hp])) e2]
  rw [this]

/-- An event of values that JSON can keep, exported, with or without nested objects, and imported again, is the same. -/
theorem C89_roundtrip_partial (env : Env) (flat : Bool) (layout : Fields) (row : List Data) (hu : FieldsOk layout) (hd : Distinct layout)
    (hr : List.Forall₂ (fun p x => ColumnKept p.2 x) (paths layout) row) :
    ∃ line, writeRow ⟨flat, false⟩ layout row = some (line ++ [10]) ∧ (10 : UInt8) ∉ line
      ∧ readLine (withNumbers env) layout line = some (.row row true) := by
  have hok : RowOk false layout row := hr.imp fun _ _ h => column_ok h
  have hleaf := fun p hp => paths_leaf (.record layout) p (by simpa [pathsOf] using hp)
  cases flat with
  | false =>
    obtain ⟨line, ns, vs, h1, h2, h3⟩ := C87_json_partial false layout row hu hok
    obtain ⟨l, hl, hn⟩ := C87_line _ _ _ _ h1
    have e : line = l := List.append_cancel_right hl
    refine ⟨line, h1, e ▸ hn, row_back env layout row hd hr line ns vs h2 (fits_fields layout row ns vs hr h3) (finds_fields false layout row ns vs hd h3)⟩
  | true =>
    obtain ⟨line, vs, h1, h2, h3, h4⟩ := C87_flat_partial false layout row hu hok
    obtain ⟨l, hl, hn⟩ := C87_line _ _ _ _ h1
    have e : line = l := List.append_cancel_right hl
    have h5 : List.Forall₂ (fun p x => ∃ w, (p, w) ∈ (paths layout).zip vs ∧ ShowsField false p.2 [x] w) (paths layout) row := by
      rw [List.forall₂_iff_get]
      refine ⟨hr.length_eq, ?_⟩
      intro i hi hj
      have hz : i < ((paths layout).zip vs).length := by simp; omega
      have := (List.forall₂_iff_get.mp h4).2 i hz hj
      refine ⟨vs[i]'(by omega), ?_, by simpa using this⟩
      apply List.mem_iff_getElem.mpr
      exact ⟨i, hz, by simp⟩
    refine ⟨line, h1, e ▸ hn, row_back env layout row hd hr line _ vs h2 ?_ ?_⟩
    · have : ∀ v ∈ vs, Fits v := by
        intro v hv
        obtain ⟨i, hi, rfl⟩ := List.mem_iff_getElem.mp hv
        have hj : i < row.length := by rw [← hr.length_eq]; omega
        have hz : i < ((paths layout).zip vs).length := by simp; omega
        have h6 := (List.forall₂_iff_get.mp h4).2 i hz hj
        have h7 := (List.forall₂_iff_get.mp hr).2 i (by omega) hj
        simp only [List.get_eq_getElem, List.getElem_zip] at h6 h7
        exact (column_back h7 (hleaf _ (List.getElem_mem _)) h6).2
      clear h1 h2 h3 h4 h5
      induction vs with
      | nil => trivial
      | cons v vs ih => exact ⟨this v (by simp), ih fun w hw => this w (by simp [hw])⟩
    · refine h5.imp ?_
      rintro p x ⟨w, g1, g2⟩
      exact ⟨w, finds_flat hd g1, g2⟩

/-- An event for the example: all but the enumeration is in a record. -/
def backLayout : Fields :=
  .cons (ascii "a") (.enum [ascii "x", ascii "y"])
    (.cons (ascii "b") (.record (.cons (ascii "c") .real (.cons (ascii "d") (.list (.record (.cons (ascii "e") .string .nil))) .nil))) .nil)

/-- Its values. -/
def backRow : List Data := [.enum 1, .real (.fin (rnd ((1500000 : Int) / 10 ^ 6))), .list [.record [ascii "e"] [.string [34, 10]], .none]]

example : FieldsOk backLayout ∧ Distinct backLayout ∧ List.Forall₂ (fun p x => ColumnKept p.2 x) (paths backLayout) backRow := by
  have hu : ∀ s : String, (ascii s).all (fun b => decide (b.toNat < 128)) = true → Utf8 (ascii s) := by
    intro s hs
    exact utf8_ascii fun b hb => by simpa using List.all_eq_true.mp hs b hb
  refine ⟨?_, ?_, ?_⟩
  · exact ⟨hu _ (by decide), trivial, hu _ (by decide), ⟨hu _ (by decide), trivial, hu _ (by decide), trivial, trivial⟩, trivial⟩
  · exact ⟨by decide, by decide, trivial, by decide, by decide, ⟨by decide, by decide, trivial, by decide, by decide, trivial, trivial⟩, trivial⟩
  · have hp : paths backLayout = [([ascii "a"], .enum [ascii "x", ascii "y"]), ([ascii "b", ascii "c"], .real),
      ([ascii "b", ascii "d"], .list (.record (.cons (ascii "e") .string .nil)))] := rfl
    rw [hp]
    refine .cons (.inr ⟨_, 1, ascii "y", rfl, rfl, rfl, by decide, by decide, hu _ (by decide)⟩)
      (.cons (.inl (.real 1500000 (by decide))) (.cons (.inl (.list _ _ (.cons _ _ _ ?_ (.cons _ _ _ (.none _) (.nil _))))) .nil))
    exact .record _ _ _ (.cons _ _ _ _ _ _ (hu _ (by decide)) (.string _ (utf8_ascii (by decide))) .nil) (by decide)

example : writeRow ⟨true, false⟩ backLayout backRow = some (ascii "{\"a\": \"y\", \"b.c\": 1.5, \"b.d\": [{\"e\": \"\\\"\\n\"}, null]}\n") := by decide +kernel

/-- A pattern is written without the slashes that the reader asks for. -/
theorem C89_pattern_refuted (env : Env) : writeRow ⟨false, false⟩ (.cons (ascii "x") .pattern .nil) [.pattern (ascii "ab")] = some (ascii "{\"x\": \"ab\"}\n")
    ∧ readLine env (.cons (ascii "x") .pattern .nil) (ascii "{\"x\": \"ab\"}") = some (.row [.none] false) := by
  refine ⟨by decide +kernel, ?_⟩
  have h : simdjson (ascii "{\"x\": \"ab\"}") = some (.obj [ascii "x"] [.str (ascii "ab")]) := simdjson_eq (by decide +kernel)
  unfold readLine
  rw [h]
  rfl

/-- An enumeration in a list is written as a number, which the reader does not take. -/
theorem C89_enum_refuted (env : Env) : writeRow ⟨false, false⟩ (.cons (ascii "x") (.list (.enum [ascii "a"])) .nil) [.list [.enum 0]] = some (ascii "{\"x\": [0]}\n")
    ∧ readLine env (.cons (ascii "x") (.list (.enum [ascii "a"])) .nil) (ascii "{\"x\": [0]}") = some (.row [.none] false) := by
  refine ⟨by decide +kernel, ?_⟩
  have h : simdjson (ascii "{\"x\": [0]}") = some (.obj [ascii "x"] [.arr [.num ⟨false, [0], [], none⟩]]) := simdjson_eq (by decide +kernel)
  unfold readLine
  rw [h]
  rfl

/-- A real with more than six decimals comes back as another. -/
theorem C89_real_refuted (env : Env) : writeRow ⟨false, false⟩ (.cons (ascii "x") .real .nil) [.real (.fin (rnd (1 / 3)))] = some (ascii "{\"x\": 0.333333}\n")
    ∧ readLine env (.cons (ascii "x") .real .nil) (ascii "{\"x\": 0.333333}") = some (.row [.real (.fin (rnd (333333 / 10 ^ 6)))] true)
    ∧ rnd (1 / 3) ≠ rnd (333333 / 10 ^ 6) := by
  refine ⟨by decide +kernel, ?_, by decide +kernel⟩
  have h : simdjson (ascii "{\"x\": 0.333333}") = some (.obj [ascii "x"] [.num ⟨false, [0], [3, 3, 3, 3, 3, 3], none⟩]) := simdjson_eq (by decide +kernel)
  have hv : (⟨false, [0], [3, 3, 3, 3, 3, 3], none⟩ : Num).value = 333333 / 10 ^ 6 := by decide +kernel
  have hc : classify ⟨false, [0], [3, 3, 3, 3, 3, 3], none⟩ = .double (rnd (333333 / 10 ^ 6)) := by
    rw [classify_double (by simp [Num.Integral]) (by rw [hv]; decide +kernel), hv]
  have hl : lookup ((ascii "x").length + 1) (ascii "x") [ascii "x"] [.num ⟨false, [0], [3, 3, 3, 3, 3, 3], none⟩] = some (.num ⟨false, [0], [3, 3, 3, 3, 3, 3], none⟩) := rfl
  unfold readLine
  rw [h]
  simp only [leaves, leafOf, List.nil_append, List.append_nil, addLeaves, addField, hl, convert, hc, convertNumber]
  rfl

/-- A large real is written as an integer that makes the reader skip the line. -/
theorem C89_big_refuted (env : Env) : writeRow ⟨false, false⟩ (.cons (ascii "x") .real .nil) [.real (.fin (2 ^ 64))] = some (ascii "{\"x\": 18446744073709551616}\n")
    ∧ readLine env (.cons (ascii "x") .real .nil) (ascii "{\"x\": 18446744073709551616}") = none := by
  refine ⟨by decide +kernel, ?_⟩
  have h : (simdjson (ascii "{\"x\": 18446744073709551616}")).isNone = true := by decide +kernel
  unfold readLine
  rw [Option.isNone_iff_eq_none.mp h]

/-- A value of a type with another name is lost. -/
theorem C89_alias_refuted (env : Env) : writeRow ⟨false, false⟩ (.cons (ascii "x") (.alias .count) .nil) [.count 1] = some (ascii "{\"x\": 1}\n")
    ∧ readLine env (.cons (ascii "x") (.alias .count) .nil) (ascii "{\"x\": 1}") = some (.row [.none] false) := by
  refine ⟨by decide +kernel, ?_⟩
  have h : simdjson (ascii "{\"x\": 1}") = some (.obj [ascii "x"] [.num ⟨false, [1], [], none⟩]) := simdjson_eq (by decide +kernel)
  unfold readLine
  rw [h]
  rfl

end Verif.Json
