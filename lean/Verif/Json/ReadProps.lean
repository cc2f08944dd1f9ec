import Verif.Json.ReadLemmas
/-!
C88: the import of JSON.
-/
namespace Verif.Json
open Verif.Data Verif.DataText Verif.DataText.Spec Verif.Json.Spec Verif.Calendar Verif.Number

/-- For every name of a column and every object there is exactly one place to look at. -/
theorem C88_lookup (key : Str) (ns : List Str) (vs : List Value) :
    ∃ parts r, (Parts key parts ∧ ∀ q, Parts key q → q = parts) ∧ Finds parts ns vs r ∧ ∀ r', Finds parts ns vs r' → r' = r := by
  obtain ⟨parts, hp⟩ := parts_exists key
  obtain ⟨h1, h2, h3⟩ := hp
  have h := lookup_finds parts ((dotted parts).length + 1) ns vs h1 h2 (by omega)
  refine ⟨parts, _, ⟨⟨h1, h2, h3⟩, fun q hq => parts_unique hq ⟨h1, h2, h3⟩⟩, (h _).mpr rfl, ?_⟩
  intro r' hr
  exact ((h r').mp hr).symm

/-- A line with an object makes one row.  A column is empty if there is nothing for it; it has the value that stands in its
place if that is one of its type; and it is empty, and the line is reported, if that is of another kind.  Columns with
records within lists or maps have to have a proper value. -/
theorem C88_row_partial (env : Env) (layout : Fields) (line : Str) (ns : List Str) (vs : List Value) (hd : Document line (.obj ns vs)) (hf : FitsAll vs)
    (hl : ∀ p ∈ paths layout, NoRecord p.2 ∨ ∃ parts r, Parts (dotted p.1) parts ∧ Finds parts ns vs r ∧ ∀ v, r = some v → ∃ d, Means v p.2 d) :
    ∃ row complete, readLine (withNumbers env) layout line = some (.row row complete)
      ∧ List.Forall₂ (fun p x => ∀ parts r, Parts (dotted p.1) parts → Finds parts ns vs r →
          (r = none → x = .none) ∧ ∀ v, r = some v → (∀ d, Means v p.2 d → x = d) ∧ (Foreign v p.2 → x = .none ∧ complete = false))
        (paths layout) row
      ∧ ((∀ p ∈ paths layout, ∃ parts r, Parts (dotted p.1) parts ∧ Finds parts ns vs r ∧ ∀ v, r = some v → ∃ d, Means v p.2 d) →
        complete = true) := by
  have hs : simdjson line = some (.obj ns vs) := by
    unfold simdjson
    rw [document_reads hd]
    have : fits (.obj ns vs) = true := fits_of _ (by simpa [Fits] using hf)
    simp [this]
  have e : leaves [] layout = (paths layout).map (fun p => (dotted p.1, p.2)) := by
    rw [leaves_paths]; simp
  refine ⟨(paths layout).map fun p => (addField (withNumbers env) (dotted p.1) p.2 ns vs).1,
    (paths layout).all fun p => (addField (withNumbers env) (dotted p.1) p.2 ns vs).2, ?_, ?_, ?_⟩
  · unfold readLine
    rw [hs]
    simp only
    rw [e, addLeaves_rows, List.map_map, List.all_map]
    · rfl
    · intro l hm
      obtain ⟨p, hp, rfl⟩ := List.mem_map.mp hm
      rcases hl p hp with h | ⟨parts, r, h1, h2, h3⟩
      · exact addField_check _ _ _ _ _ h
      · simp only
        rw [addField_finds (withNumbers env) h1 p.2 h2]
        cases r with
        | none => exact check_none _
        | some v =>
          obtain ⟨d, hm⟩ := h3 v rfl
          have := means_convert env hm
          unfold Converts at this
          simp only [this]
          exact means_check hm
  · rw [List.forall₂_map_right_iff, List.forall₂_same]
    intro p hp parts r h1 h2
    have h3 := addField_finds (withNumbers env) h1 p.2 h2
    refine ⟨?_, ?_⟩
    · rintro rfl; rw [h3]
    · rintro v rfl
      refine ⟨?_, ?_⟩
      · intro d hm
        have := means_convert env hm
        unfold Converts at this
        rw [h3]
        simp only [this]
      · intro hm
        have := foreign_convert (withNumbers env) hm
        refine ⟨by rw [h3]; simp only [this], ?_⟩
        rw [Bool.eq_false_iff]
        intro ha
        have := List.all_eq_true.mp ha p hp
        rw [h3] at this
        simp_all
  · intro h
    rw [List.all_eq_true]
    intro p hp
    obtain ⟨parts, r, h1, h2, h3⟩ := h p hp
    rw [addField_finds (withNumbers env) h1 p.2 h2]
    cases r with
    | none => rfl
    | some v =>
      obtain ⟨d, hm⟩ := h3 v rfl
      have := means_convert env hm
      unfold Converts at this
      simp only [this]

/-- A layout for the example: an integer and, in a record, a duration and a list of addresses. -/
def inLayout : Fields :=
  .cons (ascii "a") .int (.cons (ascii "b") (.record (.cons (ascii "c") .duration (.cons (ascii "d") (.list .address) .nil))) .nil)

/-- A number for the example. -/
def inNum : Num := ⟨true, [7], [], none⟩

/-- The names and values of an object for the example: `b.c` stands for itself; there is nothing for `b.d`. -/
def inNames : List Str := [ascii "b.c", ascii "z", ascii "a"]
@[inherit_doc inNames] def inValues : List Value := [.str (ascii "5.0m"), .null, .num inNum]

example : (∀ p ∈ paths inLayout, NoRecord p.2) ∧ Document (ascii "{\"b.c\": \"5.0m\", \"z\": null, \"a\": -7}") (.obj inNames inValues)
    ∧ FitsAll inValues
    ∧ Finds [ascii "b", ascii "c"] inNames inValues (some (.str (ascii "5.0m"))) ∧ Means (.str (ascii "5.0m")) .duration (.duration (5 * 60 * 10 ^ 9))
    ∧ Finds [ascii "b", ascii "d"] inNames inValues none
    ∧ Finds [ascii "a"] inNames inValues (some (.num inNum)) ∧ Means (.num inNum) .int (.int (-7)) := by
  have hv : inNum.value = -7 := by simp [inNum, Num.value, Num.mantissa, numeral]
  have hi : inNum.Integral := ⟨rfl, rfl⟩
  refine ⟨?_, ?_, ?_, ?_, ?_, ?_, ?_, ?_⟩
  · have hp : paths inLayout = [([ascii "a"], .int), ([ascii "b", ascii "c"], .duration), ([ascii "b", ascii "d"], .list .address)] := rfl
    rw [hp]; simp [NoRecord]
  · have h1 : Text (ascii "\"5.0m\"") (.str (ascii "5.0m")) := .str (ascii "5.0m") _ (plain_chars (plain_chars_of (by decide +kernel)))
    have h2 : Text (ascii "-7") (.num inNum) := .num _ _ (.mk true [7] [] [] none ⟨by simp, by simp⟩ (by simp) (by simp) .absent)
    have h3 := object_text (ns := inNames) (ts := [ascii "\"5.0m\"", ascii "null", ascii "-7"]) rfl (.cons h1 (.cons .null (.cons h2 .nil)))
    refine ⟨utf8_ascii (by decide +kernel), [], _, [], ?_, ws_nil, h3, ws_nil⟩
    decide +kernel
  · have hz : |inNum.value| < 2 ^ 1024 - 2 ^ 970 := by rw [hv]; decide +kernel
    simp only [inValues, FitsAll, Fits, true_and, and_true]
    rw [hv]
    exact ⟨fun _ => ⟨by norm_num, by norm_num⟩, fun h => absurd hi h⟩
  · exact .whole _ _ _ _ _ _ (member_iff.mpr rfl) (member_iff.mpr rfl)
  · exact .duration _ "m" (60 * 10 ^ 9) _ (by norm_num) (by norm_num)
      ⟨by simp [Number.Spec.units], by simp, by intro n' u' h h2; simp only [Number.Spec.units, List.mem_cons, Prod.mk.injEq, List.not_mem_nil, or_false] at h; omega⟩
      (by decide +kernel) (by decide +kernel)
  · exact .whole _ _ _ _ _ _ (member_iff.mpr rfl) (member_iff.mpr rfl)
  · exact .last _ _ _ _ (member_iff.mpr rfl)
  · exact .int _ _ hi (by rw [hv]; norm_num) (by norm_num) (by norm_num)

example : Means (.str (ascii "-42")) .int (.int (-42)) := .intWord true [45] [4, 2] (.inr (.inr ⟨rfl, rfl⟩)) ⟨by simp, by simp⟩ (by simp) (by decide) (by decide)
example : Means (.str (ascii "0x1F")) .count (.count 31) :=
  .hexWord 120 [49, 70] [1, 15] (.inl rfl) (by simp) (by simp) (.cons (.digit 1 (by omega)) (.cons (.upper 5 (by omega)) .nil))
example : Means (.str (ascii "+7")) .real (.real (.fin 7)) := .realWord false [43] [7] (.inr (.inl ⟨rfl, rfl⟩)) ⟨by simp, by simp⟩ (by simp) (by decide)
example : Means (.num inNum) .string (.string (ascii "-7")) := by
  have h := Means.digits inNum (-7) [7] ⟨rfl, rfl⟩ (by simp [inNum, Num.value, Num.mantissa, numeral]) (by norm_num) (by norm_num) ⟨by simp, by simp⟩
    (.inr (by simp)) rfl
  have e : (if (-7 : Int) < 0 then [45] else []) ++ digitText [7] = ascii "-7" := by decide +kernel
  rwa [e] at h

/-- A JSON document that is not an object makes no row. -/
theorem C88_other (env : Env) (layout : Fields) (line : Str) (v : Value) (hd : Document line v) (hv : ∀ ns vs, v ≠ .obj ns vs) :
    readLine env layout line = none := by
  unfold readLine simdjson
  rw [document_reads hd]
  cases v with
  | obj ns vs => exact absurd rfl (hv ns vs)
  | _ => simp only; split <;> simp_all

example : Document (ascii "[null]") (.arr [.null]) :=
  ⟨utf8_ascii (by decide +kernel), [], _, [], by decide +kernel, ws_nil, array_text (ts := [ascii "null"]) (.cons .null .nil), ws_nil⟩

/-- A negative number in a column of counts becomes a large one, and nothing is reported. -/
theorem C88_count_refuted (env : Env) :
    readLine env (.cons (ascii "x") .count .nil) (ascii "{\"x\": -1}") = some (.row [.count (2 ^ 64 - 1)] true) := by
  have h : simdjson (ascii "{\"x\": -1}") = some (.obj [ascii "x"] [.num ⟨true, [1], [], none⟩]) := simdjson_eq (by decide +kernel)
  unfold readLine
  rw [h]
  rfl

/-- A number too large for 64 bits makes the whole line be skipped, even where a column of reals could hold it. -/
theorem C88_big_refuted (env : Env) :
    readLine env (.cons (ascii "x") .real (.cons (ascii "y") .count .nil)) (ascii "{\"x\": 18446744073709551616, \"y\": 1}") = none := by
  have h : (simdjson (ascii "{\"x\": 18446744073709551616, \"y\": 1}")).isNone = true := by decide +kernel
  unfold readLine
  rw [Option.isNone_iff_eq_none.mp h]

/-- Types with another name take no values at all. -/
theorem C88_alias_refuted (env : Env) (t : Ty) (v : Value) (h : v ≠ .null) : convert env v (.alias t) = none := by
  cases v with
  | null => exact absurd rfl h
  | bool b => rfl
  | num n => simp only [convert]; cases classify n <;> rfl
  | str s => rfl
  | arr xs => simp [convert]
  | obj ns vs => simp [convert]

/-- For a list of records, an object without some field, or with its fields in another order, is an error that ends the import. -/
theorem C88_record_refuted (env : Env) :
    readLine env (.cons (ascii "x") (.list (.record (.cons (ascii "a") .string (.cons (ascii "b") .string .nil)))) .nil) (ascii "{\"x\": [{\"a\": \"s\"}]}")
      = some .clash
    ∧ readLine env (.cons (ascii "x") (.list (.record (.cons (ascii "a") .string (.cons (ascii "b") .string .nil)))) .nil)
      (ascii "{\"x\": [{\"b\": \"s\", \"a\": \"s\"}]}") = some .clash := by
  have h1 : simdjson (ascii "{\"x\": [{\"a\": \"s\"}]}") = some (.obj [ascii "x"] [.arr [.obj [ascii "a"] [.str (ascii "s")]]]) := simdjson_eq (by decide +kernel)
  have h2 : simdjson (ascii "{\"x\": [{\"b\": \"s\", \"a\": \"s\"}]}")
      = some (.obj [ascii "x"] [.arr [.obj [ascii "b", ascii "a"] [.str (ascii "s"), .str (ascii "s")]]]) := simdjson_eq (by decide +kernel)
  unfold readLine
  rw [h1, h2]
  exact ⟨rfl, rfl⟩

/-- A member with the name of an outer record hides one with the full name of a column. -/
theorem C88_shadow_refuted (env : Env) :
    readLine env (.cons (ascii "a") (.record (.cons (ascii "b") .string .nil)) .nil) (ascii "{\"a\": 1, \"a.b\": \"s\"}") = some (.row [.none] true) := by
  have h : simdjson (ascii "{\"a\": 1, \"a.b\": \"s\"}") = some (.obj [ascii "a", ascii "a.b"] [.num ⟨false, [1], [], none⟩, .str (ascii "s")]) :=
    simdjson_eq (by decide +kernel)
  unfold readLine
  rw [h]
  rfl

end Verif.Json
