import Verif.Json.NumLemmas
/-!
Whole values and events written by the printer.
-/
namespace Verif.Json
open Verif.Data Verif.DataText Verif.DataText.Spec Verif.Json.Spec Verif.Calendar

theorem ws_nil : Ws [] := by simp [Ws]
theorem ws_space : Ws [32] := by simp [Ws]

theorem elements_join : ∀ {ts : List Str} {vs : List Value}, List.Forall₂ Text ts vs → ts ≠ [] → ∀ {a : Str}, Ws a →
    Elements (a ++ join comma ts) vs
  | [_], [_], .cons ht .nil, _, a, ha => by
    have := Elements.one a _ [] _ ha ht ws_nil
    simpa [join] using this
  | t :: u :: ts, v :: vs, .cons ht hr, _, a, ha => by
    have := Elements.more a t [] _ v vs ha ht ws_nil (elements_join hr (by simp) ws_space)
    simpa [join, comma, ch] using this

theorem array_text {ts : List Str} {vs : List Value} (h : List.Forall₂ Text ts vs) : Text (jsonArray ts) (.arr vs) := by
  cases h with
  | nil => exact .arr0 [] ws_nil
  | cons ht hr => exact .arr _ _ (elements_join (a := []) (.cons ht hr) (by simp) ws_nil)

theorem members_join : ∀ {ns : List Str} {ts : List Str} {vs : List Value}, ns.length = ts.length → List.Forall₂ Text ts vs → ts ≠ [] →
    ∀ {a : Str}, Ws a → Members (a ++ join comma (List.zipWith jsonMember (ns.map jsonString) ts)) ns vs
  | [n], [t], [v], _, .cons ht .nil, _, a, ha => by
    have := Members.one a _ [] [32] t [] n v ha (escape_chars n) ws_nil ws_space ht ws_nil
    simpa [join, jsonMember, jsonString, ch] using this
  | [], _ :: _, _, hl, _, _, _, _ => by simp at hl
  | [], [], _, _, _, h, _, _ => absurd rfl h
  | n :: m :: ns, t :: u :: ts, v :: vs, hl, .cons ht hr, _, a, ha => by
    have := Members.more a _ [] [32] t [] _ n v (m :: ns) vs ha (escape_chars n) ws_nil ws_space ht ws_nil
      (members_join (by simpa using hl) hr (by simp) ws_space)
    simpa [join, jsonMember, jsonString, ch, comma] using this

theorem object_text {ns : List Str} {ts : List Str} {vs : List Value} (hl : ns.length = ts.length) (h : List.Forall₂ Text ts vs) :
    Text (jsonObject (ns.map jsonString) ts) (.obj ns vs) := by
  cases h with
  | nil =>
    have : ns = [] := by simpa using hl
    subst this
    exact .obj0 [] ws_nil
  | cons ht hr => exact .obj _ _ _ (members_join (a := []) hl (.cons ht hr) (by simp) ws_nil)

theorem utf8_join {sep : Str} (hs : Utf8 sep) : ∀ {ts : List Str}, (∀ t ∈ ts, Utf8 t) → Utf8 (join sep ts)
  | [], _ => utf8_nil
  | [t], h => h t (by simp)
  | t :: u :: ts, h => utf8_append (utf8_append (h t (by simp)) hs) (utf8_join hs fun x hx => h x (by simp only [List.mem_cons] at hx ⊢; exact .inr hx))

theorem utf8_comma : Utf8 comma := utf8_ascii (by simp [comma, ch])

theorem array_utf8 {ts : List Str} (h : ∀ t ∈ ts, Utf8 t) : Utf8 (jsonArray ts) := by
  have h1 : Utf8 [ch '['] := utf8_ascii (by simp [ch])
  have h2 : Utf8 [ch ']'] := utf8_ascii (by simp [ch])
  exact utf8_append h1 (utf8_append (utf8_join utf8_comma h) h2)

theorem utf8_zip : ∀ {ks ts : List Str}, (∀ k ∈ ks, Utf8 k) → (∀ t ∈ ts, Utf8 t) → ∀ m ∈ List.zipWith jsonMember ks ts, Utf8 m
  | [], _, _, _, m, hm => by simp at hm
  | _ :: _, [], _, _, m, hm => by simp at hm
  | k :: ks, t :: ts, hk, ht, m, hm => by
    simp only [List.zipWith_cons_cons, List.mem_cons] at hm
    rcases hm with rfl | hm
    · have h1 : Utf8 [ch ':', ch ' '] := utf8_ascii (by simp [ch])
      exact utf8_append (hk k (by simp)) (utf8_append h1 (ht t (by simp)))
    · exact utf8_zip (fun x hx => hk x (by simp [hx])) (fun x hx => ht x (by simp [hx])) m hm

theorem object_utf8 {ns ts : List Str} (hn : ∀ n ∈ ns, Utf8 n) (h : ∀ t ∈ ts, Utf8 t) : Utf8 (jsonObject (ns.map jsonString) ts) := by
  have h1 : Utf8 [ch '{'] := utf8_ascii (by simp [ch])
  have h2 : Utf8 [ch '}'] := utf8_ascii (by simp [ch])
  refine utf8_append h1 (utf8_append (utf8_join utf8_comma (utf8_zip ?_ h)) h2)
  intro k hk
  obtain ⟨n, hn', rfl⟩ := List.mem_map.mp hk
  exact jsonString_utf8 (hn n hn')

theorem all_strings (numeric : Bool) (ns : List Str) : jsonAll numeric (ns.map .string) = some (ns.map jsonString) := by
  induction ns with
  | nil => rfl
  | cons n ns ih => simp [jsonAll, jsonData, ih]

theorem forall2_length {α β : Type} {R : α → β → Prop} {xs : List α} {ys : List β} (h : List.Forall₂ R xs ys) : xs.length = ys.length := h.length_eq

theorem forall2_split {α β : Type} {R : α → β → Prop} : ∀ {xs ys : List α} {zs : List β}, List.Forall₂ R (xs ++ ys) zs →
    ∃ a b, zs = a ++ b ∧ List.Forall₂ R xs a ∧ List.Forall₂ R ys b
  | [], _, zs, h => ⟨[], zs, rfl, .nil, h⟩
  | _ :: _, _, _ :: _, .cons h1 h2 => by
    obtain ⟨a, b, rfl, g1, g2⟩ := forall2_split h2
    exact ⟨_ :: a, b, rfl, .cons h1 g1, g2⟩

/-- What is to be shown of a value. -/
def DataGood (numeric : Bool) (x : Data) : Prop := ∃ t v, jsonData numeric x = some t ∧ Text t v ∧ Shows numeric x v ∧ Utf8 t

/-- What is to be shown of several. -/
def AllGood (numeric : Bool) (xs : List Data) : Prop :=
  ∃ ts vs, jsonAll numeric xs = some ts ∧ List.Forall₂ Text ts vs ∧ ShowsAll numeric xs vs ∧ (∀ t ∈ ts, Utf8 t) ∧ xs.length = ts.length

mutual
theorem data_good (numeric : Bool) : ∀ (x : Data), Ok numeric x → DataGood numeric x
  | .none, _ => ⟨_, _, rfl, .null, .none, plain_utf8 (plain_chars_of (by decide))⟩
  | .bool true, _ => ⟨_, _, rfl, .true, .bool _, plain_utf8 (plain_chars_of (by decide))⟩
  | .bool false, _ => ⟨_, _, rfl, .false, .bool _, plain_utf8 (plain_chars_of (by decide))⟩
  | .int i, _ => ⟨_, _, rfl, intText_text i, .int i _ ⟨rfl, rfl⟩ (intNum_value i), plain_utf8 (plain_intText i)⟩
  | .count n, _ => ⟨_, .num (intNum n), rfl, by rw [printNat_intText]; exact intText_text n, .count n _ ⟨rfl, rfl⟩ (by rw [intNum_value]; simp), plain_utf8 (plain_printNat n)⟩
  | .real (.fin x), h => by
    simp only [Json.Spec.Ok] at h
    obtain ⟨h1, h2⟩ := jsonReal_text h
    exact ⟨_, _, rfl, h1, .real x _ (realNum_value x) h2, plain_utf8 (plain_jsonReal _)⟩
  | .real .nan, _ => ⟨_, _, rfl, .null, .notFinite _ (by simp), plain_utf8 (plain_chars_of (by decide))⟩
  | .real .negInf, _ => ⟨_, _, rfl, .null, .notFinite _ (by simp), plain_utf8 (plain_chars_of (by decide))⟩
  | .real .posInf, _ => ⟨_, _, rfl, .null, .notFinite _ (by simp), plain_utf8 (plain_chars_of (by decide))⟩
  | .duration d, h => by
    simp only [Json.Spec.Ok] at h
    obtain ⟨hd, hr⟩ := h
    cases numeric with
    | true =>
      obtain ⟨h1, h2⟩ := jsonReal_text (hr rfl)
      refine ⟨_, _, rfl, h1, .seconds d _ rfl (realNum_value _) ?_, plain_utf8 (plain_jsonReal _)⟩
      have h3 := seconds_near d hd
      have := abs_add_le ((realNum (rnd (rnd (d : Rat) / 10 ^ 9))).value - rnd (rnd (d : Rat) / 10 ^ 9)) (rnd (rnd (d : Rat) / 10 ^ 9) - (d : Rat) / 10 ^ 9)
      rw [sub_add_sub_cancel] at this
      have : (1 : Rat) / (2 * 10 ^ 6) + 2 / 10 ^ 6 ≤ 3 / 10 ^ 6 := by norm_num
      linarith
    | false =>
      obtain ⟨t, ht⟩ := printDuration_some d hd
      obtain ⟨h1, h2⟩ := plain_quoted (plain_printDuration ht)
      exact ⟨_, _, by simp [jsonData, ht], h1, .duration d t rfl ht, h2⟩
  | .time t, _ => ⟨_, _, rfl, (plain_quoted (plain_printTime t)).1, .time t, (plain_quoted (plain_printTime t)).2⟩
  | .string s, h => by
    simp only [Json.Spec.Ok] at h
    exact ⟨_, _, rfl, jsonString_text s, .string s, jsonString_utf8 h⟩
  | .pattern s, h => by
    simp only [Json.Spec.Ok] at h
    exact ⟨_, _, rfl, jsonString_text s, .pattern s, jsonString_utf8 h⟩
  | .address a, _ => ⟨_, _, rfl, jsonString_text _, .address a, jsonString_utf8 (plain_utf8 (plain_printAddr a))⟩
  | .subnet n, _ => ⟨_, _, rfl, jsonString_text _, .subnet n, jsonString_utf8 (plain_utf8 (plain_printNet n))⟩
  | .enum n, _ => ⟨_, .num (intNum n), rfl, by rw [printNat_intText]; exact intText_text n, .enum n _ ⟨rfl, rfl⟩ (by rw [intNum_value]; simp), plain_utf8 (plain_printNat n)⟩
  | .list xs, h => by
    simp only [Json.Spec.Ok] at h
    obtain ⟨ts, vs, h1, h2, h3, h4, _⟩ := all_good numeric xs h
    exact ⟨_, _, by simp only [jsonData, h1]; rfl, array_text h2, .list xs vs h3, array_utf8 h4⟩
  | .map ks xs, h => by
    simp only [Json.Spec.Ok] at h
    obtain ⟨hl, ⟨ns, hk, hn⟩, hv⟩ := h
    obtain ⟨ts, vs, h1, h2, h3, h4, h5⟩ := all_good numeric xs hv
    subst hk
    refine ⟨_, .obj ns vs, by simp only [jsonData, h1, all_strings], object_text ?_ h2, .map ns xs vs h3, object_utf8 hn h4⟩
    simp at hl; omega
  | .record ns xs, h => by
    simp only [Json.Spec.Ok] at h
    obtain ⟨hl, hn, hv⟩ := h
    obtain ⟨ts, vs, h1, h2, h3, h4, h5⟩ := all_good numeric xs hv
    exact ⟨_, .obj ns vs, by simp only [jsonData, h1]; rfl, object_text (by omega) h2, .record ns xs vs h3, object_utf8 hn h4⟩
theorem all_good (numeric : Bool) : ∀ (xs : List Data), AllOk numeric xs → AllGood numeric xs
  | [], _ => ⟨[], [], rfl, .nil, .nil, by simp, rfl⟩
  | x :: xs, h => by
    simp only [Json.Spec.AllOk] at h
    obtain ⟨t, v, h1, h2, h3, h4⟩ := data_good numeric x h.1
    obtain ⟨ts, vs, g1, g2, g3, g4, g5⟩ := all_good numeric xs h.2
    refine ⟨t :: ts, v :: vs, by simp only [jsonAll, h1, g1], .cons h2 g2, .cons _ _ _ _ h3 g3, ?_, by simp [g5]⟩
    intro u hu
    rcases List.mem_cons.mp hu with rfl | hu
    · exact h4
    · exact g4 u hu
end

/-- A column that is not a record. -/
theorem column_good (numeric : Bool) {t : Ty} (ht : ∀ fs, t ≠ .record fs) {x : Data} (h : ColumnOk numeric t x) (rest : List Data) :
    ∃ text v, writeType numeric t (x :: rest) = some (text, rest) ∧ Text text v ∧ ShowsField numeric t [x] v ∧ Utf8 text := by
  have hw : writeType numeric t (x :: rest) = (jsonData numeric (canonical t x)).map fun text => (text, rest) := by
    cases t with
    | record fs => exact absurd rfl (ht fs)
    | _ => simp only [writeType]; cases jsonData numeric _ <;> rfl
  rcases h with ⟨labels, n, s, rfl, rfl, hl, hu⟩ | ⟨hn, ho⟩
  · refine ⟨jsonString s, .str s, ?_, jsonString_text s, .label _ _ _ hl, jsonString_utf8 hu⟩
    rw [hw]
    simp [canonical, hl, jsonData]
  · obtain ⟨text, v, h1, h2, h3, h4⟩ := data_good numeric x ho
    refine ⟨text, v, ?_, h2, .column t x v ht hn h3, h4⟩
    have hc : canonical t x = x := by
      unfold canonical
      split
      · exact absurd rfl (hn _)
      · rfl
    rw [hw, hc, h1]; rfl

theorem pathsOf_leaf {t : Ty} (ht : ∀ fs, t ≠ .record fs) : pathsOf t = [([], t)] := by
  cases t with
  | record fs => exact absurd rfl (ht fs)
  | _ => simp only [pathsOf]

theorem leaf_good (numeric : Bool) {t : Ty} (ht : ∀ fs, t ≠ .record fs) {row : List Data}
    (h : List.Forall₂ (fun p x => ColumnOk numeric p.2 x) (pathsOf t) row) (rest : List Data) :
    ∃ text v, writeType numeric t (row ++ rest) = some (text, rest) ∧ Text text v ∧ ShowsField numeric t row v ∧ Utf8 text := by
  rw [pathsOf_leaf ht] at h
  cases h with
  | cons h1 h2 =>
    cases h2
    exact column_good numeric ht h1 rest

mutual
theorem type_good (numeric : Bool) : ∀ (t : Ty) (row : List Data), NamesOk t →
    List.Forall₂ (fun p x => ColumnOk numeric p.2 x) (pathsOf t) row → ∀ rest : List Data,
    ∃ text v, writeType numeric t (row ++ rest) = some (text, rest) ∧ Text text v ∧ ShowsField numeric t row v ∧ Utf8 text
  | .record fs, row, hn, h, rest => by
    simp only [NamesOk] at hn
    simp only [pathsOf] at h
    obtain ⟨ns, ts, vs, h1, h2, h3, h4, h5, h6⟩ := fields_good numeric fs row hn h rest
    exact ⟨_, _, by simp only [writeType, h1], object_text h3 h2, .record fs row ns vs h4, object_utf8 h6 h5⟩
  | .none, _, _, h, rest => leaf_good numeric (by simp) h rest
  | .bool, _, _, h, rest => leaf_good numeric (by simp) h rest
  | .int, _, _, h, rest => leaf_good numeric (by simp) h rest
  | .count, _, _, h, rest => leaf_good numeric (by simp) h rest
  | .real, _, _, h, rest => leaf_good numeric (by simp) h rest
  | .duration, _, _, h, rest => leaf_good numeric (by simp) h rest
  | .time, _, _, h, rest => leaf_good numeric (by simp) h rest
  | .string, _, _, h, rest => leaf_good numeric (by simp) h rest
  | .pattern, _, _, h, rest => leaf_good numeric (by simp) h rest
  | .address, _, _, h, rest => leaf_good numeric (by simp) h rest
  | .subnet, _, _, h, rest => leaf_good numeric (by simp) h rest
  | .enum _, _, _, h, rest => leaf_good numeric (by simp) h rest
  | .list _, _, _, h, rest => leaf_good numeric (by simp) h rest
  | .map _ _, _, _, h, rest => leaf_good numeric (by simp) h rest
  | .alias _, _, _, h, rest => leaf_good numeric (by simp) h rest
theorem fields_good (numeric : Bool) : ∀ (fs : Fields) (row : List Data), FieldsOk fs →
    List.Forall₂ (fun p x => ColumnOk numeric p.2 x) (paths fs) row → ∀ rest : List Data,
    ∃ ns ts vs, writeFields numeric fs (row ++ rest) = some (ns.map jsonString, ts, rest) ∧ List.Forall₂ Text ts vs ∧ ns.length = ts.length
      ∧ ShowsFields numeric fs row ns vs ∧ (∀ t ∈ ts, Utf8 t) ∧ ∀ n ∈ ns, Utf8 n
  | .nil, row, _, h, rest => by
    simp only [paths] at h
    cases h
    exact ⟨[], [], [], by simp [writeFields], .nil, rfl, .nil, by simp, by simp⟩
  | .cons n t fs, row, hn, h, rest => by
    simp only [FieldsOk] at hn
    simp only [paths] at h
    obtain ⟨r1, r2, rfl, g1, g2⟩ := forall2_split h
    rw [List.forall₂_map_left_iff] at g1
    obtain ⟨text, v, h1, h2, h3, h4⟩ := type_good numeric t r1 hn.2.1 g1 (r2 ++ rest)
    obtain ⟨ns, ts, vs, k1, k2, k3, k4, k5, k6⟩ := fields_good numeric fs r2 hn.2.2 g2 rest
    refine ⟨n :: ns, text :: ts, v :: vs, ?_, .cons h2 k2, by simp [k3], .cons n t fs r1 r2 v ns vs h3 k4, ?_, ?_⟩
    · rw [List.append_assoc]
      simp only [writeFields, h1, k1, List.map_cons]
    · intro u hu
      rcases List.mem_cons.mp hu with rfl | hu
      · exact h4
      · exact k5 u hu
    · intro u hu
      rcases List.mem_cons.mp hu with rfl | hu
      · exact hn.1
      · exact k6 u hu
end

/-! ## Lines -/

theorem plain_lf {s : Str} (h : Plain s) : (10 : UInt8) ∉ s := by
  intro hm
  have := (h 10 hm).1
  simp at this

theorem escape_lf (s : Str) : (10 : UInt8) ∉ Escape.escape Escape.jsonEscaper s := by
  have hb : ∀ b : UInt8, (10 : UInt8) ∉ Escape.jsonEscaper b :=
    Escape.forall_byte (P := fun b => (10 : UInt8) ∉ Escape.jsonEscaper b) (by decide +kernel)
  induction s with
  | nil => simp [Escape.escape]
  | cons b s ih =>
    simp only [Escape.escape, List.mem_append, not_or]
    exact ⟨hb b, ih⟩

theorem string_lf (s : Str) : (10 : UInt8) ∉ jsonString s := by
  have := escape_lf s
  simp [jsonString, this]

theorem join_lf : ∀ {ts : List Str}, (∀ t ∈ ts, (10 : UInt8) ∉ t) → (10 : UInt8) ∉ join comma ts
  | [], _ => by simp [join]
  | [t], h => by simpa [join] using h t (by simp)
  | t :: u :: ts, h => by
    simp only [join, List.mem_append, not_or]
    exact ⟨⟨h t (by simp), by decide⟩, join_lf fun x hx => h x (by simp only [List.mem_cons] at hx ⊢; exact .inr hx)⟩

theorem zip_lf : ∀ {ks ts : List Str}, (∀ k ∈ ks, (10 : UInt8) ∉ k) → (∀ t ∈ ts, (10 : UInt8) ∉ t) → ∀ m ∈ List.zipWith jsonMember ks ts, (10 : UInt8) ∉ m
  | [], _, _, _, m, hm => by simp at hm
  | _ :: _, [], _, _, m, hm => by simp at hm
  | k :: ks, t :: ts, hk, ht, m, hm => by
    simp only [List.zipWith_cons_cons, List.mem_cons] at hm
    rcases hm with rfl | hm
    · have h1 := hk k (by simp)
      have h2 := ht t (by simp)
      simp [jsonMember, ch, h1, h2]
    · exact zip_lf (fun x hx => hk x (by simp [hx])) (fun x hx => ht x (by simp [hx])) m hm

theorem object_lf {ks ts : List Str} (hk : ∀ k ∈ ks, (10 : UInt8) ∉ k) (ht : ∀ t ∈ ts, (10 : UInt8) ∉ t) : (10 : UInt8) ∉ jsonObject ks ts := by
  have := join_lf (zip_lf hk ht)
  simp [jsonObject, ch, this]

theorem cons_lf {t : Str} {ts : List Str} (h : (10 : UInt8) ∉ t) (hs : ∀ x ∈ ts, (10 : UInt8) ∉ x) : ∀ x ∈ t :: ts, (10 : UInt8) ∉ x := by
  intro x hx
  rcases List.mem_cons.mp hx with rfl | hx
  · exact h
  · exact hs x hx

theorem strings_lf (ns : List Str) : ∀ k ∈ ns.map jsonString, (10 : UInt8) ∉ k := by
  intro k hk
  obtain ⟨n, _, rfl⟩ := List.mem_map.mp hk
  exact string_lf n

mutual
theorem data_lf (numeric : Bool) : ∀ (x : Data) (t : Str), jsonData numeric x = some t → (10 : UInt8) ∉ t
  | .none, t, h => by simp only [jsonData, Option.some.injEq] at h; subst h; decide
  | .bool b, t, h => by simp only [jsonData, Option.some.injEq] at h; subst h; cases b <;> decide
  | .int i, t, h => by simp only [jsonData, Option.some.injEq] at h; subst h; exact plain_lf (plain_intText i)
  | .count n, t, h => by simp only [jsonData, Option.some.injEq] at h; subst h; exact plain_lf (plain_printNat n)
  | .real r, t, h => by simp only [jsonData, Option.some.injEq] at h; subst h; exact plain_lf (plain_jsonReal r)
  | .duration d, t, h => by
    simp only [jsonData] at h
    split at h
    · simp only [Option.some.injEq] at h; subst h; exact plain_lf (plain_jsonReal _)
    · rw [Option.map_eq_some_iff] at h
      obtain ⟨u, hu, rfl⟩ := h
      have := plain_lf (plain_printDuration hu)
      simp [this]
  | .time x, t, h => by
    simp only [jsonData, Option.some.injEq] at h; subst h
    have := plain_lf (plain_printTime x)
    simp [this]
  | .string s, t, h => by simp only [jsonData, Option.some.injEq] at h; subst h; exact string_lf s
  | .pattern s, t, h => by simp only [jsonData, Option.some.injEq] at h; subst h; exact string_lf s
  | .address a, t, h => by simp only [jsonData, Option.some.injEq] at h; subst h; exact string_lf _
  | .subnet a, t, h => by simp only [jsonData, Option.some.injEq] at h; subst h; exact string_lf _
  | .enum n, t, h => by simp only [jsonData, Option.some.injEq] at h; subst h; exact plain_lf (plain_printNat n)
  | .list xs, t, h => by
    simp only [jsonData] at h
    rw [Option.map_eq_some_iff] at h
    obtain ⟨ts, hts, rfl⟩ := h
    have := join_lf (all_lf numeric xs ts hts)
    simp [jsonArray, ch, this]
  | .map ks vs, t, h => by
    simp only [jsonData] at h
    split at h
    · rename_i kt vt h1 h2
      simp only [Option.some.injEq] at h
      subst h
      exact object_lf (all_lf numeric ks kt h1) (all_lf numeric vs vt h2)
    · simp at h
  | .record ns vs, t, h => by
    simp only [jsonData] at h
    rw [Option.map_eq_some_iff] at h
    obtain ⟨ts, hts, rfl⟩ := h
    exact object_lf (strings_lf ns) (all_lf numeric vs ts hts)
theorem all_lf (numeric : Bool) : ∀ (xs : List Data) (ts : List Str), jsonAll numeric xs = some ts → ∀ t ∈ ts, (10 : UInt8) ∉ t
  | [], ts, h => by simp only [jsonAll, Option.some.injEq] at h; subst h; simp
  | x :: xs, ts, h => by
    simp only [jsonAll] at h
    split at h
    · rename_i t us h1 h2
      simp only [Option.some.injEq] at h
      subst h
      exact cons_lf (data_lf numeric x t h1) (all_lf numeric xs us h2)
    · simp at h
end

theorem leaf_lf (numeric : Bool) {t : Ty} (ht : ∀ fs, t ≠ .record fs) {row r : List Data} {text : Str}
    (h : writeType numeric t row = some (text, r)) : (10 : UInt8) ∉ text := by
  cases row with
  | nil =>
    cases t with
    | record fs => exact absurd rfl (ht fs)
    | _ => simp [writeType] at h
  | cons x row =>
    have hw : writeType numeric t (x :: row) = (jsonData numeric (canonical t x)).map fun text => (text, row) := by
      cases t with
      | record fs => exact absurd rfl (ht fs)
      | _ => simp only [writeType]; cases jsonData numeric _ <;> rfl
    rw [hw, Option.map_eq_some_iff] at h
    obtain ⟨u, hu, h⟩ := h
    simp only [Prod.mk.injEq] at h
    rw [← h.1]; exact data_lf numeric _ _ hu

mutual
theorem type_lf (numeric : Bool) : ∀ (t : Ty) (row r : List Data) (text : Str), writeType numeric t row = some (text, r) → (10 : UInt8) ∉ text
  | .record fs, row, r, text, h => by
    simp only [writeType] at h
    split at h
    · rename_i ns ts r' h1
      simp only [Option.some.injEq, Prod.mk.injEq] at h
      rw [← h.1]
      have := fields_lf numeric fs row ns ts r' h1
      exact object_lf this.1 this.2
    · simp at h
  | .none, _, _, _, h => leaf_lf numeric (by simp) h
  | .bool, _, _, _, h => leaf_lf numeric (by simp) h
  | .int, _, _, _, h => leaf_lf numeric (by simp) h
  | .count, _, _, _, h => leaf_lf numeric (by simp) h
  | .real, _, _, _, h => leaf_lf numeric (by simp) h
  | .duration, _, _, _, h => leaf_lf numeric (by simp) h
  | .time, _, _, _, h => leaf_lf numeric (by simp) h
  | .string, _, _, _, h => leaf_lf numeric (by simp) h
  | .pattern, _, _, _, h => leaf_lf numeric (by simp) h
  | .address, _, _, _, h => leaf_lf numeric (by simp) h
  | .subnet, _, _, _, h => leaf_lf numeric (by simp) h
  | .enum _, _, _, _, h => leaf_lf numeric (by simp) h
  | .list _, _, _, _, h => leaf_lf numeric (by simp) h
  | .map _ _, _, _, _, h => leaf_lf numeric (by simp) h
  | .alias _, _, _, _, h => leaf_lf numeric (by simp) h
theorem fields_lf (numeric : Bool) : ∀ (fs : Fields) (row : List Data) (ns ts : List Str) (r : List Data),
    writeFields numeric fs row = some (ns, ts, r) → (∀ n ∈ ns, (10 : UInt8) ∉ n) ∧ ∀ t ∈ ts, (10 : UInt8) ∉ t
  | .nil, row, ns, ts, r, h => by
    simp only [writeFields, Option.some.injEq, Prod.mk.injEq] at h
    rw [← h.1, ← h.2.1]; simp
  | .cons n t fs, row, ns, ts, r, h => by
    simp only [writeFields] at h
    split at h
    · simp at h
    · rename_i text row' h1
      split at h
      · simp at h
      · rename_i ns' ts' r' h2
        simp only [Option.some.injEq, Prod.mk.injEq] at h
        obtain ⟨rfl, rfl, _⟩ := h
        have := fields_lf numeric fs row' ns' ts' r' h2
        exact ⟨cons_lf (string_lf n) this.1, cons_lf (type_lf numeric t row row' text h1) this.2⟩
end

/-! ## Flat layouts -/

theorem append_paths (a b : Fields) : paths (a.append b) = paths a ++ paths b := by
  match a with
  | .nil => rfl
  | .cons n t r => simp only [Fields.append, paths, append_paths r b, List.append_assoc]

theorem append_ok (a b : Fields) (ha : FieldsOk a) (hb : FieldsOk b) : FieldsOk (a.append b) := by
  match a with
  | .nil => exact hb
  | .cons n t r =>
    simp only [FieldsOk] at ha
    simp only [Fields.append, FieldsOk]
    exact ⟨ha.1, ha.2.1, append_ok r b ha.2.2 hb⟩

theorem paths_ne (fs : Fields) : ∀ p ∈ paths fs, p.1 ≠ [] := by
  match fs with
  | .nil => simp [paths]
  | .cons n t r =>
    intro p hp
    simp only [paths, List.mem_append, List.mem_map] at hp
    rcases hp with ⟨q, _, rfl⟩ | hp
    · simp
    · exact paths_ne r p hp

theorem dotted_cons {n : Str} {p : List Str} (h : p ≠ []) : dotted (n :: p) = n ++ 46 :: dotted p := by
  cases p with
  | nil => exact absurd rfl h
  | cons m p => rfl

theorem flat_leaf {t : Ty} (ht : ∀ fs, t ≠ .record fs) (name : Str) : flatField name t = .cons name t .nil := by
  cases t with
  | record fs => exact absurd rfl (ht fs)
  | _ => simp only [flatField]

/-- The columns of a flat field. -/
def FlatField (name : Str) (t : Ty) : Prop :=
  paths (flatField name t) = (pathsOf t).map (fun p => ([dotted (name :: p.1)], p.2)) ∧ (Utf8 name → NamesOk t → FieldsOk (flatField name t))

theorem flatField_leaf {t : Ty} (ht : ∀ fs, t ≠ .record fs) (name : Str) : FlatField name t := by
  constructor
  · rw [flat_leaf ht, pathsOf_leaf ht]; simp [paths, pathsOf_leaf ht, dotted]
  · intro h1 h2
    rw [flat_leaf ht]; simp [FieldsOk, h1, h2]

mutual
theorem flatField_paths : ∀ (t : Ty) (name : Str), FlatField name t
  | .record fs, name => by
    obtain ⟨h1, h2⟩ := flatten_paths fs (name ++ [ch '.'])
    constructor
    · simp only [flatField, pathsOf, h1]
      apply List.map_congr_left
      intro p hp
      rw [dotted_cons (paths_ne fs p hp)]
      simp [ch]
    · intro hn ht
      simp only [flatField]
      exact h2 (utf8_append hn (utf8_ascii (by simp [ch]))) (by simpa [NamesOk] using ht)
  | .none, _ => flatField_leaf (by simp) _
  | .bool, _ => flatField_leaf (by simp) _
  | .int, _ => flatField_leaf (by simp) _
  | .count, _ => flatField_leaf (by simp) _
  | .real, _ => flatField_leaf (by simp) _
  | .duration, _ => flatField_leaf (by simp) _
  | .time, _ => flatField_leaf (by simp) _
  | .string, _ => flatField_leaf (by simp) _
  | .pattern, _ => flatField_leaf (by simp) _
  | .address, _ => flatField_leaf (by simp) _
  | .subnet, _ => flatField_leaf (by simp) _
  | .enum _, _ => flatField_leaf (by simp) _
  | .list _, _ => flatField_leaf (by simp) _
  | .map _ _, _ => flatField_leaf (by simp) _
  | .alias _, _ => flatField_leaf (by simp) _
theorem flatten_paths : ∀ (fs : Fields) (pre : Str), paths (flatten pre fs) = (paths fs).map (fun p => ([pre ++ dotted p.1], p.2)) ∧
    (Utf8 pre → FieldsOk fs → FieldsOk (flatten pre fs))
  | .nil, _ => by simp [flatten, paths, FieldsOk]
  | .cons n t r, pre => by
    obtain ⟨h1, h2⟩ := flatField_paths t (pre ++ n)
    obtain ⟨g1, g2⟩ := flatten_paths r pre
    constructor
    · simp only [flatten, append_paths, h1, g1, paths, List.map_append, List.map_map]
      congr 1
      apply List.map_congr_left
      intro p _
      simp only [Function.comp_apply, Prod.mk.injEq, and_true, List.cons.injEq]
      by_cases hp : p.1 = []
      · simp [hp, dotted]
      · rw [dotted_cons hp, dotted_cons hp]; simp
    · intro hp hf
      simp only [FieldsOk] at hf
      simp only [flatten]
      exact append_ok _ _ (h2 (utf8_append hp hf.1) hf.2.1) (g2 hp hf.2.2)
end

/-- A record without records in it. -/
def NoRecords : Fields → Prop
  | .nil => True
  | .cons _ t r => (∀ fs, t ≠ .record fs) ∧ NoRecords r

theorem append_flat (a b : Fields) (ha : NoRecords a) (hb : NoRecords b) : NoRecords (a.append b) := by
  match a with
  | .nil => exact hb
  | .cons n t r => exact ⟨ha.1, append_flat r b ha.2 hb⟩

mutual
theorem flatField_flat : ∀ (t : Ty) (name : Str), NoRecords (flatField name t)
  | .record fs, name => by simp only [flatField]; exact flatten_flat fs _
  | .none, _ => by simp [flatField, NoRecords]
  | .bool, _ => by simp [flatField, NoRecords]
  | .int, _ => by simp [flatField, NoRecords]
  | .count, _ => by simp [flatField, NoRecords]
  | .real, _ => by simp [flatField, NoRecords]
  | .duration, _ => by simp [flatField, NoRecords]
  | .time, _ => by simp [flatField, NoRecords]
  | .string, _ => by simp [flatField, NoRecords]
  | .pattern, _ => by simp [flatField, NoRecords]
  | .address, _ => by simp [flatField, NoRecords]
  | .subnet, _ => by simp [flatField, NoRecords]
  | .enum _, _ => by simp [flatField, NoRecords]
  | .list _, _ => by simp [flatField, NoRecords]
  | .map _ _, _ => by simp [flatField, NoRecords]
  | .alias _, _ => by simp [flatField, NoRecords]
theorem flatten_flat : ∀ (fs : Fields) (pre : Str), NoRecords (flatten pre fs)
  | .nil, _ => by simp [flatten, NoRecords]
  | .cons n t r, pre => by
    simp only [flatten]
    exact append_flat _ _ (flatField_flat t _) (flatten_flat r pre)
end

/-- The members shown for a record without records: one for each column. -/
theorem shows_flat (numeric : Bool) : ∀ (fs : Fields) (row : List Data) (ns : List Str) (vs : List Value), NoRecords fs →
    ShowsFields numeric fs row ns vs → ns = (paths fs).map (fun p => dotted p.1) ∧ vs.length = (paths fs).length
      ∧ List.Forall₂ (fun p x => ShowsField numeric p.1.2 [x] p.2) ((paths fs).zip vs) row
  | .nil, _, _, _, _, h => by
    cases h
    simp [paths]
  | .cons n t r, row, ns, vs, hf, h => by
    cases h with
    | cons _ _ _ r1 r2 v ns vs h1 h2 =>
      obtain ⟨g1, g2, g3⟩ := shows_flat numeric r r2 ns vs hf.2 h2
      have hl := pathsOf_leaf hf.1
      have hr : ∃ x, r1 = [x] := by
        cases h1 with
        | record fs _ _ _ _ => exact absurd rfl (hf.1 fs)
        | label labels n s _ => exact ⟨_, rfl⟩
        | column _ x _ _ _ _ => exact ⟨x, rfl⟩
      obtain ⟨x, rfl⟩ := hr
      refine ⟨?_, ?_, ?_⟩
      · simp [paths, hl, g1, dotted]
      · simp [paths, hl, g2]
      · simp only [paths, hl, List.map_cons, List.map_nil, List.singleton_append, List.zip_cons_cons]
        exact .cons h1 g3

end Verif.Json
