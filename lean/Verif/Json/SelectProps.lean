import Verif.Json.RoundProps
/-!
C90: the choice of a type for JSON objects.
-/
namespace Verif.Json.Spec
open Verif.Data Verif.DataText

mutual
/-- The names on the way to each part of a value that is not an object. -/
def valuePaths : Value → List (List Str)
  | .obj ns vs => objectPaths ns vs
  | _ => [[]]
/-- The same for the members of an object. -/
def objectPaths : List Str → List Value → List (List Str)
  | n :: ns, v :: vs => (valuePaths v).map (n :: ·) ++ objectPaths ns vs
  | _, _ => []
end

/-- An object has exactly the fields of a layout, in any order.  The fields are those at the top; parts of objects in objects
count by their names with dots. -/
def Matches (l : Fields) (ns : List Str) (vs : List Value) : Prop := (topNames l).Perm ((objectPaths ns vs).map dotted)

end Verif.Json.Spec

namespace Verif.Json
open Verif.Data Verif.DataText Verif.DataText.Spec Verif.Json.Spec Verif.Calendar Verif.Number

/-! ## The order of names -/

theorem lex_le : ∀ (a b : Str), strLe a b = true ↔ (match a, b with
    | [], _ => True
    | _ :: _, [] => False
    | x :: a, y :: b => x.toNat < y.toNat ∨ (x.toNat = y.toNat ∧ strLe a b = true))
  | [], [] => by simp [strLe, strCmp, lexCmp, natCmp]
  | [], b :: bs => by simp [strLe, strCmp, lexCmp, natCmp]
  | a :: as, [] => by simp [strLe, strCmp, lexCmp, natCmp]
  | x :: a, y :: b => by
    simp only [strLe, strCmp, List.zipWith_cons_cons, lexCmp, natCmp, List.length_cons]
    by_cases h1 : y.toNat < x.toNat
    · simp [h1]; omega
    · by_cases h2 : x.toNat < y.toNat
      · simp [h1, h2]
      · have : x.toNat = y.toNat := by omega
        simp [this]

theorem strLe_refl : ∀ (a : Str), strLe a a = true
  | [] => (lex_le [] []).mpr trivial
  | x :: a => (lex_le (x :: a) (x :: a)).mpr (.inr ⟨rfl, strLe_refl a⟩)

theorem strLe_total : ∀ (a b : Str), strLe a b = true ∨ strLe b a = true
  | [], b => .inl ((lex_le [] b).mpr trivial)
  | a :: as, [] => .inr ((lex_le [] (a :: as)).mpr trivial)
  | x :: a, y :: b => by
    rw [lex_le (x :: a) (y :: b), lex_le (y :: b) (x :: a)]
    simp only
    have := strLe_total a b
    grind

theorem strLe_trans : ∀ (a b c : Str), strLe a b = true → strLe b c = true → strLe a c = true
  | [], _, c, _, _ => (lex_le [] c).mpr trivial
  | _ :: _, [], _, h, _ => by simp [lex_le] at h
  | _ :: _, _ :: _, [], _, h => by simp [lex_le] at h
  | x :: a, y :: b, z :: c, h1, h2 => by
    rw [lex_le] at h1 h2 ⊢
    simp only at h1 h2 ⊢
    have := strLe_trans a b c
    grind

theorem strLe_antisymm : ∀ (a b : Str), strLe a b = true → strLe b a = true → a = b
  | [], [], _, _ => rfl
  | [], _ :: _, _, h => by simp [lex_le] at h
  | _ :: _, [], h, _ => by simp [lex_le] at h
  | x :: a, y :: b, h1, h2 => by
    rw [lex_le] at h1 h2
    simp only at h1 h2
    have hx : x.toNat = y.toNat := by omega
    have : x = y := UInt8.toNat.inj hx
    rw [this, strLe_antisymm a b (by grind) (by grind)]

theorem sort_eq (a b : List Str) : sortNames a = sortNames b ↔ a.Perm b := by
  unfold sortNames
  constructor
  · intro h
    exact (List.mergeSort_perm a strLe).symm.trans (h ▸ List.mergeSort_perm b strLe)
  · intro h
    have h1 := List.pairwise_mergeSort (le := strLe) strLe_trans (fun x y => by simpa using strLe_total x y) a
    have h2 := List.pairwise_mergeSort (le := strLe) strLe_trans (fun x y => by simpa using strLe_total x y) b
    have hp : (a.mergeSort strLe).Perm (b.mergeSort strLe) := (List.mergeSort_perm a strLe).trans (h.trans (List.mergeSort_perm b strLe).symm)
    exact hp.eq_of_pairwise (fun x y _ _ => strLe_antisymm x y) h1 h2

/-! ## The names of objects -/

theorem names_top : ∀ (l : Fields), l.names = topNames l
  | .nil => rfl
  | .cons n t rest => by simp [Fields.names, topNames, names_top rest]

theorem objectPaths_ne : ∀ (ns : List Str) (vs : List Value), ∀ p ∈ objectPaths ns vs, p ≠ []
  | [], vs, p, h => by cases vs <;> simp [objectPaths] at h
  | _ :: _, [], p, h => by simp [objectPaths] at h
  | n :: ns, v :: vs, p, h => by
    simp only [objectPaths, List.mem_append, List.mem_map] at h
    rcases h with ⟨q, _, rfl⟩ | h
    · simp
    · exact objectPaths_ne ns vs p h

mutual
theorem namesOf_paths : ∀ (v : Value) (name : Str), namesOf name v = (valuePaths v).map (fun p => dotted (name :: p))
  | .obj ns vs, name => by
    simp only [namesOf, valuePaths]
    rw [memberNames_paths ns vs]
    apply List.map_congr_left
    intro p hp
    rw [dotted_cons (objectPaths_ne ns vs p hp)]
    simp [ch]
  | .null, _ => by simp [namesOf, valuePaths, dotted]
  | .bool _, _ => by simp [namesOf, valuePaths, dotted]
  | .num _, _ => by simp [namesOf, valuePaths, dotted]
  | .str _, _ => by simp [namesOf, valuePaths, dotted]
  | .arr _, _ => by simp [namesOf, valuePaths, dotted]
theorem memberNames_paths : ∀ (ns : List Str) (vs : List Value) (pre : Str), memberNames pre ns vs = (objectPaths ns vs).map (fun p => pre ++ dotted p)
  | [], [], _ => by simp [memberNames, objectPaths]
  | [], _ :: _, _ => by simp [memberNames, objectPaths]
  | _ :: _, [], _ => by simp [memberNames, objectPaths]
  | n :: ns, v :: vs, pre => by
    simp only [memberNames, objectPaths, List.map_append, List.map_map]
    rw [namesOf_paths v, memberNames_paths ns vs pre]
    congr 1
    apply List.map_congr_left
    intro p _
    simp only [Function.comp_apply]
    by_cases hp : p = []
    · simp [hp, dotted]
    · rw [dotted_cons hp, dotted_cons hp]; simp
end

/-! ## The cache -/

/-- The entry of a layout. -/
def entry (l : Fields) : List Str × Fields := (sortNames l.names, l)

/-- The first layout for each set of names. -/
theorem cache_find (key : List Str) : ∀ (ls : List Fields) (cache : List (List Str × Fields)),
    ((cacheOf ls cache).find? fun e => e.1 == key) = ((cache.find? fun e => e.1 == key).or ((ls.find? fun l => sortNames l.names == key).map entry))
  | [], cache => by simp [cacheOf]
  | l :: ls, cache => by
    simp only [cacheOf]
    rw [cache_find key ls]
    split
    · rename_i h
      rw [List.find?_cons]
      split
      · rename_i hk
        have hk' : sortNames l.names = key := by simpa using hk
        cases hc : cache.find? fun e => e.1 == key with
        | some e => rfl
        | none =>
          rw [List.any_eq_true] at h
          obtain ⟨e, he, h⟩ := h
          rw [List.find?_eq_none] at hc
          have := hc e he
          rw [hk'] at h
          exact absurd h this
      · rfl
    · rw [List.find?_append, Option.or_assoc]
      congr 1
      rw [List.find?_cons]
      split
      · rename_i hk
        rw [List.find?_cons]
        simp only [hk]
        rfl
      · rename_i hk
        rw [List.find?_cons]
        simp only [hk]
        rfl

theorem cache_mem : ∀ (ls : List Fields) (cache : List (List Str × Fields)) (e : List Str × Fields), e ∈ cacheOf ls cache → e ∈ cache ∨ ∃ l ∈ ls, e = entry l
  | [], cache, e, h => .inl h
  | l :: ls, cache, e, h => by
    simp only [cacheOf] at h
    rcases cache_mem ls _ e h with h | ⟨m, hm, rfl⟩
    · split at h
      · exact .inl h
      · simp only [List.mem_append, List.mem_singleton] at h
        rcases h with h | rfl
        · exact .inl h
        · exact .inr ⟨l, by simp, rfl⟩
    · exact .inr ⟨m, by simp [hm], rfl⟩

theorem cache_has : ∀ (ls : List Fields) (cache : List (List Str × Fields)),
    (∀ e ∈ cache, e ∈ cacheOf ls cache) ∧ ∀ l ∈ ls, ∃ e ∈ cacheOf ls cache, e.1 = sortNames l.names
  | [], cache => ⟨fun e h => h, by simp⟩
  | l :: ls, cache => by
    simp only [cacheOf]
    obtain ⟨h1, h2⟩ := cache_has ls (if cache.any (fun e => e.1 == sortNames l.names) then cache else cache ++ [(sortNames l.names, l)])
    refine ⟨?_, ?_⟩
    · intro e he
      apply h1
      split <;> simp [he]
    · intro m hm
      rcases List.mem_cons.mp hm with rfl | hm
      · by_cases ha : cache.any (fun e => e.1 == sortNames m.names) = true
        · obtain ⟨e, he, hk⟩ := List.any_eq_true.mp ha
          exact ⟨e, h1 e (by rw [if_pos ha]; exact he), by simpa using hk⟩
        · exact ⟨(sortNames m.names, m), h1 _ (by rw [if_neg ha]; simp), rfl⟩
      · exact h2 m hm

/-- If all types have the same fields, the first is chosen, whatever the object is. -/
theorem C90_single (l : Fields) (ls : List Fields) (h : ∀ m ∈ ls, (topNames m).Perm (topNames l)) (ns : List Str) (vs : List Value) :
    select (cacheOf (l :: ls) []) ns vs = some l := by
  have hc : cacheOf (l :: ls) [] = [entry l] := by
    simp only [cacheOf, List.any_nil, Bool.false_eq_true, if_false, List.nil_append]
    have : ∀ (ls : List Fields), (∀ m ∈ ls, (topNames m).Perm (topNames l)) → cacheOf ls [(sortNames l.names, l)] = [(sortNames l.names, l)] := by
      intro ls
      induction ls with
      | nil => intro _; rfl
      | cons m ms ih =>
        intro h
        have e : sortNames m.names = sortNames l.names := by
          rw [names_top, names_top]; exact (sort_eq _ _).mpr (h m (by simp))
        simp only [cacheOf, List.any_cons, List.any_nil, e, beq_self_eq_true, Bool.true_or, if_true]
        exact ih fun x hx => h x (by simp [hx])
    exact this ls h
  rw [hc]
  rfl

example : (topNames (.cons (ascii "b") .int (.cons (ascii "a") .int .nil))).Perm (topNames (.cons (ascii "a") .int (.cons (ascii "b") .string .nil))) :=
  List.Perm.swap _ _ _

/-- If there are types with different fields, the first one that the object matches is chosen, and none if it matches none. -/
theorem C90_select (ls : List Fields) (h : ∃ a ∈ ls, ∃ b ∈ ls, ¬ (topNames a).Perm (topNames b)) (ns : List Str) (vs : List Value) :
    (∀ l, select (cacheOf ls []) ns vs = some l ↔ ∃ before after, ls = before ++ l :: after ∧ Matches l ns vs ∧ ∀ m ∈ before, ¬ Matches m ns vs)
    ∧ (select (cacheOf ls []) ns vs = none ↔ ∀ l ∈ ls, ¬ Matches l ns vs) := by
  have hm : ∀ l, (sortNames l.names == sortNames (memberNames [] ns vs)) = true ↔ Matches l ns vs := by
    intro l
    rw [beq_iff_eq, sort_eq, names_top, memberNames_paths]
    simp [Matches]
  have hs : select (cacheOf ls []) ns vs = ls.find? fun l => sortNames l.names == sortNames (memberNames [] ns vs) := by
    have hf := cache_find (sortNames (memberNames [] ns vs)) ls []
    simp only [List.find?_nil, Option.none_or] at hf
    obtain ⟨a, ha, b, hb, hab⟩ := h
    obtain ⟨_, h2⟩ := cache_has ls []
    obtain ⟨ea, hea, ka⟩ := h2 a ha
    obtain ⟨eb, heb, kb⟩ := h2 b hb
    have hne : ea ≠ eb := by
      rintro rfl
      rw [ka, sort_eq, names_top, names_top] at kb
      exact hab kb
    match hc : cacheOf ls [] with
    | [] => rw [hc] at hea; simp at hea
    | [e] =>
      rw [hc] at hea heb
      simp only [List.mem_singleton] at hea heb
      exact absurd (hea.trans heb.symm) hne
    | e :: e' :: c =>
      rw [hc] at hf
      simp only [select, hf, Option.map_map]
      cases ls.find? fun l => sortNames l.names == sortNames (memberNames [] ns vs) <;> rfl
  rw [hs]
  refine ⟨?_, ?_⟩
  · intro l
    rw [List.find?_eq_some_iff_append]
    constructor
    · rintro ⟨h1, as, bs, rfl, h2⟩
      refine ⟨as, bs, rfl, (hm l).mp h1, ?_⟩
      intro m hmem hk
      have := h2 m hmem
      rw [(hm m).mpr hk] at this
      simp at this
    · rintro ⟨as, bs, rfl, h1, h2⟩
      refine ⟨(hm l).mpr h1, as, bs, rfl, ?_⟩
      intro m hmem
      have := h2 m hmem
      rw [← hm m] at this
      simpa using this
  · rw [List.find?_eq_none]
    constructor
    · intro h1 l hl hk; exact h1 l hl ((hm l).mpr hk)
    · intro h1 l hl hk; exact h1 l hl ((hm l).mp hk)

/-- Two layouts for the examples. -/
def selA : Fields := .cons (ascii "a") .int (.cons (ascii "b") .int .nil)
@[inherit_doc selA] def selB : Fields := .cons (ascii "c") (.record (.cons (ascii "d") .string .nil)) .nil
@[inherit_doc selA] def selC : Fields := .cons (ascii "e") (.map .string .count) .nil

example : (∃ a ∈ [selA, selB], ∃ b ∈ [selA, selB], ¬ (topNames a).Perm (topNames b)) ∧ Matches selA [ascii "b", ascii "a"] [.null, .arr []] := by
  refine ⟨⟨selA, by simp, selB, by simp, ?_⟩, ?_⟩
  · intro h; have := h.length_eq; simp [selA, selB, topNames] at this
  · unfold Matches
    simp only [selA, topNames, objectPaths, valuePaths, List.map_cons, List.map_nil, List.append_nil, List.cons_append, List.nil_append, dotted]
    exact List.Perm.swap _ _ _

/-- If the layout has no dots in its names and there are several types, an object is taken for it only if no member of the
object is itself an object, except for empty ones: records and maps are never matched. -/
theorem C90_nested_refuted (ls : List Fields) (h : ∃ a ∈ ls, ∃ b ∈ ls, ¬ (topNames a).Perm (topNames b)) (ns : List Str) (vs : List Value)
    (l : Fields) (hl : ∀ n ∈ topNames l, (46 : UInt8) ∉ n) (hs : select (cacheOf ls []) ns vs = some l) (n : Str) (ns' : List Str) (vs' : List Value)
    (hm : (n, .obj ns' vs') ∈ ns.zip vs) : objectPaths ns' vs' = [] := by
  obtain ⟨_, _, _, h1, _⟩ := ((C90_select ls h ns vs).1 l).mp hs
  by_contra hne
  obtain ⟨q, hq⟩ := List.exists_mem_of_ne_nil _ hne
  have key : ∀ (ns : List Str) (vs : List Value), (n, .obj ns' vs') ∈ ns.zip vs → (n :: q) ∈ objectPaths ns vs := by
    intro ns
    induction ns with
    | nil => intro vs h; simp at h
    | cons m ns ih =>
      intro vs h
      cases vs with
      | nil => simp at h
      | cons v vs =>
        simp only [List.zip_cons_cons, List.mem_cons, Prod.mk.injEq] at h
        simp only [objectPaths, List.mem_append, List.mem_map]
        rcases h with ⟨rfl, rfl⟩ | h
        · left; exact ⟨q, by simpa [valuePaths] using hq, rfl⟩
        · right; exact ih vs h
  have h2 : dotted (n :: q) ∈ topNames l := h1.mem_iff.mpr (List.mem_map.mpr ⟨_, key ns vs hm, rfl⟩)
  have h3 := objectPaths_ne ns' vs' q hq
  rw [dotted_cons h3] at h2
  exact hl _ h2 (by simp)

/-- So what export makes of an event with a record, or with a map, is of no type for the import. -/
theorem C90_export_refuted :
    writeRow ⟨false, false⟩ selB [.string (ascii "s")] = some (ascii "{\"c\": {\"d\": \"s\"}}\n")
    ∧ (∃ ns vs, simdjson (ascii "{\"c\": {\"d\": \"s\"}}") = some (.obj ns vs) ∧ select (cacheOf [selA, selB] []) ns vs = none)
    ∧ writeRow ⟨false, false⟩ selC [.map [.string (ascii "k")] [.count 1]] = some (ascii "{\"e\": {\"k\": 1}}\n")
    ∧ ∃ ns vs, simdjson (ascii "{\"e\": {\"k\": 1}}") = some (.obj ns vs) ∧ select (cacheOf [selA, selC] []) ns vs = none := by
  have hAB : (∃ a ∈ [selA, selB], ∃ b ∈ [selA, selB], ¬ (topNames a).Perm (topNames b)) := by
    refine ⟨selA, by simp, selB, by simp, ?_⟩
    intro h; have := h.length_eq; simp [selA, selB, topNames] at this
  have hAC : (∃ a ∈ [selA, selC], ∃ b ∈ [selA, selC], ¬ (topNames a).Perm (topNames b)) := by
    refine ⟨selA, by simp, selC, by simp, ?_⟩
    intro h; have := h.length_eq; simp [selA, selC, topNames] at this
  refine ⟨by decide +kernel, ⟨[ascii "c"], [.obj [ascii "d"] [.str (ascii "s")]], simdjson_eq (by decide +kernel), ?_⟩, by decide +kernel,
    ⟨[ascii "e"], [.obj [ascii "k"] [.num ⟨false, [1], [], none⟩]], simdjson_eq (by decide +kernel), ?_⟩⟩
  · rw [(C90_select _ hAB _ _).2]
    intro l hl
    simp only [List.mem_cons, List.not_mem_nil, or_false] at hl
    rcases hl with rfl | rfl <;> (unfold Matches; decide +kernel)
  · rw [(C90_select _ hAC _ _).2]
    intro l hl
    simp only [List.mem_cons, List.not_mem_nil, or_false] at hl
    rcases hl with rfl | rfl <;> (unfold Matches; decide +kernel)

/-- With several types, an object that lacks a field is of no type, although an absent field would be empty. -/
theorem C90_missing_refuted (v : Num) : select (cacheOf [selA, selB] []) [ascii "a"] [.num v] = none := by
  have hAB : (∃ a ∈ [selA, selB], ∃ b ∈ [selA, selB], ¬ (topNames a).Perm (topNames b)) := by
    refine ⟨selA, by simp, selB, by simp, ?_⟩
    intro h; have := h.length_eq; simp [selA, selB, topNames] at this
  rw [(C90_select _ hAB _ _).2]
  intro l hl
  simp only [List.mem_cons, List.not_mem_nil, or_false] at hl
  rcases hl with rfl | rfl
  · intro h; have := h.length_eq; simp [selA, topNames, objectPaths, valuePaths] at this
  · intro h
    simp only [Matches, selB, topNames, objectPaths, valuePaths, List.map_cons, List.map_nil, List.append_nil, List.perm_singleton, List.cons.injEq, and_true, dotted] at h
    exact absurd h (by decide)

end Verif.Json
