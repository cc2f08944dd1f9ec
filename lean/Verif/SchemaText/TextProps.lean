import Verif.SchemaText.TextReads
import Verif.SchemaText.TextEnds
import Verif.SchemaText.LoadProps

/-! # C99: reading schemas -/

namespace Verif.SchemaText

open Verif.Types (Name Meta updateAttrs setAttr)
open Verif.DataText (ch eat kw isAlnum isSpace isCntrl isDigit quotedP quotedBody)
open Spec

theorem type_name {s : Str} {t : T} (h : TypeText s t) : (∃ m, t = .none m ∧ m.name ≠ []) ∨ ((∀ m, t ≠ .none m) ∧ t.name = []) := by
  cases h with
  | intro h _ _ =>
    cases h with
    | ref h _ => exact .inl ⟨_, rfl, h.1⟩
    | _ => exact .inr ⟨(fun m h => by cases h), rfl⟩

theorem define_defined {s : Str} {n : Name} {t d : T} (h : TypeText s t) (hd : Defined n t d) : define n t = d := by
  rcases hd with ⟨m, rfl, rfl⟩ | ⟨hm, rfl⟩
  · rcases type_name h with ⟨m', e, hn⟩ | ⟨h, _⟩
    · cases e
      rw [define, if_neg]
      rw [List.isEmpty_iff]
      exact hn
    · exact absurd rfl (h m)
  · rcases type_name h with ⟨m', e, _⟩ | ⟨_, h⟩
    · exact absurd e (hm m')
    · rw [define, if_pos (List.isEmpty_iff.mpr h)]; rfl

theorem declP_text {s r : Str} {n : Name} {d : T} (h : DeclText s n d) (he : Ends r) (hx : Next r) : declP (s ++ r) = .ok (n, d) r := by
  obtain ⟨hg1, hn, hg2, hg3, ht, hd⟩ := h
  rename_i g1 g2 g3 s t
  have e : [116, 121, 112, 101] ++ g1 ++ n ++ g2 ++ 61 :: (g3 ++ s) ++ r =
    [116, 121, 112, 101] ++ (g1 ++ (n ++ (g2 ++ 61 :: (g3 ++ (s ++ r))))) := by simp
  have hkw : kw "type".toList ([116, 121, 112, 101] ++ (g1 ++ (n ++ (g2 ++ 61 :: (g3 ++ (s ++ r)))))) =
    some (g1 ++ (n ++ (g2 ++ 61 :: (g3 ++ (s ++ r))))) := kw_append "type".toList _
  have e1 : eat '=' (61 :: (g3 ++ (s ++ r))) = some (g3 ++ (s ++ r)) := rfl
  rw [e, declP, hkw, Res.unit_some, Res.ok_bind, skp_gap hg1, skp_name hn,
    identP_append hn (gap_noName hg2 (.cons (not_name (.inr (by simp))))), Res.ofOption_some, Res.ok_bind, skp_gap hg2,
    skp_self (by simp), e1, Res.unit_some, Res.ok_bind, skp_gap hg3, skp_type ht,
    type_reads ht _ r (by simp; omega) he hx, Res.ok_bind, define_defined ht hd]

theorem decl_head {s : Str} {n : Name} {d : T} (h : DeclText s n d) : ∃ r, s = 116 :: r := by
  cases h; exact ⟨_, rfl⟩

theorem decls_head {s : Str} {ds : List (Name × T)} (h : DeclsText s ds) : ∃ r, s = 116 :: r := by
  cases h with
  | one h _ _ => obtain ⟨r, rfl⟩ := decl_head h; exact ⟨_, rfl⟩
  | more h _ _ _ => obtain ⟨r, rfl⟩ := decl_head h; exact ⟨_, rfl⟩

theorem skp_t (r : Str) : skp (116 :: r) = 116 :: r := skp_stop (by decide +kernel) (by decide)

theorem declP_nil : declP [] = .fail := rfl

/-- The symbols after some definitions, and whether there was a second definition of one. -/
def insertAll : List (Name × T) → Bool → List (Name × T) → List (Name × T) × Bool
  | acc, dup, [] => (acc, dup)
  | acc, dup, (k, t) :: ds => if (assoc k acc).isSome then insertAll acc true ds else insertAll (acc ++ [(k, t)]) dup ds

/-- One definition, then the others. -/
theorem decls_loop {s : Str} {ds : List (Name × T)} (h : DeclsText s ds) : ∃ k t s2 ds', ds = (k, t) :: ds' ∧
    declP (skp s) = .ok (k, t) s2 ∧ ∀ acc dup j, s.length ≤ j →
      ∃ s3, declLoop j acc dup s2 = .ok (insertAll acc dup ds') s3 ∧ skp s3 = [] := by
  induction h with
  | @one s g n t h hg hg' =>
    have hx : Next g := by rw [Next, skp_last hg]; exact .nil
    have he : Ends g := fun b r e => .inl (hg' b r e)
    have hs : skp (s ++ g) = s ++ g := by obtain ⟨r, rfl⟩ := decl_head h; exact skp_t _
    refine ⟨n, t, g, [], rfl, by rw [hs]; exact declP_text h he hx, fun acc dup j hj => ⟨g, ?_, skp_last hg⟩⟩
    obtain ⟨j, rfl⟩ : ∃ j', j = j' + 1 := by
      obtain ⟨r, rfl⟩ := decl_head h
      exact ⟨j - 1, by simp at hj; omega⟩
    rw [declLoop, skp_last hg, declP_nil]
    rfl
  | @more s g r n t ds h hg hg' hr ih =>
    obtain ⟨k, u, s2, ds', rfl, e1, e2⟩ := ih
    obtain ⟨q, hq⟩ := decls_head hr
    have hx : Next (g ++ r) := by rw [Next, skp_gap hg.1, hq, skp_t]; exact .cons (by simp)
    have he : Ends (g ++ r) := by
      cases g with
      | nil => exact absurd rfl hg'
      | cons b g => exact .cons (.inl (hg.2 b g rfl))
    have hs : skp (s ++ (g ++ r)) = s ++ (g ++ r) := by obtain ⟨r, rfl⟩ := decl_head h; exact skp_t _
    refine ⟨n, t, g ++ r, (k, u) :: ds', rfl, by rw [List.append_assoc, hs]; exact declP_text h he hx, fun acc dup j hj => ?_⟩
    obtain ⟨j, rfl⟩ : ∃ j', j = j' + 1 := by
      obtain ⟨r, rfl⟩ := decl_head h
      exact ⟨j - 1, by simp at hj; omega⟩
    have hj' : r.length ≤ j := by
      obtain ⟨w, rfl⟩ := decl_head h
      simp at hj
      omega
    rw [declLoop, skp_gap hg.1, e1]
    simp only
    rw [insertAll]
    split
    · exact e2 acc true j hj'
    · exact e2 (acc ++ [(k, u)]) dup j hj'

theorem symbolsP_insert {s : Str} {ds : List (Name × T)} (h : SymbolsText s ds) (acc : List (Name × T)) :
    symbolsP acc s = if (insertAll acc false ds).2 = true then .fail else .ok (insertAll acc false ds).1 [] := by
  obtain ⟨hg, hs⟩ := h
  rename_i g s
  obtain ⟨k, t, s2, ds', rfl, e1, e2⟩ := decls_loop hs
  obtain ⟨s3, e3, e4⟩ := e2 (if (assoc k acc).isSome then acc else acc ++ [(k, t)]) (assoc k acc).isSome
    ((g ++ s).length + 1) (by simp; omega)
  have e5 : insertAll (if (assoc k acc).isSome then acc else acc ++ [(k, t)]) (assoc k acc).isSome ds' =
      insertAll acc false ((k, t) :: ds') := by
    rw [insertAll]
    by_cases h : (assoc k acc).isSome = true
    · simp [h]
    · simp only [Bool.not_eq_true] at h
      simp [h]
  rw [symbolsP, skp_gap hg, e1, Res.ok_bind]
  simp only
  rw [e3, Res.ok_bind, e5]
  by_cases hd : (insertAll acc false ((k, t) :: ds')).2 = true
  · simp [hd]
  · simp [hd, e4]

theorem assoc_none_iff {k : Name} {l : List (Name × T)} : assoc k l = none ↔ k ∉ l.map (·.1) := by
  induction l with
  | nil => simp [assoc]
  | cons x l ih =>
    obtain ⟨k', t⟩ := x
    rw [assoc]
    split
    · rename_i h; simp [h]
    · rename_i h
      rw [ih]
      simp only [List.map_cons, List.mem_cons, not_or]
      exact ⟨fun h' => ⟨fun e => h e.symm, h'⟩, fun h' => h'.2⟩

theorem insertAll_new : ∀ {ds acc : List (Name × T)} (dup : Bool), ((acc ++ ds).map (·.1)).Nodup →
    insertAll acc dup ds = (acc ++ ds, dup)
  | [], acc, dup, _ => by simp [insertAll]
  | (k, t) :: ds, acc, dup, h => by
    have hk : assoc k acc = none := by
      rw [assoc_none_iff]
      rw [List.map_append, List.nodup_append] at h
      exact fun hm => h.2.2 k hm k (by simp) rfl
    rw [insertAll, hk, if_neg (by simp), insertAll_new dup (by simpa using h)]
    simp

theorem insertAll_true : ∀ (ds acc : List (Name × T)), (insertAll acc true ds).2 = true
  | [], _ => rfl
  | (k, t) :: ds, acc => by rw [insertAll]; split <;> exact insertAll_true _ _

theorem insertAll_dup : ∀ {ds acc : List (Name × T)}, (acc.map (·.1)).Nodup → ¬ ((acc ++ ds).map (·.1)).Nodup →
    (insertAll acc false ds).2 = true
  | [], acc, ha, h => absurd (by simpa using ha) h
  | (k, t) :: ds, acc, ha, h => by
    rw [insertAll]
    cases hk : assoc k acc with
    | some _ => exact insertAll_true _ _
    | none =>
      rw [assoc_none_iff] at hk
      refine insertAll_dup ?_ (by simpa using h)
      rw [List.map_append, List.nodup_append]
      exact ⟨ha, by simp, fun a h1 b h2 => by simp at h2; subst h2; rintro rfl; exact hk h1⟩

/-- C99: a schema text is read as the definitions that it contains, together with those of other texts, if no name is
    defined twice. -/
theorem C99_symbols (s : Str) (ds symbols : List (Name × T)) (h : SymbolsText s ds)
    (hd : ((symbols ++ ds).map (·.1)).Nodup) : symbolsP symbols s = .ok (symbols ++ ds) [] := by
  rw [symbolsP_insert h, insertAll_new false hd]
  rfl

/-- C99: a second definition of a name is an error. -/
theorem C99_duplicate (s : Str) (ds symbols : List (Name × T)) (h : SymbolsText s ds) (hs : (symbols.map (·.1)).Nodup)
    (hd : ¬ ((symbols ++ ds).map (·.1)).Nodup) : symbolsP symbols s = .fail := by
  rw [symbolsP_insert h, insertAll_dup hs hd]
  rfl

theorem withMeta_name (t : T) (m : Meta) : (t.withMeta m).name = m.name := by cases t <;> rfl

theorem withMeta_none {t : T} {m m' : Meta} (h : t.withMeta m = .none m') : ∃ m'', t = .none m'' := by
  cases t <;> first | exact ⟨_, rfl⟩ | cases h

theorem decl_parsed {s : Str} {n : Name} {d : T} (h : DeclText s n d) : n ≠ [] ∧ d.name = n ∧ ∀ m, d ≠ .none m := by
  obtain ⟨_, hn, _, _, ht, hd⟩ := h
  rcases hd with ⟨m, rfl, rfl⟩ | ⟨hm, rfl⟩
  · exact ⟨hn.1, rfl, fun m h => by cases h⟩
  · refine ⟨hn.1, ?_, fun m e => ?_⟩
    · exact withMeta_name _ _
    · obtain ⟨m', e⟩ := withMeta_none e
      exact hm m' e

theorem decls_parsed {s : Str} {ds : List (Name × T)} (h : DeclsText s ds) :
    ∀ n d, (n, d) ∈ ds → n ≠ [] ∧ d.name = n ∧ ∀ m, d ≠ .none m := by
  induction h with
  | one h _ _ =>
    intro n d hm
    simp at hm
    obtain ⟨rfl, rfl⟩ := hm
    exact decl_parsed h
  | more h _ _ _ ih =>
    intro n d hm
    rcases List.mem_cons.mp hm with e | hm
    · cases e; exact decl_parsed h
    · exact ih n d hm

/-- C99: the text of a schema is read as the types that its definitions mean, in whatever order the hash table has the
    symbols. -/
theorem C99_schema (s : Str) (ds : List (Name × T)) (order : List (Name × T) → List (Name × T)) (ho : ∀ l : List (Name × T), l.Perm (order l))
    (h : SymbolsText s ds) (hd : (ds.map (·.1)).Nodup) (hm : ∀ n d, (n, d) ∈ ds → ∃ t, Means [] ds n d t) :
    ∃ sch, schemaP order s = .ok (.ok sch) [] ∧ (sch.map T.name).Nodup ∧
      ∀ t, t ∈ sch ↔ ∃ n d, (n, d) ∈ ds ∧ Means [] ds n d t := by
  have hp : Parsed ds := ⟨hd, by obtain ⟨_, h⟩ := h; exact decls_parsed h⟩
  have e := C99_symbols s ds [] h (by simpa using hd)
  rw [List.nil_append] at e
  have hm' : ∀ n d, (n, d) ∈ order ds → ∃ t, Means [] (order ds) n d t := by
    intro n d hd
    obtain ⟨t, ht⟩ := hm n d ((ho ds).mem_iff.mpr hd)
    exact ⟨t, means_perm (ho ds) ht⟩
  obtain ⟨sch, res, h1, h2, h3, _⟩ := C98_meaning (globals := []) (by simp) (parsed_perm (ho ds) hp) hm'
  refine ⟨sch, ?_, h2, fun t => ?_⟩
  · rw [schemaP, e, Res.ok_bind, h1]
    rfl
  · rw [h3]
    constructor
    · rintro ⟨n, d, hd, ht⟩
      exact ⟨n, d, (ho ds).mem_iff.mpr hd, means_perm (ho ds).symm ht⟩
    · rintro ⟨n, d, hd, ht⟩
      exact ⟨n, d, (ho ds).mem_iff.mp hd, means_perm (ho ds) ht⟩

/-- C99: reading ends for every text, and reads the whole text if it succeeds. -/
theorem C99_ends (s : Str) (symbols : List (Name × T)) : symbolsP symbols s ≠ .stuck ∧ ∀ ds r, symbolsP symbols s = .ok ds r → r = [] :=
  ⟨(left_symbols symbols s).1, fun ds r h => by
    have := (left_symbols symbols s).2 ds r h
    cases r with
    | nil => rfl
    | cons b r => simp at this⟩

/-- The bytes of a text. -/
def str (s : String) : Str := s.toList.map ch

/-- C99, refuted: that a malformed text is refused. If there is nothing where a type should be, the parser calls itself
    until the stack overflows. -/
theorem C99_overflow_refuted : symbolsP [] (str "type a = ") = .overflow ∧ symbolsP [] (str "type a = list<>") = .overflow ∧
    symbolsP [] (str "type a = record{b: , c: int}") = .overflow ∧ symbolsP [] (str "type a = b + (c)") = .overflow := by
  refine ⟨?_, ?_, ?_, ?_⟩ <;> decide +kernel

/-! ### An example -/

theorem name_of {n : Name} (h : n ≠ [] ∧ ∀ b ∈ n, isIdent b = true) : IsName n := ⟨h.1, fun b hb => isIdent_iff.mp (h.2 b hb)⟩

theorem space_gap : Gap [32] := .space (by decide +kernel) .nil
theorem blank_nil : Blank [] := ⟨.nil, fun _ _ h => by cases h⟩
theorem blank_space : Blank [32] := ⟨space_gap, fun _ _ h => by cases h; decide +kernel⟩

/-- Two definitions, one of which uses the other, with a comment and attributes. -/
def exText : Str := str "type p = count #k=v //x\n type q = record{a: list<p>, b: addr}"

def exDefs : List (Name × T) :=
  [(str "p", .basic .count ⟨str "p", [(str "k", some (str "v"))]⟩),
    (str "q", .record (.cons (str "a") (.list (.none ⟨str "p", []⟩) {}) (.cons (str "b") (.basic .addr {}) .nil)) ⟨str "q", []⟩)]

theorem type_plain {s : Str} {t : T} (h : CoreText s t) (hm : t.meta.attrs = []) : TypeText s t := by
  have := TypeText.intro h .nil (by simp)
  rw [List.append_nil, hm] at this
  have e : t.withMeta { t.meta with attrs := [] ++ [] } = t := by
    cases t <;> simp [T.withMeta, T.meta] at hm ⊢ <;> rename_i m <;> cases m <;> simp_all
  rwa [e] at this

theorem exText_symbols : SymbolsText exText exDefs := by
  have h1 : TypeText (str "count" ++ ([32] ++ str "#k=v" ++ [])) (.basic .count ⟨[], [(str "k", some (str "v"))]⟩) := by
    refine .intro (as := [(str "k", some (str "v"))]) (.basic (n := str "count") (b := .count) (by decide +kernel))
      (.cons blank_space (by decide) (.value (k := str "k") (v := str "v") (name_of (by decide +kernel)) (by decide +kernel) ?_
        (by decide +kernel)) .nil) (by decide +kernel)
    intro b hb
    exact isValueChar_iff.mp ((by decide +kernel : ∀ b ∈ str "v", isValueChar b = true) b hb)
  have d1 : DeclText (str "type p = count #k=v") (str "p") (.basic .count ⟨str "p", [(str "k", some (str "v"))]⟩) :=
    .intro (g1 := [32]) (n := str "p") (g2 := [32]) (g3 := [32]) space_gap (name_of (by decide +kernel)) space_gap space_gap h1
      (.inr ⟨(fun m h => by cases h), rfl⟩)
  have p : TypeText (str "p") (.none ⟨str "p", []⟩) :=
    type_plain (.ref (name_of (by decide +kernel)) (by intro b; cases b <;> decide +kernel)) rfl
  have l : TypeText (str "list<p>") (.list (.none ⟨str "p", []⟩) {}) :=
    type_plain (.list (g := []) (g1 := []) (s := str "p") (g2 := []) .nil .nil p blank_nil) rfl
  have a : TypeText (str "addr") (.basic .addr {}) := type_plain (.basic (by decide +kernel)) rfl
  have fa : FieldText (str "a: list<p>") (str "a") (.list (.none ⟨str "p", []⟩) {}) :=
    .intro (g1 := []) (s := str "a") (g2 := []) (g3 := [32]) (g4 := []) .nil (.name (name_of (by decide +kernel))) .nil space_gap l
      blank_nil
  have fb : FieldText (str " b: addr") (str "b") (.basic .addr {}) :=
    .intro (g1 := [32]) (s := str "b") (g2 := []) (g3 := [32]) (g4 := []) space_gap (.name (name_of (by decide +kernel))) .nil
      space_gap a blank_nil
  have r : TypeText (str "record{a: list<p>, b: addr}")
      (.record (.cons (str "a") (.list (.none ⟨str "p", []⟩) {}) (.cons (str "b") (.basic .addr {}) .nil)) {}) :=
    type_plain (.record (.intro (g := []) .nil (.more fa (.one fb)))) rfl
  have d2 : DeclText (str "type q = record{a: list<p>, b: addr}") (str "q") (exDefs[1]).2 :=
    .intro (g1 := [32]) (n := str "q") (g2 := [32]) (g3 := [32]) space_gap (name_of (by decide +kernel)) space_gap space_gap r
      (.inr ⟨(fun m h => by cases h), rfl⟩)
  have g : Gap (str " //x\n ") := .space (by decide +kernel) (.comment (c := str "x") (by decide +kernel) space_gap)
  have := DeclsText.more d1 (g := str " //x\n ") ⟨g, fun b r e => by cases e; decide +kernel⟩ (by decide +kernel)
    (.one d2 (.gap .nil) fun b r h => by cases h)
  exact .intro (g := []) .nil this

example : symbolsP [] exText = .ok exDefs [] := C99_symbols exText exDefs [] exText_symbols (by decide +kernel)

example : ∃ sch, schemaP id exText = .ok (.ok sch) [] ∧ (sch.map T.name).Nodup ∧
    ∀ t, t ∈ sch ↔ ∃ n d, (n, d) ∈ exDefs ∧ Means [] exDefs n d t := by
  refine C99_schema exText exDefs id (fun l => .refl _) exText_symbols (by decide +kernel) fun n d h => ?_
  simp only [exDefs, List.mem_cons, Prod.mk.injEq, List.not_mem_nil, or_false] at h
  rcases h with ⟨rfl, rfl⟩ | ⟨rfl, rfl⟩
  · exact ⟨_, .basic⟩
  · exact ⟨_, .record (by simp) (.cons (.list (.symbol (by decide +kernel) (by decide +kernel)
      (List.mem_cons_self ..) .basic)) (.cons .basic .nil))⟩

example : symbolsP exDefs exText = .fail := C99_duplicate exText exDefs exDefs exText_symbols (by decide +kernel) (by decide +kernel)

end Verif.SchemaText
