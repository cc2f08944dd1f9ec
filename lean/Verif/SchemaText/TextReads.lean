import Verif.SchemaText.TextParts

/-! # C99: the parser reads the grammar -/

namespace Verif.SchemaText

open Verif.Types (Name Meta updateAttrs setAttr)
open Verif.DataText (ch eat kw isAlnum isSpace isCntrl isDigit quotedP quotedBody)
open Spec

/-! ### Lists in braces -/

/-- The parser for lists in braces after the opening one. -/
def chain {α : Type} (p : Str → Res α) (k : Nat) (acc : List α) (s : Str) : Res (List α) :=
  (p s).bind fun a s2 => (commaLoop p k (acc ++ [a]) s2).bind fun as s3 =>
    let s4 := match eat ',' s3 with
      | some r => skp r
      | none => s3
    (Res.unit (eat '}' s4)).bind fun _ s5 => .ok as s5

theorem bracesP_chain {α : Type} (p : Str → Res α) (s : Str) : bracesP p (123 :: s) = chain p (s.length + 2) [] s := rfl

theorem chain_more {α : Type} {p : Str → Res α} {k : Nat} {acc l : List α} {s s' r : Str} {a : α} (h : p s = .ok a (44 :: s'))
    (h' : chain p k (acc ++ [a]) s' = .ok l r) : chain p (k + 1) acc s = .ok l r := by
  have e : eat ',' (44 :: s') = some s' := rfl
  rw [chain] at h' ⊢
  rw [h, Res.ok_bind, commaLoop, e]
  simp only
  cases hp : p s' with
  | ok b q => rw [hp] at h'; exact h'
  | fail => rw [hp] at h'; simp [Res.bind] at h'
  | overflow => rw [hp] at h'; simp [Res.bind] at h'
  | stuck => rw [hp] at h'; simp [Res.bind] at h'

theorem chain_one {α : Type} {p : Str → Res α} {k : Nat} {acc : List α} {s r : Str} {a : α} (h : p s = .ok a (125 :: r)) :
    chain p (k + 1) acc s = .ok (acc ++ [a]) r := by
  have e : eat ',' (125 :: r) = none := rfl
  have e2 : eat '}' (125 :: r) = some r := rfl
  simp only [chain, h, Res.ok_bind, commaLoop, e, e2, Res.unit_some]

theorem chain_last {α : Type} {p : Str → Res α} {k : Nat} {acc : List α} {s g r : Str} {a : α}
    (h : p s = .ok a (44 :: (g ++ 125 :: r))) (hg : Gap g) (h' : p (g ++ 125 :: r) = .fail) :
    chain p (k + 1) acc s = .ok (acc ++ [a]) r := by
  have e : eat ',' (44 :: (g ++ 125 :: r)) = some (g ++ 125 :: r) := rfl
  have e2 : eat '}' (125 :: r) = some r := rfl
  simp only [chain, h, Res.ok_bind, commaLoop, e, h', skp_gap hg, skp_self (b := 125) (by simp), e2, Res.unit_some]

/-! ### Enumerations -/

/-- An element of an enumeration. -/
def labelP (s : Str) : Res Name := (Res.ofOption (identP (skp s))).bind fun n r => .ok n (skp r)

theorem labelP_text {g n g' r : Str} {b : UInt8} (hg : Gap g) (hn : IsName n) (hg' : Gap g') (hb : b = 44 ∨ b = 125) :
    labelP (g ++ n ++ g' ++ b :: r) = .ok n (b :: r) := by
  have hb' : b ∈ ([44, 62, 125, 61, 58, 123, 60, 35, 43, 45, 34] : List UInt8) := by rcases hb with rfl | rfl <;> simp
  have h2 : Hd (fun b => ¬ NameChar b) (g' ++ b :: r) :=
    gap_noName hg' (.cons (not_name (.inr (by rcases hb with rfl | rfl <;> simp))))
  rw [labelP, List.append_assoc, List.append_assoc, skp_gap hg, skp_name hn, identP_append hn h2, Res.ofOption_some, Res.ok_bind,
    skp_gap hg', skp_self hb']

theorem labelP_none {g r : Str} (hg : Gap g) : labelP (g ++ 125 :: r) = .fail := by
  rw [labelP, skp_gap hg, skp_self (by simp), identP_none (.cons (not_name (.inr (by simp))))]
  rfl

theorem labels_chain {s : Str} {ls : List Name} (h : LabelsText s ls) (r : Str) : ∀ acc k, s.length < k →
    chain labelP k acc (s ++ 125 :: r) = .ok (acc ++ ls) r := by
  induction h with
  | @one g g' n hg hn hg' =>
    intro acc k hk
    obtain ⟨k, rfl⟩ : ∃ k', k = k' + 1 := ⟨k - 1, by omega⟩
    exact chain_one (labelP_text hg hn hg' (.inr rfl))
  | @last g g' g'' n hg hn hg' hg'' =>
    intro acc k hk
    obtain ⟨k, rfl⟩ : ∃ k', k = k' + 1 := ⟨k - 1, by omega⟩
    refine chain_last ?_ hg'' (labelP_none hg'')
    rw [List.append_assoc _ (44 :: g''), List.cons_append]
    exact labelP_text hg hn hg' (.inl rfl)
  | @more g g' s n ns hg hn hg' hs ih =>
    intro acc k hk
    obtain ⟨k, rfl⟩ : ∃ k', k = k' + 1 := ⟨k - 1, by omega⟩
    have := ih (acc ++ [n]) k (by simp at hk; omega)
    rw [List.append_assoc, List.singleton_append] at this
    refine chain_more ?_ this
    rw [List.append_assoc _ (44 :: s), List.cons_append]
    exact labelP_text hg hn hg' (.inl rfl)

theorem enumP_text {g s r : Str} {ls : List Name} (hg : Gap g) (h : LabelsText s ls) :
    enumP ([101, 110, 117, 109] ++ (g ++ 123 :: (s ++ 125 :: r))) = .ok (.enum ls {}) r := by
  have e : kw "enum".toList ([101, 110, 117, 109] ++ (g ++ 123 :: (s ++ 125 :: r))) = some (g ++ 123 :: (s ++ 125 :: r)) :=
    kw_append "enum".toList _
  have e2 := labels_chain h r [] ((s ++ 125 :: r).length + 2) (by simp; omega)
  have e3 : bracesP labelP (123 :: (s ++ 125 :: r)) = .ok ls r := by rw [bracesP_chain]; exact e2
  rw [enumP, e, Res.unit_some, Res.ok_bind, skp_gap hg, skp_self (by simp)]
  show (bracesP labelP _).bind _ = _
  rw [e3]
  rfl

/-! ### The parts of the induction -/

/-- The text is read as a type. -/
def MType (s : Str) (t : T) : Prop := ∀ n r, s.length < n → Ends r → Next r → typeP n (s ++ r) = .ok t r
/-- The text is read as a type without attributes. -/
def MCore (s : Str) (t : T) : Prop := ∀ n r, s.length ≤ n → Ends r → CoreNext r → coreP (typeP n) (s ++ r) = .ok t r
/-- The text is read as a record. -/
def MRecord (s : Str) (fs : Fs) : Prop := ∀ n r, s.length ≤ n → recordP (typeP n) (s ++ r) = .ok (.record fs {}) r
/-- The text is read as the fields of a record. -/
def MFields (s : Str) (fs : Fs) : Prop := ∀ n r acc k, s.length < n → s.length < k →
  chain (fieldP (typeP n)) k acc (s ++ 125 :: r) = .ok (acc ++ fs.toList) r
/-- The text is read as a field. -/
def MField (s : Str) (nm : Name) (t : T) : Prop := ∀ n b r, s.length < n → b = 44 ∨ b = 125 →
  fieldP (typeP n) (s ++ b :: r) = .ok (nm, t) (b :: r)
/-- The text is read as an operand. -/
def MOperand (s : Str) (t : T) : Prop := ∀ n r, s.length ≤ n → Hd (fun b => ¬ NameChar b) r → Hd (fun b => b ≠ 123) (skp r) →
  operandP (typeP n) (s ++ r) = .ok t r
/-- The text is read as operators with operands. -/
def MOps (s : Str) (fs : Fs) : Prop := ∀ n r acc k, s.length ≤ n → s.length < k → Ends r → CoreNext r →
  algebraLoop (typeP n) k acc (s ++ r) = .ok (acc ++ fs.toList) r
/-- The text is read as an operator with operand. -/
def MOp (s : Str) (nm : Name) (t : T) : Prop := ∀ n r, s.length ≤ n → Hd (fun b => ¬ NameChar b) r → Hd (fun b => b ≠ 123) (skp r) →
  algebraP (typeP n) (skp (s ++ r)) = .ok (nm, t) r

theorem ofList_toList : ∀ (fs : Fs), Fs.ofList fs.toList = fs
  | .nil => rfl
  | .cons n t fs => by simp [Fs.toList, Fs.ofList, ofList_toList fs]

theorem core_attrs {s : Str} {t : T} (h : CoreText s t) : t.meta.attrs = [] ∨ t.meta.attrs = [(algebraKey, none)] := by
  cases h <;> simp [T.meta]

theorem mtype {s r : Str} {t : T} {as : List (Name × Option Name)} (hc : CoreText s t) (h : MCore s t) (hr : AttrsText r as)
    (hd : (as.map (·.1)).Nodup) : MType (s ++ r) (t.withMeta { t.meta with attrs := t.meta.attrs ++ as }) := by
  intro n q hn he hx
  obtain ⟨n, rfl⟩ : ∃ n', n = n' + 1 := ⟨n - 1, by omega⟩
  rw [typeP, List.append_assoc, h n (r ++ q) (by simp at hn; omega) (attrs_ends hr he) (attrs_next hr hx), Res.ok_bind,
    attrsP_text hr he hx _ (by simp)]
  have : ((t.meta.attrs ++ as).map (·.1)).Nodup := by
    rcases core_attrs hc with e | e
    · rw [e]; simpa using hd
    · rw [e]
      simp only [List.singleton_append, List.map_cons, List.nodup_cons]
      refine ⟨fun hm => ?_, hd⟩
      obtain ⟨a, ha, e⟩ := List.mem_map.mp hm
      have := (attrs_keys hr a ha).2 36 (by rw [e]; decide)
      exact absurd this (by decide +kernel)
  simp only [T.update, updateAttrs_new this]

theorem corenext_ne {r : Str} (h : CoreNext r) : Hd (fun b => b ≠ 123) (skp r) ∧ Hd (fun b => b ≠ 60) (skp r) :=
  ⟨Hd.imp h fun b hb => by simp at hb; rcases hb with rfl | rfl | rfl | rfl | rfl <;> decide,
    Hd.imp h fun b hb => by simp at hb; rcases hb with rfl | rfl | rfl | rfl | rfl <;> decide⟩

theorem mcore_basic {n : Name} {b : Basic} (h : (n, b) ∈ basicNames) : MCore n (.basic b {}) := by
  intro k r _ he hx
  have hn := basic_isName h
  rw [coreP, exprP_fail _ (operandP_name _ hn he.noName fun _ => (corenext_ne hx).1) (algebraP_next _ hx), Res.fail_orElse,
    basicP_word h he.noName]
  rfl

theorem mcore_ref {n : Name} (hn : IsName n) (hb : ∀ b, (n, b) ∉ basicNames) : MCore n (.none ⟨n, []⟩) := by
  intro k r _ he hx
  have h := corenext_ne hx
  rw [coreP, exprP_fail _ (operandP_name _ hn he.noName fun _ => h.1) (algebraP_next _ hx), Res.fail_orElse,
    basicP_name hn hb he.noName, Res.ofOption_none, Res.fail_orElse, enumP_name hn he.noName h.1, Res.fail_orElse,
    listP_name _ hn he.noName h.2, Res.fail_orElse, mapP_name _ hn he.noName h.2, Res.fail_orElse,
    recordP_name _ hn he.noName (fun _ => h.1), Res.fail_orElse, refP, identP_append hn he.noName]
  rfl

/-- A keyword with a bracket: no expression, no basic type. -/
theorem word_skip (p : Str → Res T) {w g r : Str} {c : UInt8} (hw : IsName w) (hb : ∀ b, (w, b) ∉ basicNames)
    (hw' : w ≠ [114, 101, 99, 111, 114, 100]) (hg : Gap g) (hc : c = 123 ∨ (c = 60 ∧ Hd (fun b => b ≠ 43) r)) :
    exprP p (w ++ (g ++ c :: r)) = .fail ∧ basicP (w ++ (g ++ c :: r)) = none := by
  have hc1 : c ∈ ([44, 62, 125, 61, 58, 123, 60, 35, 43, 45, 34] : List UInt8) := by rcases hc with rfl | ⟨rfl, _⟩ <;> simp
  have hr : Hd (fun b => ¬ NameChar b) (g ++ c :: r) :=
    gap_noName hg (.cons (not_name (.inr (by rcases hc with rfl | ⟨rfl, _⟩ <;> simp))))
  refine ⟨exprP_fail p (operandP_name p hw hr fun h => absurd h hw') ?_, basicP_name hw hb hr⟩
  rw [skp_gap hg, skp_self hc1]
  refine algebraP_none p (.cons ?_) fun q e => ?_
  · rcases hc with rfl | ⟨rfl, _⟩ <;> decide
  · cases e
    rcases hc with hc | ⟨_, hc⟩
    · exact absurd hc (by decide)
    · exact hc

theorem mcore_enum {g s : Str} {ls : List Name} (hg : Gap g) (h : LabelsText s ls) :
    MCore ([101, 110, 117, 109] ++ g ++ 123 :: (s ++ [125])) (.enum ls {}) := by
  intro k r _ he hx
  have e : [101, 110, 117, 109] ++ g ++ 123 :: (s ++ [125]) ++ r = [101, 110, 117, 109] ++ (g ++ 123 :: (s ++ 125 :: r)) := by simp
  have hs := word_skip (typeP k) (w := [101, 110, 117, 109]) (r := s ++ 125 :: r) ⟨by simp, by decide +kernel⟩
    (by intro b; cases b <;> decide +kernel) (by decide) hg (.inl rfl)
  rw [e, coreP, hs.1, Res.fail_orElse, hs.2, Res.ofOption_none, Res.fail_orElse, enumP_text hg h, Res.ok_orElse]

/-- Types begin like names. -/
theorem type_head {s : Str} {t : T} (h : TypeText s t) : ∃ b r, s = b :: r ∧ NameChar b := by
  have hrec : ∀ {s fs}, RecordText s fs → ∃ b r, s = b :: r ∧ NameChar b := by
    intro s fs h
    cases h
    exact ⟨114, _, rfl, by decide +kernel⟩
  have hop : ∀ {s t}, OperandText s t → ∃ b r, s = b :: r ∧ NameChar b := by
    intro s t h
    cases h with
    | ref hn => exact name_head hn
    | record h => exact hrec h
  have hc : ∀ {s t}, CoreText s t → ∃ b r, s = b :: r ∧ NameChar b := by
    intro s t h
    cases h with
    | basic h => exact name_head (basic_isName h)
    | ref h _ => exact name_head h
    | enum _ _ => exact ⟨101, _, rfl, by decide +kernel⟩
    | list _ _ _ _ => exact ⟨108, _, rfl, by decide +kernel⟩
    | map _ _ _ _ _ _ _ => exact ⟨109, _, rfl, by decide +kernel⟩
    | record h => exact hrec h
    | expr h _ =>
      obtain ⟨b, r, rfl, hb⟩ := hop h
      exact ⟨b, _, rfl, hb⟩
  cases h with
  | intro h _ _ =>
    obtain ⟨b, r, rfl, hb⟩ := hc h
    exact ⟨b, _, rfl, hb⟩

theorem skp_type {s r : Str} {t : T} (h : TypeText s t) : skp (s ++ r) = s ++ r := by
  obtain ⟨b, q, rfl, hb⟩ := type_head h
  exact skp_stop (name_stop hb).1 (name_stop hb).2

theorem gap_type_hd {g s r : Str} {t : T} (hg : Gap g) (h : TypeText s t) : Hd (fun b => b ≠ 43) (g ++ (s ++ r)) := by
  refine ((gap_head hg).imp fun b hb => ?_).append ?_
  · rintro rfl
    exact absurd hb (by decide +kernel)
  · obtain ⟨b, q, rfl, hb⟩ := type_head h
    refine .cons ?_
    rintro rfl
    exact absurd hb (by decide +kernel)

theorem mcore_list {g g1 s g2 : Str} {t : T} (hg : Gap g) (hg1 : Gap g1) (ht : TypeText s t) (h : MType s t) (hg2 : Blank g2) :
    MCore ([108, 105, 115, 116] ++ g ++ 60 :: (g1 ++ s ++ g2 ++ [62])) (.list t {}) := by
  intro k r hk he hx
  have e : [108, 105, 115, 116] ++ g ++ 60 :: (g1 ++ s ++ g2 ++ [62]) ++ r =
    [108, 105, 115, 116] ++ (g ++ 60 :: (g1 ++ (s ++ (g2 ++ 62 :: r)))) := by simp
  have hw : IsName [108, 105, 115, 116] := ⟨by simp, by decide +kernel⟩
  have hs := word_skip (typeP k) (w := [108, 105, 115, 116]) hw
    (by intro b; cases b <;> decide +kernel) (by decide) hg (.inr ⟨rfl, gap_type_hd (r := g2 ++ 62 :: r) hg1 ht⟩)
  have hen : enumP ([108, 105, 115, 116] ++ (g ++ 60 :: (g1 ++ (s ++ (g2 ++ 62 :: r))))) = .fail := by
    have : kw "enum".toList ([108, 105, 115, 116] ++ (g ++ 60 :: (g1 ++ (s ++ (g2 ++ 62 :: r))))) = none := rfl
    rw [enumP, this]; rfl
  have hkw : kw "list".toList ([108, 105, 115, 116] ++ (g ++ 60 :: (g1 ++ (s ++ (g2 ++ 62 :: r))))) =
    some (g ++ 60 :: (g1 ++ (s ++ (g2 ++ 62 :: r)))) := kw_append "list".toList _
  have e1 : eat '<' (60 :: (g1 ++ (s ++ (g2 ++ 62 :: r)))) = some (g1 ++ (s ++ (g2 ++ 62 :: r))) := rfl
  have e2 : eat '>' (62 :: r) = some r := rfl
  have hl : listP (typeP k) ([108, 105, 115, 116] ++ (g ++ 60 :: (g1 ++ (s ++ (g2 ++ 62 :: r))))) = .ok (.list t {}) r := by
    rw [listP, hkw, Res.unit_some, Res.ok_bind, skp_gap hg, skp_self (by simp), e1, Res.unit_some, Res.ok_bind, skp_gap hg1,
      skp_type ht, h k _ (by simp at hk; omega) (blank_ends hg2 (ends_cons (by simp))) (gap_next hg2.1 (by simp)), Res.ok_bind,
      skp_gap hg2.1, skp_self (by simp), e2, Res.unit_some, Res.ok_bind]
  rw [e, coreP, hs.1, Res.fail_orElse, hs.2, Res.ofOption_none, Res.fail_orElse, hen, Res.fail_orElse, hl, Res.ok_orElse]

theorem mcore_map {g g1 s g2 g3 s' g4 : Str} {t u : T} (hg : Gap g) (hg1 : Gap g1) (ht : TypeText s t) (h : MType s t)
    (hg2 : Blank g2) (hg3 : Gap g3) (hu : TypeText s' u) (h' : MType s' u) (hg4 : Blank g4) :
    MCore ([109, 97, 112] ++ g ++ 60 :: (g1 ++ s ++ g2 ++ 44 :: (g3 ++ s' ++ g4 ++ [62]))) (.map t u {}) := by
  intro k r hk he hx
  have e : [109, 97, 112] ++ g ++ 60 :: (g1 ++ s ++ g2 ++ 44 :: (g3 ++ s' ++ g4 ++ [62])) ++ r =
    [109, 97, 112] ++ (g ++ 60 :: (g1 ++ (s ++ (g2 ++ 44 :: (g3 ++ (s' ++ (g4 ++ 62 :: r))))))) := by simp
  have hw : IsName [109, 97, 112] := ⟨by simp, by decide +kernel⟩
  have hs := word_skip (typeP k) (w := [109, 97, 112]) hw (by intro b; cases b <;> decide +kernel) (by decide) hg
    (.inr ⟨rfl, gap_type_hd (r := g2 ++ 44 :: (g3 ++ (s' ++ (g4 ++ 62 :: r)))) hg1 ht⟩)
  generalize hX : g ++ 60 :: (g1 ++ (s ++ (g2 ++ 44 :: (g3 ++ (s' ++ (g4 ++ 62 :: r)))))) = X at e hs
  have hen : enumP ([109, 97, 112] ++ X) = .fail := by
    have : kw "enum".toList ([109, 97, 112] ++ X) = none := rfl
    rw [enumP, this]; rfl
  have hli : listP (typeP k) ([109, 97, 112] ++ X) = .fail := by
    have : kw "list".toList ([109, 97, 112] ++ X) = none := rfl
    rw [listP, this]; rfl
  have hkw : kw "map".toList ([109, 97, 112] ++ X) = some X := kw_append "map".toList _
  have e1 : eat '<' (60 :: (g1 ++ (s ++ (g2 ++ 44 :: (g3 ++ (s' ++ (g4 ++ 62 :: r))))))) =
    some (g1 ++ (s ++ (g2 ++ 44 :: (g3 ++ (s' ++ (g4 ++ 62 :: r)))))) := rfl
  have e2 : eat ',' (44 :: (g3 ++ (s' ++ (g4 ++ 62 :: r)))) = some (g3 ++ (s' ++ (g4 ++ 62 :: r))) := rfl
  have e3 : eat '>' (62 :: r) = some r := rfl
  have hl : mapP (typeP k) ([109, 97, 112] ++ X) = .ok (.map t u {}) r := by
    rw [mapP, hkw, Res.unit_some, Res.ok_bind, ← hX, skp_gap hg, skp_self (by simp), e1, Res.unit_some, Res.ok_bind, skp_gap hg1,
      skp_type ht, h k _ (by simp at hk; omega) (blank_ends hg2 (ends_cons (by simp))) (gap_next hg2.1 (by simp)), Res.ok_bind,
      skp_gap hg2.1, skp_self (by simp), e2, Res.unit_some, Res.ok_bind, skp_gap hg3, skp_type hu,
      h' k _ (by simp at hk; omega) (blank_ends hg4 (ends_cons (by simp))) (gap_next hg4.1 (by simp)), Res.ok_bind,
      skp_gap hg4.1, skp_self (by simp), e3, Res.unit_some, Res.ok_bind]
  rw [e, coreP, hs.1, Res.fail_orElse, hs.2, Res.ofOption_none, Res.fail_orElse, hen, Res.fail_orElse, hli, Res.fail_orElse, hl,
    Res.ok_orElse]

theorem mcore_record {s : Str} {fs : Fs} (hs : RecordText s fs) (h : MRecord s fs) : MCore s (.record fs {}) := by
  intro k r hk he hx
  have h1 := h k r hk
  cases hs with
  | @intro g s fs hg hs =>
    have e : [114, 101, 99, 111, 114, 100] ++ g ++ 123 :: (s ++ [125]) ++ r =
      [114, 101, 99, 111, 114, 100] ++ (g ++ 123 :: (s ++ 125 :: r)) := by simp
    rw [e] at h1 ⊢
    generalize hX : g ++ 123 :: (s ++ 125 :: r) = X at h1
    have hop : operandP (typeP k) ([114, 101, 99, 111, 114, 100] ++ X) = .ok (.record fs {}) r := by
      rw [operandP, h1]; rfl
    have hb : basicP ([114, 101, 99, 111, 114, 100] ++ X) = none := rfl
    have hen : enumP ([114, 101, 99, 111, 114, 100] ++ X) = .fail := by
      have : kw "enum".toList ([114, 101, 99, 111, 114, 100] ++ X) = none := rfl
      rw [enumP, this]; rfl
    have hli : listP (typeP k) ([114, 101, 99, 111, 114, 100] ++ X) = .fail := by
      have : kw "list".toList ([114, 101, 99, 111, 114, 100] ++ X) = none := rfl
      rw [listP, this]; rfl
    have hma : mapP (typeP k) ([114, 101, 99, 111, 114, 100] ++ X) = .fail := by
      have : kw "map".toList ([114, 101, 99, 111, 114, 100] ++ X) = none := rfl
      rw [mapP, this]; rfl
    rw [coreP, exprP_fail _ hop (algebraP_next _ hx), Res.fail_orElse, hb, Res.ofOption_none, Res.fail_orElse, hen,
      Res.fail_orElse, hli, Res.fail_orElse, hma, Res.fail_orElse, h1, Res.ok_orElse]

theorem ops_first {p : Str → Res T} {k : Nat} {s r : Str} {l : List (Name × T)} (h : algebraLoop p (k + 1) [] s = .ok l r)
    (hl : l ≠ []) : ∃ a s2, algebraP p (skp s) = .ok a s2 ∧ algebraLoop p k [a] s2 = .ok l r := by
  rw [algebraLoop] at h
  split at h
  · rename_i a q hq
    exact ⟨a, q, hq, h⟩
  · cases h; exact absurd rfl hl
  · cases h
  · cases h

theorem op_head {s : Str} {n : Name} {t : T} (h : OpText s n t) (r : Str) : Hd (fun b => ¬ NameChar b) (s ++ r) ∧
    Hd (fun b => b ≠ 123) (skp (s ++ r)) ∧ 0 < s.length := by
  cases h with
  | @op _ g g' s t ho hg hg' _ =>
    have : ∃ b q, n = b :: q ∧ b ∈ ([43, 60] : List UInt8) := by
      simp at ho
      rcases ho with rfl | rfl | rfl <;> exact ⟨_, _, rfl, by simp⟩
    obtain ⟨b, q, rfl, hb⟩ := this
    have hb2 : ¬ NameChar b := not_name (.inr (by simp at hb; rcases hb with rfl | rfl <;> simp))
    have hb3 : b ∈ ([44, 62, 125, 61, 58, 123, 60, 35, 43, 45, 34] : List UInt8) := by
      simp at hb; rcases hb with rfl | rfl <;> simp
    simp only [List.append_assoc, List.cons_append]
    refine ⟨gap_noName hg (.cons hb2), ?_, by simp; omega⟩
    rw [skp_gap hg, skp_self hb3]
    exact .cons (by simp at hb; rcases hb with rfl | rfl <;> decide)
  | @minus g g' s ns hg hg' _ =>
    simp only [List.append_assoc, List.cons_append]
    refine ⟨gap_noName hg (.cons (not_name (.inr (by simp)))), ?_, by simp; omega⟩
    rw [skp_gap hg, skp_self (by simp)]
    exact .cons (by decide)

theorem ops_head {s : Str} {ops : Fs} (h : OpsText s ops) (r : Str) : Hd (fun b => ¬ NameChar b) (s ++ r) ∧
    Hd (fun b => b ≠ 123) (skp (s ++ r)) ∧ ops.toList ≠ [] := by
  cases h with
  | one h => exact ⟨(op_head h r).1, (op_head h r).2.1, by simp [Fs.toList]⟩
  | @more s r' _ _ _ h _ =>
    rw [List.append_assoc]
    exact ⟨(op_head h (r' ++ r)).1, (op_head h (r' ++ r)).2.1, by simp [Fs.toList]⟩

theorem mcore_expr {s q : Str} {t : T} {ops : Fs} (h : MOperand s t) (hq : OpsText q ops) (h' : MOps q ops) :
    MCore (s ++ q) (.record (.cons [] t ops) ⟨[], [(algebraKey, none)]⟩) := by
  intro k r hk he hx
  have h1 := h k (q ++ r) (by simp at hk; omega) (ops_head hq r).1 (ops_head hq r).2.1
  have h2 := h' k r [] ((s ++ (q ++ r)).length + 2) (by simp at hk; omega) (by simp; omega) he hx
  obtain ⟨a, s2, h3, h4⟩ := ops_first h2 (by simpa using (ops_head hq r).2.2)
  rw [List.append_assoc, coreP, exprP, h1, Res.ok_bind, h3, Res.ok_bind, h4, Res.ok_bind, Res.ok_orElse, Fs.ofList,
    List.nil_append, ofList_toList]

theorem mrecord {g s : Str} {fs : Fs} (hg : Gap g) (h : MFields s fs) :
    MRecord ([114, 101, 99, 111, 114, 100] ++ g ++ 123 :: (s ++ [125])) fs := by
  intro k r hk
  have e : [114, 101, 99, 111, 114, 100] ++ g ++ 123 :: (s ++ [125]) ++ r =
    [114, 101, 99, 111, 114, 100] ++ (g ++ 123 :: (s ++ 125 :: r)) := by simp
  have hkw : kw "record".toList ([114, 101, 99, 111, 114, 100] ++ (g ++ 123 :: (s ++ 125 :: r))) =
    some (g ++ 123 :: (s ++ 125 :: r)) := kw_append "record".toList _
  rw [e, recordP, hkw, Res.unit_some, Res.ok_bind, skp_gap hg, skp_self (by simp), bracesP_chain,
    h k r [] _ (by simp at hk; omega) (by simp; omega), Res.ok_bind, List.nil_append, ofList_toList]

theorem fieldP_none (p : Str → Res T) {g r : Str} (hg : Gap g) : fieldP p (g ++ 125 :: r) = .fail := by
  rw [fieldP, skp_gap hg, skp_self (by simp), fieldNameP, identP_none (.cons (not_name (.inr (by simp)))),
    quotedP_none (.cons (by decide))]
  rfl

theorem mfields_one {s : Str} {n : Name} {t : T} (h : MField s n t) : MFields s (.cons n t .nil) := by
  intro k r acc j hk hj
  obtain ⟨j, rfl⟩ : ∃ j', j = j' + 1 := ⟨j - 1, by omega⟩
  exact chain_one (h k 125 r hk (.inr rfl))

theorem mfields_last {s g : Str} {n : Name} {t : T} (h : MField s n t) (hg : Gap g) : MFields (s ++ 44 :: g) (.cons n t .nil) := by
  intro k r acc j hk hj
  obtain ⟨j, rfl⟩ : ∃ j', j = j' + 1 := ⟨j - 1, by omega⟩
  rw [List.append_assoc, List.cons_append]
  exact chain_last (h k 44 _ (by simp at hk; omega) (.inl rfl)) hg (fieldP_none _ hg)

theorem mfields_more {s q : Str} {n : Name} {t : T} {fs : Fs} (h : MField s n t) (h' : MFields q fs) :
    MFields (s ++ 44 :: q) (.cons n t fs) := by
  intro k r acc j hk hj
  obtain ⟨j, rfl⟩ : ∃ j', j = j' + 1 := ⟨j - 1, by omega⟩
  rw [List.append_assoc, List.cons_append]
  refine chain_more (h k 44 _ (by simp at hk; omega) (.inl rfl)) ?_
  rw [h' k r _ j (by simp at hk; omega) (by simp at hj; omega)]
  simp [Fs.toList]

theorem mfield {g1 s g2 g3 q g4 : Str} {n : Name} {t : T} (hg1 : Gap g1) (hs : FieldName s n) (hg2 : Gap g2) (hg3 : Gap g3)
    (hq : TypeText q t) (h : MType q t) (hg4 : Blank g4) : MField (g1 ++ s ++ g2 ++ 58 :: (g3 ++ q ++ g4)) n t := by
  intro k b r hk hb
  have e : g1 ++ s ++ g2 ++ 58 :: (g3 ++ q ++ g4) ++ b :: r = g1 ++ (s ++ (g2 ++ 58 :: (g3 ++ (q ++ (g4 ++ b :: r))))) := by simp
  have h1 : Hd (fun b => ¬ NameChar b) (g2 ++ 58 :: (g3 ++ (q ++ (g4 ++ b :: r)))) :=
    gap_noName hg2 (.cons (not_name (.inr (by simp))))
  have h2 : skp (s ++ (g2 ++ 58 :: (g3 ++ (q ++ (g4 ++ b :: r))))) = s ++ (g2 ++ 58 :: (g3 ++ (q ++ (g4 ++ b :: r)))) ∧
      fieldNameP (s ++ (g2 ++ 58 :: (g3 ++ (q ++ (g4 ++ b :: r))))) = some (n, g2 ++ 58 :: (g3 ++ (q ++ (g4 ++ b :: r)))) := by
    cases hs with
    | name hn => exact ⟨skp_name hn, by rw [fieldNameP, identP_append hn h1]; rfl⟩
    | quoted hs =>
      refine ⟨?_, ?_⟩
      · obtain ⟨w, rfl⟩ := quoted_head hs
        exact skp_self (by simp)
      · rw [fieldNameP, quotedP_text hs]
        obtain ⟨w, rfl⟩ := quoted_head hs
        rw [List.cons_append, identP_none (.cons (by decide +kernel))]
        rfl
  have e1 : eat ':' (58 :: (g3 ++ (q ++ (g4 ++ b :: r)))) = some (g3 ++ (q ++ (g4 ++ b :: r))) := rfl
  have hb' : b = 44 ∨ b = 62 ∨ b = 125 := hb.imp id .inr
  rw [e, fieldP, skp_gap hg1, h2.1, h2.2, Res.ofOption_some, Res.ok_bind, skp_gap hg2, skp_self (by simp), e1, Res.unit_some,
    Res.ok_bind, skp_gap hg3, skp_type hq,
    h k _ (by simp at hk; omega) (blank_ends hg4 (ends_cons hb')) (gap_next hg4.1 hb'), Res.ok_bind, skp_gap hg4.1,
    skp_self (by rcases hb with rfl | rfl <;> simp)]

theorem moperand_ref {n : Name} (hn : IsName n) : MOperand n (.none ⟨n, []⟩) := fun _ _ _ hr hr' =>
  operandP_name _ hn hr fun _ => hr'

theorem moperand_record {s : Str} {fs : Fs} (h : MRecord s fs) : MOperand s (.record fs {}) := fun k r hk _ _ => by
  rw [operandP, h k r hk]; rfl

theorem operand_skp {s r : Str} {t : T} (h : OperandText s t) : skp (s ++ r) = s ++ r ∧ Hd (fun b => b ≠ 62) (s ++ r) := by
  have : ∃ b q, s = b :: q ∧ NameChar b := by
    cases h with
    | ref hn => exact name_head hn
    | record h => cases h; exact ⟨114, _, rfl, by decide +kernel⟩
  obtain ⟨b, q, rfl, hb⟩ := this
  refine ⟨skp_stop (name_stop hb).1 (name_stop hb).2, .cons ?_⟩
  rintro rfl
  exact absurd hb (by decide +kernel)

theorem mop {o : Name} {g g' s : Str} {t : T} (ho : o ∈ ([[43], [60, 43], [43, 62]] : List Name)) (hg : Gap g) (hg' : Gap g')
    (hs : OperandText s t) (h : MOperand s t) : MOp (g ++ o ++ g' ++ s) o t := by
  intro k r hk hr hr'
  have h1 := h k r (by simp at hk; omega) hr hr'
  have h2 : skp (g' ++ (s ++ r)) = s ++ r := by rw [skp_gap hg', (operand_skp hs).1]
  have hop : ∀ w : List Char, opP (typeP k) w (w.map ch ++ (g' ++ (s ++ r))) = .ok (w.map ch, t) r := by
    intro w
    rw [opP, kw_append, Res.unit_some, Res.ok_bind, h2, h1, Res.ok_bind]
  have e : g ++ o ++ g' ++ s ++ r = g ++ (o ++ (g' ++ (s ++ r))) := by simp
  rw [e, skp_gap hg]
  generalize hX : g' ++ (s ++ r) = X at hop
  have hX' : Hd (fun b => b ≠ 62) X := by
    rw [← hX]
    refine ((gap_head hg').imp fun b hb => ?_).append (operand_skp hs).2
    rintro rfl
    exact absurd hb (by decide +kernel)
  simp at ho
  rcases ho with rfl | rfl | rfl
  · have f1 : opP (typeP k) "+>".toList ([43] ++ X) = .fail := by
      have : kw "+>".toList ([43] ++ X) = none := by
        show kw ['>'] X = none
        rw [kw, eat_hd (c := '>') hX']
      rw [opP, this]; rfl
    rw [List.singleton_append, skp_self (by simp), algebraP, ← List.singleton_append, f1, Res.fail_orElse]
    have := hop "+".toList
    have e2 : "+".toList.map ch = [43] := by decide
    rw [e2] at this
    rw [this]; rfl
  · have f1 : opP (typeP k) "+>".toList ([60, 43] ++ X) = .fail := by
      have : kw "+>".toList ([60, 43] ++ X) = none := rfl
      rw [opP, this]; rfl
    have f2 : opP (typeP k) "+".toList ([60, 43] ++ X) = .fail := by
      have : kw "+".toList ([60, 43] ++ X) = none := rfl
      rw [opP, this]; rfl
    have e3 : skp ([60, 43] ++ X) = [60, 43] ++ X := skp_self (by simp)
    rw [e3, algebraP, f1, Res.fail_orElse, f2, Res.fail_orElse]
    have := hop "<+".toList
    have e2 : "<+".toList.map ch = [60, 43] := by decide
    rw [e2] at this
    rw [this]; rfl
  · have e3 : skp ([43, 62] ++ X) = [43, 62] ++ X := skp_self (by simp)
    rw [e3, algebraP]
    have := hop "+>".toList
    have e2 : "+>".toList.map ch = [43, 62] := by decide
    rw [e2] at this
    rw [this]; rfl

theorem mop_minus {g g' s : Str} {ns : List Name} (hg : Gap g) (hg' : Gap g') (h : PathText s ns) :
    MOp (g ++ 45 :: (g' ++ s)) [45] (.record (pathFields ns) {}) := by
  intro k r _ hr _
  have e : g ++ 45 :: (g' ++ s) ++ r = g ++ 45 :: (g' ++ s ++ r) := by simp
  rw [e, skp_gap hg, skp_self (by simp), algebraP]
  have f1 : opP (typeP k) "+>".toList (45 :: (g' ++ s ++ r)) = .fail := by
    have : kw "+>".toList (45 :: (g' ++ s ++ r)) = none := rfl
    rw [opP, this]; rfl
  have f2 : opP (typeP k) "+".toList (45 :: (g' ++ s ++ r)) = .fail := by
    have : kw "+".toList (45 :: (g' ++ s ++ r)) = none := rfl
    rw [opP, this]; rfl
  have f3 : opP (typeP k) "<+".toList (45 :: (g' ++ s ++ r)) = .fail := by
    have : kw "<+".toList (45 :: (g' ++ s ++ r)) = none := rfl
    rw [opP, this]; rfl
  rw [f1, Res.fail_orElse, f2, Res.fail_orElse, f3, Res.fail_orElse, minusP_text hg' h hr]

theorem loop_end {p : Str → Res T} {k : Nat} {acc : List (Name × T)} {r : Str} (h : CoreNext r) (hk : 0 < k) :
    algebraLoop p k acc r = .ok acc r := by
  obtain ⟨k, rfl⟩ : ∃ k', k = k' + 1 := ⟨k - 1, by omega⟩
  rw [algebraLoop, algebraP_next p h]

theorem mops_one {s : Str} {n : Name} {t : T} (hs : OpText s n t) (h : MOp s n t) : MOps s (.cons n t .nil) := by
  intro k r acc j hk hj he hx
  obtain ⟨j, rfl⟩ : ∃ j', j = j' + 1 := ⟨j - 1, by omega⟩
  have := (op_head hs r).2.2
  rw [algebraLoop, h k r hk he.noName (corenext_ne hx).1]
  simp only
  rw [loop_end hx (by omega)]
  rfl

theorem mops_more {s q : Str} {n : Name} {t : T} {ops : Fs} (hs : OpText s n t) (h : MOp s n t) (hq : OpsText q ops)
    (h' : MOps q ops) : MOps (s ++ q) (.cons n t ops) := by
  intro k r acc j hk hj he hx
  obtain ⟨j, rfl⟩ : ∃ j', j = j' + 1 := ⟨j - 1, by omega⟩
  have := (op_head hs r).2.2
  rw [List.append_assoc, algebraLoop, h k (q ++ r) (by simp at hk; omega) (ops_head hq r).1 (ops_head hq r).2.1]
  simp only
  rw [h' k r _ j (by simp at hk; omega) (by simp at hj; omega) he hx]
  simp [Fs.toList]

/-- Every text of a type is read as the type. -/
theorem type_reads {s : Str} {t : T} (h : TypeText s t) : MType s t := by
  refine TypeText.rec (motive_1 := fun s t _ => MType s t) (motive_2 := fun s t _ => MCore s t)
    (motive_3 := fun s fs _ => MRecord s fs) (motive_4 := fun s fs _ => MFields s fs)
    (motive_5 := fun s n t _ => MField s n t) (motive_6 := fun s t _ => MOperand s t)
    (motive_7 := fun s fs _ => MOps s fs) (motive_8 := fun s n t _ => MOp s n t)
    ?_ ?_ ?_ ?_ ?_ ?_ ?_ ?_ ?_ ?_ ?_ ?_ ?_ ?_ ?_ ?_ ?_ ?_ ?_ h
  · intro _ _ _ _ hc hr hd ih; exact mtype hc ih hr hd
  · intro _ _ h; exact mcore_basic h
  · intro _ h h'; exact mcore_ref h h'
  · intro _ _ _ h h'; exact mcore_enum h h'
  · intro _ _ _ _ _ h1 h2 h3 h4 ih; exact mcore_list h1 h2 h3 ih h4
  · intro _ _ _ _ _ _ _ _ _ h1 h2 h3 h4 h5 h6 h7 ih ih'; exact mcore_map h1 h2 h3 ih h4 h5 h6 ih' h7
  · intro _ _ h ih; exact mcore_record h ih
  · intro _ _ _ _ _ h ih ih'; exact mcore_expr ih h ih'
  · intro _ _ _ h _ ih; exact mrecord h ih
  · intro _ _ _ _ ih; exact mfields_one ih
  · intro _ _ _ _ _ h ih; exact mfields_last ih h
  · intro _ _ _ _ _ _ _ ih ih'; exact mfields_more ih ih'
  · intro _ _ _ _ _ _ _ _ h1 h2 h3 h4 h5 h6 ih; exact mfield h1 h2 h3 h4 h5 ih h6
  · intro _ h; exact moperand_ref h
  · intro _ _ _ ih; exact moperand_record ih
  · intro _ _ _ h ih; exact mops_one h ih
  · intro _ _ _ _ _ h h' ih ih'; exact mops_more h ih h' ih'
  · intro _ _ _ _ _ h1 h2 h3 h4 ih; exact mop h1 h2 h3 h4 ih
  · intro _ _ _ _ h1 h2 h3; exact mop_minus h1 h2 h3

end Verif.SchemaText
