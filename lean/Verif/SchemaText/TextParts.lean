import Verif.SchemaText.TextLemmas

/-! # C99: attributes, words, names, paths -/

namespace Verif.SchemaText

open Verif.Types (Name Meta updateAttrs setAttr)
open Verif.DataText (ch eat kw isAlnum isSpace isCntrl isDigit quotedP quotedBody)
open Spec

@[simp] theorem Res.ok_bind {α β : Type} (a : α) (r : Str) (f : α → Str → Res β) : (Res.ok a r).bind f = f a r := rfl
@[simp] theorem Res.fail_bind {α β : Type} (f : α → Str → Res β) : (Res.fail).bind f = .fail := rfl
@[simp] theorem Res.ok_orElse {α : Type} (a : α) (r : Str) (f : Unit → Res α) : (Res.ok a r).orElse f = .ok a r := rfl
@[simp] theorem Res.fail_orElse {α : Type} (f : Unit → Res α) : (Res.fail).orElse f = f () := rfl
@[simp] theorem Res.unit_some (r : Str) : Res.unit (some r) = .ok () r := rfl
@[simp] theorem Res.unit_none : Res.unit none = .fail := rfl
@[simp] theorem Res.ofOption_some {α : Type} (a : α) (r : Str) : Res.ofOption (some (a, r)) = .ok a r := rfl
@[simp] theorem Res.ofOption_none {α : Type} : Res.ofOption (none : Option (α × Str)) = .fail := rfl

/-- What may follow a type. -/
def Ends (s : Str) : Prop := Hd (fun b => Space b ∨ b = 44 ∨ b = 62 ∨ b = 125) s

/-- What may follow a type after a gap; `#` only before the attributes. -/
def Next (s : Str) : Prop := Hd (fun b => b ∈ ([44, 62, 125, 116] : List UInt8)) (skp s)
@[inherit_doc Next] def CoreNext (s : Str) : Prop := Hd (fun b => b ∈ ([44, 62, 125, 116, 35] : List UInt8)) (skp s)

theorem Next.core {s : Str} (h : Next s) : CoreNext s := Hd.imp h fun b hb => by simp at hb ⊢; rcases hb with h | h | h | h <;> simp [h]

theorem Ends.noName {s : Str} (h : Ends s) : Hd (fun b => ¬ NameChar b) s := Hd.imp h fun b hb =>
  not_name (hb.imp id fun h => by rcases h with h | h | h <;> simp [h])

theorem blank_ends {g r : Str} (h : Blank g) (hr : Ends r) : Ends (g ++ r) :=
  Hd.append (fun b r e => .inl (h.2 b r e)) hr

theorem ends_cons {b : UInt8} {r : Str} (h : b = 44 ∨ b = 62 ∨ b = 125) : Ends (b :: r) := .cons (.inr h)

theorem skp_self {b : UInt8} {s : Str} (h : b ∈ ([44, 62, 125, 61, 58, 123, 60, 35, 43, 45, 34] : List UInt8)) :
    skp (b :: s) = b :: s := by
  have h1 : ¬ Space b ∧ b ≠ 47 := by
    simp at h
    rcases h with rfl | rfl | rfl | rfl | rfl | rfl | rfl | rfl | rfl | rfl | rfl <;> decide +kernel
  exact skp_stop h1.1 h1.2

theorem gap_next {g r : Str} {b : UInt8} (h : Gap g) (hb : b = 44 ∨ b = 62 ∨ b = 125) : Next (g ++ b :: r) := by
  rw [Next, skp_gap h, skp_self (by rcases hb with rfl | rfl | rfl <;> simp)]
  exact .cons (by rcases hb with h | h | h <;> simp [h])

/-! ### Attributes -/

theorem attrP_text {s r : Str} {a : Name × Option Name} (h : AttrText s a) (hr : Ends r) : attrP (s ++ r) = some (a, r) := by
  cases h with
  | @key k hk =>
    have e : eat '#' (35 :: (k ++ r)) = some (k ++ r) := rfl
    rw [List.cons_append, attrP, e, Option.bind_some, identP_append hk hr.noName]
    have : eat '=' r = none := eat_hd (Hd.imp hr fun b hb => by
      rcases hb with hb | rfl | rfl | rfl
      · rintro rfl
        exact absurd hb (by decide +kernel)
      all_goals decide)
    simp [this]
  | @value k v hk hv hv' hq =>
    have e : eat '#' (35 :: (k ++ 61 :: (v ++ r))) = some (k ++ 61 :: (v ++ r)) := rfl
    rw [List.cons_append, List.append_assoc, List.cons_append, attrP, e, Option.bind_some,
      identP_append hk (.cons (not_name (.inr (by simp))))]
    have e2 : eat '=' (61 :: (v ++ r)) = some (v ++ r) := rfl
    have e3 : quotedP '"' (v ++ r) = none := by
      cases v with
      | nil => exact absurd rfl hv
      | cons b v => exact quotedP_none (.cons (by simpa using hq))
    have e4 : plusOf isValueChar (v ++ r) = some (v, r) := by
      refine plusOf_append hv (fun b hb => isValueChar_iff.mpr (hv' b hb)) (Hd.imp hr fun b hb => ?_)
      rw [← Bool.not_eq_true, isValueChar_iff]
      rintro ⟨_, h2, h3, h4, h5⟩
      rcases hb with hb | rfl | rfl | rfl <;> simp_all
    simp only [Option.map_some, e2, Option.bind_some, attrValueP, e3, e4, Option.none_or]
  | @quoted k v s hk hs =>
    have e : eat '#' (35 :: (k ++ 61 :: (s ++ r))) = some (k ++ 61 :: (s ++ r)) := rfl
    rw [List.cons_append, List.append_assoc, List.cons_append, attrP, e, Option.bind_some,
      identP_append hk (.cons (not_name (.inr (by simp))))]
    have e2 : eat '=' (61 :: (s ++ r)) = some (s ++ r) := rfl
    simp only [Option.map_some, e2, Option.bind_some, attrValueP, quotedP_text hs, Option.some_or]

theorem attr_head {s : Str} {a : Name × Option Name} (h : AttrText s a) : ∃ r, s = 35 :: r := by
  cases h <;> exact ⟨_, rfl⟩

theorem attrs_ends {s r : Str} {as : List (Name × Option Name)} (h : AttrsText s as) (hr : Ends r) : Ends (s ++ r) := by
  cases h with
  | nil => exact hr
  | @cons g s r' a as hg hg' _ _ =>
    obtain ⟨hg1, hg2⟩ := hg
    cases g with
    | nil => exact absurd rfl hg'
    | cons b g => exact .cons (.inl (hg2 b g rfl))

theorem attrs_next {s r : Str} {as : List (Name × Option Name)} (h : AttrsText s as) (hr : Next r) : CoreNext (s ++ r) := by
  cases h with
  | nil => exact hr.core
  | @cons g s r' a as hg _ ha _ =>
    obtain ⟨q, rfl⟩ := attr_head ha
    rw [CoreNext, List.append_assoc, List.append_assoc, skp_gap hg.1, List.cons_append, skp_self (by simp)]
    exact .cons (by simp)

theorem attrsP_text {s r : Str} {as : List (Name × Option Name)} (h : AttrsText s as) (hr : Ends r) (hr' : Next r) :
    ∀ k, s.length ≤ k → attrsP k (s ++ r) = (as, r) := by
  induction h with
  | nil =>
    intro k _
    cases k with
    | zero => rfl
    | succ k =>
      have : attrP (skp r) = none := by
        rw [attrP, eat_hd (Hd.imp hr' fun b hb => by simp at hb; rcases hb with rfl | rfl | rfl | rfl <;> decide)]
        rfl
      simp [attrsP, this]
  | @cons g s r' a as hg hg' ha hr2 ih =>
    intro k hk
    obtain ⟨q, hq⟩ := attr_head ha
    have hk' : r'.length + 1 ≤ k := by subst hq; simp at hk; omega
    obtain ⟨k, rfl⟩ : ∃ k', k = k' + 1 := ⟨k - 1, by omega⟩
    have e : skp (g ++ s ++ r' ++ r) = s ++ (r' ++ r) := by
      rw [List.append_assoc, List.append_assoc, skp_gap hg.1, hq, List.cons_append, skp_self (by simp)]
    rw [attrsP, e, attrP_text ha (attrs_ends hr2 hr)]
    simp [ih k (by omega)]

theorem setAttr_new : ∀ {l : List (Name × Option Name)} {k : Name} (v : Option Name), k ∉ l.map (·.1) →
    setAttr k v l = l ++ [(k, v)]
  | [], _, _, _ => rfl
  | (k', v') :: l, k, v, h => by
    simp only [List.map_cons, List.mem_cons, not_or] at h
    rw [setAttr, if_neg (Ne.symm h.1), setAttr_new v h.2, List.cons_append]

theorem updateAttrs_new : ∀ {bs as : List (Name × Option Name)}, ((as ++ bs).map (·.1)).Nodup → updateAttrs as bs = as ++ bs
  | [], as, _ => by simp [updateAttrs]
  | (k, v) :: bs, as, h => by
    have e : updateAttrs as ((k, v) :: bs) = updateAttrs (setAttr k v as) bs := rfl
    have hk : k ∉ as.map (·.1) := by
      rw [List.map_append, List.nodup_append] at h
      intro hm
      exact h.2.2 k hm k (by simp) rfl
    rw [e, setAttr_new v hk, updateAttrs_new (by simpa using h)]
    simp

theorem attrs_keys {s : Str} {as : List (Name × Option Name)} (h : AttrsText s as) : ∀ a ∈ as, IsName a.1 := by
  induction h with
  | nil => simp
  | cons _ _ ha _ ih =>
    intro a hm
    rcases List.mem_cons.mp hm with rfl | hm
    · cases ha <;> assumption
    · exact ih a hm

/-! ### Basic types -/

theorem basicWords_names : basicWords.map (fun x => (x.1.map ch, x.2)) = basicNames := by decide +kernel

theorem basic_isName {n : Name} {b : Basic} (h : (n, b) ∈ basicNames) : IsName n := by
  simp [basicNames] at h
  rcases h with ⟨rfl, _⟩ | ⟨rfl, _⟩ | ⟨rfl, _⟩ | ⟨rfl, _⟩ | ⟨rfl, _⟩ | ⟨rfl, _⟩ | ⟨rfl, _⟩ | ⟨rfl, _⟩ | ⟨rfl, _⟩ | ⟨rfl, _⟩ <;>
    exact ⟨by simp, by decide +kernel⟩

theorem wordP_some : ∀ {ws : List (List Char × Basic)} {s r : Str} {b : Basic}, wordP ws s = some (b, r) →
    ∃ w, (w, b) ∈ ws ∧ s = w.map ch ++ r
  | [], _, _, _, h => by simp [wordP] at h
  | (w, b') :: ws, s, r, b, h => by
    rw [wordP] at h
    split at h
    · rename_i r' h'
      simp at h
      obtain ⟨rfl, rfl⟩ := h
      exact ⟨w, by simp, kw_some h'⟩
    · obtain ⟨w, hw, hs⟩ := wordP_some h
      exact ⟨w, by simp [hw], hs⟩

theorem basicP_word {n r : Str} {b : Basic} (h : (n, b) ∈ basicNames) (hr : Hd (fun b => ¬ NameChar b) r) :
    basicP (n ++ r) = some (.basic b {}, r) := by
  have hr := noIdent_iff.mpr hr
  have e : wordP basicWords (n ++ r) = some (b, r) := by
    simp [basicNames] at h
    rcases h with ⟨rfl, rfl⟩ | ⟨rfl, rfl⟩ | ⟨rfl, rfl⟩ | ⟨rfl, rfl⟩ | ⟨rfl, rfl⟩ | ⟨rfl, rfl⟩ | ⟨rfl, rfl⟩ | ⟨rfl, rfl⟩ |
      ⟨rfl, rfl⟩ | ⟨rfl, rfl⟩ <;> rfl
  rw [basicP, e]
  simp [hr]

theorem basicP_name {n r : Str} (hn : IsName n) (hb : ∀ b, (n, b) ∉ basicNames) (hr : Hd (fun b => ¬ NameChar b) r) :
    basicP (n ++ r) = none := by
  rw [basicP]
  cases h : wordP basicWords (n ++ r) with
  | none => rfl
  | some x =>
    obtain ⟨b, s⟩ := x
    obtain ⟨w, hw, hs⟩ := wordP_some h
    have hw' : (w.map ch, b) ∈ basicNames := by rw [← basicWords_names]; exact List.mem_map.mpr ⟨_, hw, rfl⟩
    obtain ⟨m, hm, hs'⟩ := name_split hn.2 hr (basic_isName hw').2 hs
    simp only [Option.bind_some]
    rw [if_neg]
    rw [noIdent_iff]
    intro hd
    cases m with
    | nil => rw [List.append_nil] at hm; exact hb b (hm ▸ hw')
    | cons c m => exact hd c _ hs' (hn.2 c (by simp [hm]))

/-! ### Names as operands, and the parsers that do not match names -/

theorem kw_fail {w : List Char} {c : Char} {b : UInt8} {s : Str} (h : b ≠ ch c) : kw (c :: w) (b :: s) = none := by
  simp [kw, eat, h]

theorem recordP_name (p : Str → Res T) {n r : Str} (hn : IsName n) (hr : Hd (fun b => ¬ NameChar b) r)
    (hr' : n = [114, 101, 99, 111, 114, 100] → Hd (fun b => b ≠ 123) (skp r)) : recordP p (n ++ r) = .fail := by
  rw [recordP]
  cases h : kw "record".toList (n ++ r) with
  | none => rfl
  | some s =>
    have := kw_eat (w := "record".toList) (by decide +kernel) hn '{' (by decide +kernel) hr hr' s h
    simp [bracesP, this]

theorem enumP_name {n r : Str} (hn : IsName n) (hr : Hd (fun b => ¬ NameChar b) r) (hr' : Hd (fun b => b ≠ 123) (skp r)) :
    enumP (n ++ r) = .fail := by
  rw [enumP]
  cases h : kw "enum".toList (n ++ r) with
  | none => rfl
  | some s =>
    have := kw_eat (by decide +kernel) hn '{' (by decide +kernel) hr (fun _ => hr') s h
    simp [bracesP, this]

theorem listP_name (p : Str → Res T) {n r : Str} (hn : IsName n) (hr : Hd (fun b => ¬ NameChar b) r)
    (hr' : Hd (fun b => b ≠ 60) (skp r)) : listP p (n ++ r) = .fail := by
  rw [listP]
  cases h : kw "list".toList (n ++ r) with
  | none => rfl
  | some s =>
    have := kw_eat (by decide +kernel) hn '<' (by decide +kernel) hr (fun _ => hr') s h
    simp [this]

theorem mapP_name (p : Str → Res T) {n r : Str} (hn : IsName n) (hr : Hd (fun b => ¬ NameChar b) r)
    (hr' : Hd (fun b => b ≠ 60) (skp r)) : mapP p (n ++ r) = .fail := by
  rw [mapP]
  cases h : kw "map".toList (n ++ r) with
  | none => rfl
  | some s =>
    have := kw_eat (by decide +kernel) hn '<' (by decide +kernel) hr (fun _ => hr') s h
    simp [this]

theorem operandP_name (p : Str → Res T) {n r : Str} (hn : IsName n) (hr : Hd (fun b => ¬ NameChar b) r)
    (hr' : n = [114, 101, 99, 111, 114, 100] → Hd (fun b => b ≠ 123) (skp r)) :
    operandP p (n ++ r) = .ok (.none ⟨n, []⟩) r := by
  simp [operandP, recordP_name p hn hr hr', refP, identP_append hn hr]

/-- No operator. -/
theorem algebraP_none (p : Str → Res T) {s : Str} (h : Hd (fun b => b ≠ 43 ∧ b ≠ 45) s)
    (h' : ∀ r, s = 60 :: r → Hd (fun b => b ≠ 43) r) : algebraP p s = .fail := by
  have h1 : ∀ w, kw ('+' :: w) s = none := fun w => by rw [kw, eat_hd (c := '+') (h.imp fun b hb => hb.1)]
  have h2 : kw ['<', '+'] s = none := by
    cases s with
    | nil => rfl
    | cons b s =>
      rw [kw]
      by_cases hb : b = 60
      · subst hb
        have e : eat '<' (60 :: s) = some s := rfl
        rw [e]
        simp only
        rw [kw, eat_hd (c := '+') (h' s rfl)]
      · rw [eat_hd (.cons hb)]
  have h3 : eat '-' s = none := eat_hd (h.imp fun b hb => hb.2)
  have e1 : kw "+>".toList s = none := h1 ['>']
  have e2 : kw "+".toList s = none := h1 []
  have e3 : kw "<+".toList s = none := h2
  simp only [algebraP, opP, minusP, e1, e2, e3, h3, Res.unit_none, Res.fail_bind, Res.fail_orElse]

theorem algebraP_next (p : Str → Res T) {s : Str} (h : CoreNext s) : algebraP p (skp s) = .fail := by
  refine algebraP_none p (Hd.imp h fun b hb => ?_) fun r e => ?_
  · simp at hb
    rcases hb with rfl | rfl | rfl | rfl | rfl <;> decide
  · have := h 60 r e
    simp at this

/-- A name is no expression if no operator follows. -/
theorem exprP_fail (p : Str → Res T) {s r : Str} {t : T} (h : operandP p s = .ok t r) (h' : algebraP p (skp r) = .fail) :
    exprP p s = .fail := by
  simp [exprP, h, h']

/-! ### Paths -/

theorem pathWordP_text {s r : Str} {n : Name} (h : PathWord s n) (hr : Hd (fun b => ¬ NameChar b ∨ b = 46) r) :
    pathWordP (s ++ r) = some (n, r) := by
  cases h with
  | word hn hn' =>
    rw [pathWordP, plusOf_append hn (fun b hb => isAlnum_iff.mpr (hn' b hb)) (Hd.imp hr fun b hb => ?_)]
    · rfl
    · rw [← Bool.not_eq_true, isAlnum_iff]
      rcases hb with hb | rfl
      · exact fun h => hb (.inl h)
      · decide +kernel
  | quoted h =>
    obtain ⟨q, rfl⟩ := quoted_head h
    rw [pathWordP, List.cons_append, plusOf_none (.cons (by decide +kernel)), Option.none_or]
    exact quotedP_text h r

theorem pathWord_pos {s : Str} {n : Name} (h : PathWord s n) : 0 < s.length := by
  cases h with
  | word hn _ => exact by cases s with | nil => exact absurd rfl hn | cons b s => simp
  | quoted h => obtain ⟨q, rfl⟩ := quoted_head h; simp

/-- The first word, then the loop. -/
theorem pathLoop_text {s : Str} {ns : List Name} (h : PathText s ns) {r : Str} (hr : Hd (fun b => ¬ NameChar b) r) :
    ∃ w s2, pathWordP (s ++ r) = some (w, s2) ∧ ∀ acc k, s2.length ≤ k → pathLoop k (acc ++ [w]) s2 = (acc ++ ns, r) := by
  induction h with
  | @one s n h =>
    refine ⟨n, r, pathWordP_text h (hr.imp fun b hb => .inl hb), fun acc k _ => ?_⟩
    have : eat '.' r = none := eat_hd (hr.imp fun b hb => by rintro rfl; exact hb (.inr rfl))
    cases k <;> simp [pathLoop, this]
  | @more s r' n ns h h' ih =>
    obtain ⟨w, s2, e1, e2⟩ := ih
    refine ⟨n, 46 :: (r' ++ r), ?_, fun acc k hk => ?_⟩
    · rw [List.append_assoc]
      exact pathWordP_text h (.cons (.inr rfl))
    · have hl : s2.length ≤ (r' ++ r).length := by
        have : ∀ {p : UInt8 → Bool} (s : Str), (spanOf p s).2.length ≤ s.length := by
          intro p s
          induction s with
          | nil => simp [spanOf]
          | cons b s ih => rw [spanOf]; split <;> simp; omega
        have hq : ∀ (n : Nat) (s : Str), s.length ≤ n → (quotedBody 34 s).2.length ≤ s.length := by
          intro n
          induction n with
          | zero => intro s hs; cases s <;> simp_all [quotedBody]
          | succ n ih =>
            intro s hs
            match s with
            | [] => simp [quotedBody]
            | [c] => rw [quotedBody]; split <;> simp
            | c :: d :: s =>
              have h1 := ih s (by simp at hs; omega)
              have h2 := ih (d :: s) (by simp at hs ⊢; omega)
              rw [quotedBody]
              simp at h2
              split
              · simp; omega
              · split
                · simp; omega
                · split <;> simp; omega
        rw [pathWordP] at e1
        cases hp : plusOf (fun b => isAlnum b || b == 95) (r' ++ r) with
        | some x =>
          rw [hp] at e1
          simp at e1
          subst e1
          rw [plusOf] at hp
          split at hp <;> simp at hp
          have := this (p := fun b => isAlnum b || b == 95) (r' ++ r)
          rw [hp] at this
          exact this
        | none =>
          rw [hp] at e1
          simp only [Option.none_or, quotedP] at e1
          generalize r' ++ r = s at *
          cases s with
          | nil => simp [eat] at e1
          | cons b s =>
            rw [eat] at e1
            split at e1
            · cases e1
            · rename_i h1
              split at h1 <;> simp at h1
              subst h1
              have h3 := hq _ s (Nat.le_refl _)
              cases hb : (quotedBody 34 s).2 with
              | nil =>
                rw [show ch '"' = 34 from rfl, hb] at e1
                simp [eat] at e1
              | cons c q =>
                rw [show ch '"' = 34 from rfl, hb, eat] at e1
                rw [hb] at h3
                split at e1
                · cases e1
                · rename_i h4
                  split at h4 <;> simp at h4
                  simp at e1 h3 ⊢
                  rw [← e1.2, ← h4]
                  omega
      have : eat '.' (46 :: (r' ++ r)) = some (r' ++ r) := rfl
      cases k with
      | zero => simp at hk
      | succ k =>
        rw [pathLoop, this, Option.bind_some, e1]
        simp only
        rw [e2 (acc ++ [n]) k (by simp at hk hl; omega)]
        simp

theorem pathFields_ofList : ∀ (ns : List Name), Fs.ofList (ns.map fun n => (n, .basic .bool {})) = pathFields ns
  | [] => rfl
  | n :: ns => by simp [Fs.ofList, pathFields, pathFields_ofList ns]

theorem path_head {s : Str} {ns : List Name} (h : PathText s ns) : ∃ b r, s = b :: r ∧ (NameChar b ∨ b = 34) := by
  have hw : ∀ {s n}, PathWord s n → ∃ b r, s = b :: r ∧ (NameChar b ∨ b = 34) := by
    intro s n h
    cases h with
    | word hn hn' =>
      cases s with
      | nil => exact absurd rfl hn
      | cons b s => exact ⟨b, s, rfl, .inl (.inl (hn' b (by simp)))⟩
    | quoted h => obtain ⟨q, rfl⟩ := quoted_head h; exact ⟨34, q, rfl, .inr rfl⟩
  cases h with
  | one h => exact hw h
  | more h _ =>
    obtain ⟨b, r, rfl, hb⟩ := hw h
    exact ⟨b, _, rfl, hb⟩

theorem minusP_text {g s r : Str} {ns : List Name} (hg : Gap g) (h : PathText s ns) (hr : Hd (fun b => ¬ NameChar b) r) :
    minusP (45 :: (g ++ s ++ r)) = .ok ([45], .record (pathFields ns) {}) r := by
  obtain ⟨w, s2, e1, e2⟩ := pathLoop_text h hr
  have e : eat '-' (45 :: (g ++ s ++ r)) = some (g ++ s ++ r) := rfl
  have e3 : skp (g ++ s ++ r) = s ++ r := by
    rw [List.append_assoc, skp_gap hg]
    obtain ⟨b, q, rfl, hb⟩ := path_head h
    rcases hb with hb | rfl
    · exact skp_stop (name_stop hb).1 (name_stop hb).2
    · exact skp_self (by simp)
  have e4 := e2 [] s2.length (Nat.le_refl _)
  simp only [List.nil_append] at e4
  simp only [minusP, e, e3, e1, e4, ← pathFields_ofList, Res.unit_some, Res.ok_bind, Res.ofOption_some]

end Verif.SchemaText
