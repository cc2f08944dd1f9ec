import Verif.SchemaText.WideSpec
import Verif.SchemaText.TextProps

/-! # C99: nothing else is accepted -/

namespace Verif.SchemaText

open Verif.Types (Name Meta updateAttrs setAttr)
open Verif.DataText (ch eat kw isAlnum isSpace isCntrl isDigit quotedP quotedBody)
open Spec

/-! ### Gaps -/

theorem last_space {b : UInt8} {g : Str} (hb : Space b) (h : LastGap g) : LastGap (b :: g) := by
  cases h with
  | gap h => exact .gap (.space hb h)
  | comment h hc => exact .comment (.space hb h) hc

theorem last_comment {c g : Str} (hc : 10 ∉ c) (h : LastGap g) : LastGap (47 :: 47 :: (c ++ 10 :: g)) := by
  cases h with
  | gap h => exact .gap (.comment hc h)
  | @comment s d h hd =>
    have := LastGap.comment (.comment hc h) hd
    simpa using this

/-- What `skp` has skipped. -/
def Skipped (g r : Str) : Prop := Gap g ∨ (r = [] ∧ LastGap g)

theorem skpIn_back (b : Bool) (s : Str) :
    (b = false → ∃ g, s = g ++ skpIn b s ∧ Skipped g (skpIn b s)) ∧
    (b = true → (∃ c g, s = c ++ 10 :: g ++ skpIn b s ∧ 10 ∉ c ∧ Skipped g (skpIn b s)) ∨ (10 ∉ s ∧ skpIn b s = [])) := by
  induction b, s using skpIn.induct with
  | case1 b => 
    refine ⟨fun h => ⟨[], ?_, .inl .nil⟩, fun h => .inr ⟨by simp, ?_⟩⟩ <;> cases b <;> simp [skpIn]
  | case2 s ih =>
    refine ⟨fun h => by (cases h), fun _ => .inl ?_⟩
    obtain ⟨g, h1, h2⟩ := ih.1 rfl
    rw [skpIn, if_pos rfl]
    exact ⟨[], g, by simpa using h1, by simp, h2⟩
  | case3 b s hb ih =>
    refine ⟨fun h => by (cases h), fun _ => ?_⟩
    rw [skpIn, if_neg hb]
    rcases ih.2 rfl with ⟨c, g, h1, h2, h3⟩ | ⟨h1, h2⟩
    · refine .inl ⟨b :: c, g, by simpa using h1, ?_, h3⟩
      simp only [List.mem_cons, not_or]
      exact ⟨fun e => hb e.symm, h2⟩
    · refine .inr ⟨?_, h2⟩
      simp only [List.mem_cons, not_or]
      exact ⟨fun e => hb e.symm, h1⟩
  | case4 b hb =>
    refine ⟨fun _ => ⟨[b], ?_, .inl (.space (isSpace_iff.mp hb) .nil)⟩, fun h => by (cases h)⟩
    rw [skpIn, if_pos hb]; rfl
  | case5 b hb =>
    refine ⟨fun _ => ⟨[], ?_, .inl .nil⟩, fun h => by (cases h)⟩
    rw [skpIn, if_neg hb]; rfl
  | case6 b c s hb ih =>
    refine ⟨fun _ => ?_, fun h => by (cases h)⟩
    obtain ⟨g, h1, h2⟩ := ih.1 rfl
    rw [skpIn, if_pos hb]
    refine ⟨b :: g, by rw [List.cons_append, ← h1], ?_⟩
    rcases h2 with h2 | ⟨h2, h3⟩
    · exact .inl (.space (isSpace_iff.mp hb) h2)
    · exact .inr ⟨h2, last_space (isSpace_iff.mp hb) h3⟩
  | case7 b c s hb hc ih =>
    refine ⟨fun _ => ?_, fun h => by (cases h)⟩
    rw [skpIn, if_neg hb, if_pos hc]
    obtain ⟨rfl, rfl⟩ := hc
    rcases ih.2 rfl with ⟨c, g, h1, h2, h3⟩ | ⟨h1, h2⟩
    · refine ⟨47 :: 47 :: (c ++ 10 :: g), by simpa using h1, ?_⟩
      rcases h3 with h3 | ⟨h3, h4⟩
      · exact .inl (.comment h2 h3)
      · exact .inr ⟨h3, last_comment h2 h4⟩
    · refine ⟨47 :: 47 :: s, by rw [h2, List.append_nil], .inr ⟨h2, ?_⟩⟩
      exact .comment .nil h1
  | case8 b c s hb hc =>
    refine ⟨fun _ => ⟨[], ?_, .inl .nil⟩, fun h => by (cases h)⟩
    rw [skpIn, if_neg hb, if_neg hc]; rfl

theorem skp_back (s : Str) : ∃ g, s = g ++ skp s ∧ Skipped g (skp s) := (skpIn_back false s).1 rfl

theorem skp_gap_of {s : Str} (h : skp s ≠ []) : ∃ g, s = g ++ skp s ∧ Gap g := by
  obtain ⟨g, h1, h2 | ⟨h2, _⟩⟩ := skp_back s
  · exact ⟨g, h1, h2⟩
  · exact absurd h2 h

theorem skp_nil_last {s : Str} (h : skp s = []) : LastGap s := by
  obtain ⟨g, h1, h2⟩ := skp_back s
  rw [h, List.append_nil] at h1
  subst h1
  rcases h2 with h2 | ⟨_, h2⟩
  · exact .gap h2
  · exact h2

/-! ### The parts -/

theorem bind_ok {α β : Type} {x : Res α} {f : α → Str → Res β} {b : β} {r : Str} (h : x.bind f = .ok b r) :
    ∃ a s, x = .ok a s ∧ f a s = .ok b r := by
  cases x with
  | ok a s => exact ⟨a, s, rfl, h⟩
  | _ => cases h

theorem orElse_ok {α : Type} {x : Res α} {f : Unit → Res α} {b : α} {r : Str} (h : x.orElse f = .ok b r) :
    x = .ok b r ∨ (x = .fail ∧ f () = .ok b r) := by
  cases x with
  | fail => exact .inr ⟨rfl, h⟩
  | ok a s => exact .inl h
  | _ => cases h

theorem unit_ok {x : Option Str} {u : Unit} {r : Str} (h : Res.unit x = .ok u r) : x = some r := by
  cases x with
  | none => cases h
  | some s => cases h; rfl

theorem ofOption_ok {α : Type} {x : Option (α × Str)} {a : α} {r : Str} (h : Res.ofOption x = .ok a r) : x = some (a, r) := by
  cases x with
  | none => cases h
  | some s => obtain ⟨a', s⟩ := s; cases h; rfl

theorem eat_back {c : Char} {s r : Str} (h : eat c s = some r) : s = ch c :: r := by
  cases s with
  | nil => cases h
  | cons b s =>
    rw [eat] at h
    split at h
    · rename_i e; cases h; rw [e]
    · cases h

/-- A gap, then a character. -/
theorem skp_eat {c : Char} {s r : Str} (h : eat c (skp s) = some r) : ∃ g, s = g ++ ch c :: r ∧ Gap g := by
  have e := eat_back h
  obtain ⟨g, h1, h2⟩ := skp_gap_of (s := s) (by rw [e]; simp)
  exact ⟨g, by rw [← e]; exact h1, h2⟩

theorem spanOf_back {p : UInt8 → Bool} : ∀ s : Str, s = (spanOf p s).1 ++ (spanOf p s).2 ∧ (∀ b ∈ (spanOf p s).1, p b = true) ∧
    Hd (fun b => p b = false) (spanOf p s).2
  | [] => ⟨rfl, by simp [spanOf], .nil⟩
  | b :: s => by
    obtain ⟨h1, h2, h3⟩ := spanOf_back (p := p) s
    rw [spanOf]
    split
    · rename_i hb
      refine ⟨by simp only [List.cons_append]; rw [← h1], ?_, h3⟩
      intro x hx
      rcases List.mem_cons.mp hx with rfl | hx
      · exact hb
      · exact h2 x hx
    · rename_i hb
      exact ⟨rfl, by simp, .cons (by simpa using hb)⟩

theorem plusOf_back {p : UInt8 → Bool} {s n r : Str} (h : plusOf p s = some (n, r)) :
    s = n ++ r ∧ n ≠ [] ∧ (∀ b ∈ n, p b = true) ∧ Hd (fun b => p b = false) r := by
  rw [plusOf] at h
  obtain ⟨h1, h2, h3⟩ := spanOf_back (p := p) s
  split at h
  · cases h
  · rename_i hn
    cases e : spanOf p s with
    | mk x y =>
      rw [e] at h h1 h2 h3 hn
      cases h
      exact ⟨h1, by simpa using hn, h2, h3⟩

theorem identP_back {s n r : Str} (h : identP s = some (n, r)) : s = n ++ r ∧ IsName n ∧ Hd (fun b => ¬ NameChar b) r := by
  obtain ⟨h1, h2, h3, h4⟩ := plusOf_back h
  refine ⟨h1, ⟨h2, fun b hb => isIdent_iff.mp (h3 b hb)⟩, fun b x e hb => ?_⟩
  rw [← isIdent_iff] at hb
  rw [h4 b x e] at hb
  cases hb

theorem quotedBody_back (s : Str) (h : ∃ r, (quotedBody 34 s).2 = 34 :: r) :
    ∃ x, s = x ++ (quotedBody 34 s).2 ∧ InQuotes x (quotedBody 34 s).1 := by
  have hch : ch '\\' = 92 := by decide
  have key : ∀ n (s : Str), s.length ≤ n → (∃ r, (quotedBody 34 s).2 = 34 :: r) →
      ∃ x, s = x ++ (quotedBody 34 s).2 ∧ InQuotes x (quotedBody 34 s).1 := by
    intro n
    induction n with
    | zero =>
      intro s hs h
      obtain rfl : s = [] := by simpa using hs
      obtain ⟨r, h⟩ := h
      simp [quotedBody] at h
    | succ n ih =>
      intro s hs h
      match s, hs, h with
      | [], _, h => obtain ⟨r, h⟩ := h; simp [quotedBody] at h
      | [c], _, h =>
        by_cases hc : isCntrl c = true ∨ c = 34
        · refine ⟨[], ?_, ?_⟩ <;> rw [quotedBody, if_pos hc]
          · rfl
          · exact .nil
        · obtain ⟨r, h⟩ := h
          rw [quotedBody, if_neg hc] at h
          cases h
      | c :: d :: s, hs, h =>
        rw [quotedBody] at h ⊢
        rw [hch] at h ⊢
        simp only [List.length_cons] at hs
        by_cases h1 : c = 92 ∧ d = 34
        · rw [if_pos h1] at h ⊢
          obtain ⟨x, e, hx⟩ := ih s (by omega) h
          exact ⟨92 :: 34 :: x, by rw [h1.1, h1.2]; simp only [List.cons_append]; rw [← e], .quote hx⟩
        rw [if_neg h1] at h ⊢
        by_cases h2 : c = 92 ∧ d = 92
        · rw [if_pos h2] at h ⊢
          obtain ⟨x, e, hx⟩ := ih s (by omega) h
          exact ⟨92 :: 92 :: x, by rw [h2.1, h2.2]; simp only [List.cons_append]; rw [← e], by rw [h2.1, h2.2]; exact .backslashes hx⟩
        rw [if_neg h2] at h ⊢
        by_cases h3 : isCntrl c = true ∨ c = 34
        · rw [if_pos h3] at h ⊢
          exact ⟨[], rfl, .nil⟩
        rw [if_neg h3] at h ⊢
        obtain ⟨x, e, hx⟩ := ih (d :: s) (by simp; omega) h
        refine ⟨c :: x, by simp only [List.cons_append]; rw [← e], ?_⟩
        have hcc : ¬ Control c := fun hc => h3 (.inl (isCntrl_iff.mpr hc))
        have hcq : c ≠ 34 := fun hc => h3 (.inr hc)
        by_cases h4 : c = 92
        · subst h4
          -- the next character is neither a quote nor a backslash
          have hd1 : d ≠ 34 := fun e => h1 ⟨rfl, e⟩
          have hd2 : d ≠ 92 := fun e => h2 ⟨rfl, e⟩
          revert hx
          generalize (quotedBody 34 (d :: s)).1 = q
          intro hx
          cases hx with
          | nil =>
            obtain ⟨r, h⟩ := h
            simp only [List.nil_append] at e
            rw [h] at e
            exact absurd (by simpa using congrArg List.head? e) hd1
          | plain a1 a2 a3 a4 => exact .backslash a1 a2 a3 a4
          | quote a => simp only [List.cons_append, List.cons.injEq] at e; exact absurd e.1 hd2
          | backslashes a => simp only [List.cons_append, List.cons.injEq] at e; exact absurd e.1 hd2
          | backslash a1 a2 a3 a4 => simp only [List.cons_append, List.cons.injEq] at e; exact absurd e.1 hd2
        · exact .plain hcc hcq h4 hx
  exact key _ s (Nat.le_refl _) h

theorem quotedP_back {s r : Str} {v : Name} (h : quotedP '"' s = some (v, r)) : ∃ x, s = x ++ r ∧ QuotedText x v := by
  rw [quotedP] at h
  split at h
  · cases h
  · rename_i s1 h1
    split at h
    · cases h
    · rename_i r' h2
      have e1 := eat_back h1
      have e2 := eat_back h2
      have hq : ch '"' = 34 := by decide
      rw [hq] at e1 e2 h
      cases h
      obtain ⟨x, hx, hb⟩ := quotedBody_back s1 ⟨_, e2⟩
      refine ⟨34 :: (x ++ [34]), ?_, .intro hb⟩
      rw [e1, hx.trans (by rw [e2])]
      simp

theorem or_some {x y : Option (Name × Str)} {w : Name × Str} (h : x.or y = some w) : x = some w ∨ y = some w := by
  cases x with
  | none => exact .inr h
  | some a => exact .inl h

theorem fieldNameP_back {s r : Str} {n : Name} (h : fieldNameP s = some (n, r)) : ∃ x, s = x ++ r ∧ FieldName x n := by
  rcases or_some h with h | h
  · obtain ⟨h1, h2, _⟩ := identP_back h
    exact ⟨n, h1, .name h2⟩
  · obtain ⟨x, h1, h2⟩ := quotedP_back h
    exact ⟨x, h1, .quoted h2⟩

theorem fieldName_ne {s : Str} {n : Name} (h : FieldName s n) : s ≠ [] := by
  cases h with
  | name h => exact h.1
  | quoted h => cases h; simp

theorem pathWordP_back {s r : Str} {n : Name} (h : pathWordP s = some (n, r)) : ∃ x, s = x ++ r ∧ PathWord x n := by
  rcases or_some h with h | h
  · obtain ⟨h1, h2, h3, _⟩ := plusOf_back h
    exact ⟨n, h1, .word h2 fun b hb => isAlnum_iff.mp (h3 b hb)⟩
  · obtain ⟨x, h1, h2⟩ := quotedP_back h
    exact ⟨x, h1, .quoted h2⟩

theorem pathWord_ne {s : Str} {n : Name} (h : PathWord s n) : s ≠ [] := by
  cases h with
  | word h _ => exact h
  | quoted h => cases h; simp

theorem path_append {x y : Str} {ns : List Name} {n : Name} (h : PathText x ns) (hy : PathWord y n) : PathText (x ++ 46 :: y) (ns ++ [n]) := by
  induction h with
  | one h => exact .more h (.one hy)
  | @more s r n ns h _ ih =>
    have := PathText.more h ih
    simpa using this

theorem pathLoop_back : ∀ (k : Nat) (x : Str) (ns : List Name) (s : Str), PathText x ns →
    ∃ y, x ++ s = y ++ (pathLoop k ns s).2 ∧ PathText y (pathLoop k ns s).1
  | 0, x, ns, s, h => ⟨x, rfl, h⟩
  | k + 1, x, ns, s, h => by
    rw [pathLoop]
    split
    · rename_i w r e
      cases e1 : eat '.' s with
      | none => rw [e1] at e; cases e
      | some s1 =>
        rw [e1] at e
        obtain ⟨y, h1, h2⟩ := pathWordP_back (show pathWordP s1 = some (w, r) from e)
        obtain ⟨z, h3, h4⟩ := pathLoop_back k _ _ r (path_append h h2)
        refine ⟨z, ?_, h4⟩
        rw [← h3, eat_back e1, h1]
        have : ch '.' = 46 := by decide
        simp [this]
    · exact ⟨x, rfl, h⟩

theorem attrP_back {s r : Str} {a : Name × Option Name} (h : attrP s = some (a, r)) : ∃ x, s = x ++ r ∧ Wide.AttrText x a := by
  rw [attrP] at h
  cases e : eat '#' s with
  | none => rw [e] at h; cases h
  | some s1 =>
    rw [e, Option.bind_some] at h
    cases e1 : identP s1 with
    | none => rw [e1] at h; cases h
    | some kr =>
      obtain ⟨k, s2⟩ := kr
      rw [e1, Option.map_some] at h
      obtain ⟨h1, hk, _⟩ := identP_back e1
      have hs : s = 35 :: (k ++ s2) := by
        rw [eat_back e, h1]
        have : ch '#' = 35 := by decide
        rw [this]
      cases e2 : (eat '=' s2).bind attrValueP with
      | none =>
        simp only [e2] at h
        cases h
        exact ⟨35 :: k, hs, .key hk⟩
      | some w =>
        obtain ⟨v, s3⟩ := w
        simp only [e2] at h
        cases h
        cases e3 : eat '=' s2 with
        | none => rw [e3] at e2; cases e2
        | some s4 =>
          rw [e3, Option.bind_some] at e2
          have h4 := eat_back e3
          have : ch '=' = 61 := by decide
          rw [this] at h4
          rcases or_some e2 with h5 | h5
          · obtain ⟨x, h6, h7⟩ := quotedP_back h5
            exact ⟨35 :: (k ++ 61 :: x), by rw [hs, h4, h6]; simp, .quoted hk h7⟩
          · obtain ⟨h6, h7, h8, _⟩ := plusOf_back h5
            exact ⟨35 :: (k ++ 61 :: v), by rw [hs, h4, h6]; simp, .value hk h7 fun b hb => isValueChar_iff.mp (h8 b hb)⟩

theorem wideAttr_ne {s : Str} {a : Name × Option Name} (h : Wide.AttrText s a) : s ≠ [] := by cases h <;> simp

theorem attrsP_back : ∀ (k : Nat) (s : Str), ∃ x, s = x ++ (attrsP k s).2 ∧ Wide.AttrsText x (attrsP k s).1
  | 0, s => ⟨[], rfl, .nil⟩
  | k + 1, s => by
    rw [attrsP]
    split
    · rename_i a r e
      obtain ⟨x, h1, h2⟩ := attrP_back e
      obtain ⟨g, h3, h4⟩ := skp_gap_of (s := s) (by rw [h1]; simp [wideAttr_ne h2])
      obtain ⟨y, h5, h6⟩ := attrsP_back k r
      refine ⟨g ++ x ++ y, ?_, .cons h4 h2 h6⟩
      simp only
      rw [h3, h1, List.append_assoc, List.append_assoc, ← h5]
    · exact ⟨[], rfl, .nil⟩

theorem setAttr_put (k : Name) (v : Option Name) : ∀ l, Wide.Put k v l (setAttr k v l)
  | [] => .new (l := []) (by simp)
  | (k', v') :: l => by
    rw [setAttr]
    split
    · rename_i e; subst e; exact .old (l := []) (by simp)
    · rename_i e
      have hne : ¬ k = k' := fun h => e h.symm
      generalize hm : setAttr k v l = m
      have := setAttr_put k v l
      rw [hm] at this
      cases this with
      | new h => exact .new (l := (k', v') :: l) (by simpa [hne] using h)
      | @old l r w h => exact .old (l := (k', v') :: l) (by simpa [hne] using h)

theorem updateAttrs_put : ∀ (bs as : List (Name × Option Name)), Wide.PutAll bs as (updateAttrs as bs)
  | [], as => .nil
  | (k, v) :: bs, as => .cons (setAttr_put k v as) (updateAttrs_put bs (setAttr k v as))

/-! ### Lists in braces -/

/-- What the parser of the elements of a list consumes, if there is something behind them. -/
def Element {α : Type} (p : Str → Res α) (E : Str → α → Prop) : Prop :=
  ∀ s a r, p s = .ok a r → r ≠ [] → ∃ x, s = x ++ r ∧ E x a

/-- Elements between commas. -/
inductive Items {α : Type} (E : Str → α → Prop) : Str → List α → Prop
  | one {s : Str} {a : α} : E s a → Items E s [a]
  | more {s r : Str} {a : α} {as : List α} : E s a → Items E r as → Items E (s ++ 44 :: r) (a :: as)

theorem items_append {α : Type} {E : Str → α → Prop} {x y : Str} {as : List α} {a : α} (h : Items E x as) (ha : E y a) :
    Items E (x ++ 44 :: y) (as ++ [a]) := by
  induction h with
  | one h => exact .more h (.one ha)
  | @more s r b bs h _ ih =>
    have := Items.more h ih
    simpa using this

theorem comma : ch ',' = 44 := by decide

theorem commaLoop_back {α : Type} {p : Str → Res α} {E : Str → α → Prop} (hp : Element p E) :
    ∀ (k : Nat) (x : Str) (acc : List α) (s : Str) (as : List α) (r : Str), Items E x acc → commaLoop p k acc s = .ok as r → r ≠ [] →
      ∃ y, x ++ s = y ++ r ∧ Items E y as
  | 0, _, _, _, _, _, _, h, _ => by simp [commaLoop] at h
  | k + 1, x, acc, s, as, r, hx, h, hr => by
    rw [commaLoop] at h
    split at h
    · cases h; exact ⟨x, rfl, hx⟩
    · rename_i s1 e
      have es := eat_back e
      rw [comma] at es
      split at h
      · rename_i a r1 e1
        have hr1 : r1 ≠ [] := by
          rintro rfl
          cases k with
          | zero => simp [commaLoop] at h
          | succ k => simp [commaLoop, eat] at h; exact hr h.2
        obtain ⟨y, h1, h2⟩ := hp _ _ _ e1 hr1
        obtain ⟨z, h3, h4⟩ := commaLoop_back hp k (x ++ 44 :: y) _ r1 as r (items_append hx h2) h hr
        exact ⟨z, by rw [← h3, es, h1]; simp, h4⟩
      · cases h; exact ⟨x, rfl, hx⟩
      · cases h
      · cases h

/-- A list in braces, with or without a comma at its end. -/
theorem bracesP_back {α : Type} {p : Str → Res α} {E : Str → α → Prop} (hp : Element p E) {s r : Str} {as : List α}
    (h : bracesP p s = .ok as r) : ∃ x y, s = 123 :: (x ++ y ++ 125 :: r) ∧ Items E x as ∧ (y = [] ∨ ∃ g, y = 44 :: g ∧ Gap g) := by
  rw [bracesP] at h
  obtain ⟨_, s1, h1, h⟩ := bind_ok h
  obtain ⟨a, s2, h2, h⟩ := bind_ok h
  obtain ⟨as', s3, h3, h⟩ := bind_ok h
  obtain ⟨_, s5, h4, h⟩ := bind_ok h
  injection h with ha hs
  subst ha hs
  have e1 := eat_back (unit_ok h1)
  have h4 := unit_ok h4
  have hb : ch '{' = 123 := by decide
  have hb' : ch '}' = 125 := by decide
  rw [hb] at e1
  have hs3 : s3 ≠ [] ∧ ∃ y, s3 = y ++ 125 :: s5 ∧ (y = [] ∨ ∃ g, y = 44 :: g ∧ Gap g) := by
    cases e : eat ',' s3 with
    | none =>
      rw [e] at h4
      have : s3 = ch '}' :: s5 := eat_back h4
      rw [hb'] at this
      exact ⟨by rw [this]; simp, [], this, .inl rfl⟩
    | some q =>
      rw [e] at h4
      obtain ⟨g, h5, h6⟩ := skp_eat h4
      have h7 := eat_back e
      rw [comma] at h7
      rw [hb'] at h5
      exact ⟨by rw [h7]; simp, 44 :: g, by rw [h7, h5]; rfl, .inr ⟨g, rfl, h6⟩⟩
  obtain ⟨hne, y, ey, hy⟩ := hs3
  have hs2 : s2 ≠ [] := by
    rintro rfl
    simp [commaLoop, eat] at h3
    exact hne h3.2
  obtain ⟨x, ex, hx⟩ := hp _ _ _ h2 hs2
  obtain ⟨z, ez, hz⟩ := commaLoop_back hp _ x [a] s2 as' s3 (.one hx) h3 hne
  exact ⟨z, y, by rw [e1, ex, ez, ey]; simp, hz, hy⟩

/-! ### Enumerations -/

/-- A label with gaps. -/
def Label (s : Str) (n : Name) : Prop := ∃ g g', s = g ++ n ++ g' ∧ Gap g ∧ IsName n ∧ Gap g'

theorem label_element : Element (fun s => (Res.ofOption (identP (skp s))).bind fun n r => .ok n (skp r)) Label := by
  intro s n r h hr
  obtain ⟨n', s1, h1, h⟩ := bind_ok h
  cases h
  obtain ⟨e1, hn, _⟩ := identP_back (ofOption_ok h1)
  obtain ⟨g, e2, hg⟩ := skp_gap_of (s := s) (by rw [e1]; simp [hn.1])
  obtain ⟨g', e3, hg'⟩ := skp_gap_of hr
  refine ⟨g ++ n ++ g', ?_, g, g', rfl, hg, hn, hg'⟩
  rw [List.append_assoc, ← e3, List.append_assoc, ← e1, ← e2]

theorem labels_text_wide {x y : Str} {ls : List Name} (h : Items Label x ls) (hy : y = [] ∨ ∃ g, y = 44 :: g ∧ Gap g) : LabelsText (x ++ y) ls := by
  induction h with
  | one h =>
    obtain ⟨g, g', rfl, h1, h2, h3⟩ := h
    rcases hy with rfl | ⟨g'', rfl, hg⟩
    · rw [List.append_nil]; exact .one h1 h2 h3
    · exact .last h1 h2 h3 hg
  | more h _ ih =>
    obtain ⟨g, g', rfl, h1, h2, h3⟩ := h
    have := LabelsText.more h1 h2 h3 ih
    simpa using this

/-- What a parser of types consumes. -/
def Back (p : Str → Res T) (G : Str → T → Prop) : Prop := ∀ s t r, p s = .ok t r → ∃ x, s = x ++ r ∧ G x t

theorem enumP_back : Back enumP Wide.CoreText := by
  intro s t r h
  rw [enumP] at h
  obtain ⟨_, s1, h1, h⟩ := bind_ok h
  obtain ⟨ls, s2, h2, h⟩ := bind_ok h
  cases h
  have e1 := kw_some (unit_ok h1)
  obtain ⟨x, y, e2, hx, hy⟩ := bracesP_back label_element h2
  obtain ⟨g, e3, hg⟩ := skp_gap_of (s := s1) (by rw [e2]; simp)
  refine ⟨[101, 110, 117, 109] ++ g ++ 123 :: (x ++ y ++ [125]), ?_, .enum hg (labels_text_wide hx hy)⟩
  have : "enum".toList.map ch = [101, 110, 117, 109] := by decide
  rw [e1, e3, e2, this]
  simp

/-! ### Types, given a parser of types -/

section

variable {p : Str → Res T} (hp : Back p Wide.TypeText)

theorem core_ne {s : Str} {t : T} (h : Wide.CoreText s t) : s ≠ [] := by
  cases h with
  | basic h => exact (basic_isName h).1
  | ref h _ => exact h.1
  | record h => cases h; simp
  | expr h _ =>
    cases h with
    | ref h => simp [h.1]
    | record h => cases h; simp
  | _ => simp

theorem type_ne {s : Str} {t : T} (h : Wide.TypeText s t) : s ≠ [] := by
  cases h with
  | intro h _ _ => simp [core_ne h]

include hp in
/-- A gap, then a type. -/
theorem skp_type_back {s r : Str} {t : T} (h : p (skp s) = .ok t r) : ∃ g x, s = g ++ x ++ r ∧ Gap g ∧ Wide.TypeText x t := by
  obtain ⟨x, e, hx⟩ := hp _ _ _ h
  obtain ⟨g, e2, hg⟩ := skp_gap_of (s := s) (by rw [e]; simp [type_ne hx])
  exact ⟨g, x, by rw [List.append_assoc, ← e]; exact e2, hg, hx⟩

include hp in
theorem listP_back : Back (listP p) Wide.CoreText := by
  intro s t r h
  rw [listP] at h
  obtain ⟨_, s1, h1, h⟩ := bind_ok h
  obtain ⟨_, s2, h2, h⟩ := bind_ok h
  obtain ⟨u, s3, h3, h⟩ := bind_ok h
  obtain ⟨_, s4, h4, h⟩ := bind_ok h
  cases h
  have e1 := kw_some (unit_ok h1)
  obtain ⟨g, e2, hg⟩ := skp_eat (unit_ok h2)
  obtain ⟨g1, x, e3, hg1, hx⟩ := skp_type_back hp h3
  obtain ⟨g2, e4, hg2⟩ := skp_eat (unit_ok h4)
  refine ⟨[108, 105, 115, 116] ++ g ++ 60 :: (g1 ++ x ++ g2 ++ [62]), ?_, .list hg hg1 hx hg2⟩
  have c1 : "list".toList.map ch = [108, 105, 115, 116] := by decide
  have c2 : ch '<' = 60 := by decide
  have c3 : ch '>' = 62 := by decide
  rw [e1, e2, e3, e4, c1, c2, c3]
  simp

include hp in
theorem mapP_back : Back (mapP p) Wide.CoreText := by
  intro s t r h
  rw [mapP] at h
  obtain ⟨_, s1, h1, h⟩ := bind_ok h
  obtain ⟨_, s2, h2, h⟩ := bind_ok h
  obtain ⟨u, s3, h3, h⟩ := bind_ok h
  obtain ⟨_, s4, h4, h⟩ := bind_ok h
  obtain ⟨v, s5, h5, h⟩ := bind_ok h
  obtain ⟨_, s6, h6, h⟩ := bind_ok h
  cases h
  have e1 := kw_some (unit_ok h1)
  obtain ⟨g, e2, hg⟩ := skp_eat (unit_ok h2)
  obtain ⟨g1, x, e3, hg1, hx⟩ := skp_type_back hp h3
  obtain ⟨g2, e4, hg2⟩ := skp_eat (unit_ok h4)
  obtain ⟨g3, y, e5, hg3, hy⟩ := skp_type_back hp h5
  obtain ⟨g4, e6, hg4⟩ := skp_eat (unit_ok h6)
  refine ⟨[109, 97, 112] ++ g ++ 60 :: (g1 ++ x ++ g2 ++ 44 :: (g3 ++ y ++ g4 ++ [62])), ?_, .map hg hg1 hx hg2 hg3 hy hg4⟩
  have c1 : "map".toList.map ch = [109, 97, 112] := by decide
  have c2 : ch '<' = 60 := by decide
  have c3 : ch '>' = 62 := by decide
  rw [e1, e2, e3, e4, e5, e6, c1, c2, c3, comma]
  simp

include hp in
theorem field_element : Element (fieldP p) fun s f => Wide.FieldText s f.1 f.2 := by
  intro s f r h hr
  rw [fieldP] at h
  obtain ⟨n, s1, h1, h⟩ := bind_ok h
  obtain ⟨_, s2, h2, h⟩ := bind_ok h
  obtain ⟨t, s3, h3, h⟩ := bind_ok h
  cases h
  obtain ⟨x, e1, hx⟩ := fieldNameP_back (ofOption_ok h1)
  obtain ⟨g1, e0, hg1⟩ := skp_gap_of (s := s) (by rw [e1]; simp [fieldName_ne hx])
  obtain ⟨g2, e2, hg2⟩ := skp_eat (unit_ok h2)
  obtain ⟨g3, y, e3, hg3, hy⟩ := skp_type_back hp h3
  obtain ⟨g4, e4, hg4⟩ := skp_gap_of hr
  refine ⟨g1 ++ x ++ g2 ++ 58 :: (g3 ++ y ++ g4), ?_, .intro hg1 hx hg2 hg3 hy hg4⟩
  have c1 : ch ':' = 58 := by decide
  have e5 : g1 ++ x ++ g2 ++ 58 :: (g3 ++ y ++ g4) ++ skp s3 = g1 ++ (x ++ (g2 ++ 58 :: (g3 ++ y ++ (g4 ++ skp s3)))) := by simp
  rw [e5, ← e4, ← e3, ← c1, ← e2, ← e1, ← e0]

theorem fields_text_wide {x y : Str} {fs : List (Name × T)} (h : Items (fun s f => Wide.FieldText s f.1 f.2) x fs)
    (hy : y = [] ∨ ∃ g, y = 44 :: g ∧ Gap g) : Wide.FieldsText (x ++ y) (.ofList fs) := by
  induction h with
  | @one s a h =>
    obtain ⟨n, t⟩ := a
    rcases hy with rfl | ⟨g, rfl, hg⟩
    · rw [List.append_nil]; exact .one h
    · exact .last h hg
  | @more s r a as h _ ih =>
    obtain ⟨n, t⟩ := a
    have := Wide.FieldsText.more h ih
    rw [List.append_assoc, List.cons_append]
    exact this

include hp in
theorem recordP_back {s r : Str} {t : T} (h : recordP p s = .ok t r) : ∃ x fs, s = x ++ r ∧ t = .record fs {} ∧ Wide.RecordText x fs := by
  rw [recordP] at h
  obtain ⟨_, s1, h1, h⟩ := bind_ok h
  obtain ⟨fs, s2, h2, h⟩ := bind_ok h
  cases h
  have e1 := kw_some (unit_ok h1)
  obtain ⟨x, y, e2, hx, hy⟩ := bracesP_back (field_element hp) h2
  obtain ⟨g, e3, hg⟩ := skp_gap_of (s := s1) (by rw [e2]; simp)
  refine ⟨[114, 101, 99, 111, 114, 100] ++ g ++ 123 :: (x ++ y ++ [125]), _, ?_, rfl, .intro hg (fields_text_wide hx hy)⟩
  have : "record".toList.map ch = [114, 101, 99, 111, 114, 100] := by decide
  rw [e1, e3, e2, this]
  simp

theorem refP_back {s r : Str} {t : T} (h : refP s = .ok t r) :
    ∃ n, s = n ++ r ∧ IsName n ∧ t = .none ⟨n, []⟩ ∧ Hd (fun b => ¬ NameChar b) r := by
  rw [refP] at h
  obtain ⟨n, s1, h1, h⟩ := bind_ok h
  cases h
  obtain ⟨h1, h2, h3⟩ := identP_back (ofOption_ok h1)
  exact ⟨n, h1, h2, rfl, h3⟩

include hp in
theorem operandP_back : Back (operandP p) Wide.OperandText := by
  intro s t r h
  rw [operandP] at h
  rcases orElse_ok h with h | ⟨_, h⟩
  · rcases orElse_ok h with h | ⟨_, h⟩
    · obtain ⟨x, fs, e, rfl, hx⟩ := recordP_back hp h
      exact ⟨x, e, .record hx⟩
    · obtain ⟨n, e, hn, rfl, _⟩ := refP_back h
      exact ⟨n, e, .ref hn⟩
  · cases h

theorem operand_ne {s : Str} {t : T} (h : Wide.OperandText s t) : s ≠ [] := by
  cases h with
  | ref h => exact h.1
  | record h => cases h; simp

include hp in
theorem opP_back {op : List Char} (ho : op.map ch ∈ ([[43], [60, 43], [43, 62]] : List Name)) {s r : Str} {a : Name × T}
    (h : opP p op s = .ok a r) : ∃ x, s = x ++ r ∧ x ≠ [] ∧ ∀ g, Gap g → Wide.OpText (g ++ x) a.1 a.2 := by
  rw [opP] at h
  obtain ⟨_, s1, h1, h⟩ := bind_ok h
  obtain ⟨t, s2, h2, h⟩ := bind_ok h
  cases h
  have e1 := kw_some (unit_ok h1)
  obtain ⟨x, e2, hx⟩ := operandP_back hp _ _ _ h2
  obtain ⟨g', e3, hg'⟩ := skp_gap_of (s := s1) (by rw [e2]; simp [operand_ne hx])
  refine ⟨op.map ch ++ g' ++ x, by rw [e1, e3, e2]; simp, by simp [operand_ne hx], fun g hg => ?_⟩
  have := Wide.OpText.op ho hg hg' hx
  simpa using this

theorem minusP_back {s r : Str} {a : Name × T}
    (h : minusP s = .ok a r) : ∃ x, s = x ++ r ∧ x ≠ [] ∧ ∀ g, Gap g → Wide.OpText (g ++ x) a.1 a.2 := by
  rw [minusP] at h
  obtain ⟨_, s1, h1, h⟩ := bind_ok h
  obtain ⟨w, s2, h2, h⟩ := bind_ok h
  cases h
  have e1 := eat_back (unit_ok h1)
  obtain ⟨x, e2, hx⟩ := pathWordP_back (ofOption_ok h2)
  obtain ⟨g', e3, hg'⟩ := skp_gap_of (s := s1) (by rw [e2]; simp [pathWord_ne hx])
  obtain ⟨y, e4, hy⟩ := pathLoop_back s2.length x [w] s2 (.one hx)
  refine ⟨45 :: (g' ++ y), ?_, by simp, fun g hg => ?_⟩
  · have : ch '-' = 45 := by decide
    rw [e1, e3, e2, e4, this]
    simp
  · simp only [pathFields_ofList]
    exact .minus hg hg' hy

include hp in
theorem algebraP_back {s r : Str} {a : Name × T} (h : algebraP p (skp s) = .ok a r) : ∃ x, s = x ++ r ∧ Wide.OpText x a.1 a.2 := by
  have : ∃ x, skp s = x ++ r ∧ x ≠ [] ∧ ∀ g, Gap g → Wide.OpText (g ++ x) a.1 a.2 := by
    rw [algebraP] at h
    rcases orElse_ok h with h | ⟨_, h⟩
    · rcases orElse_ok h with h | ⟨_, h⟩
      · rcases orElse_ok h with h | ⟨_, h⟩
        · exact opP_back hp (by decide) h
        · exact opP_back hp (by decide) h
      · exact opP_back hp (by decide) h
    · exact minusP_back h
  obtain ⟨x, e, hx, ho⟩ := this
  obtain ⟨g, e2, hg⟩ := skp_gap_of (s := s) (by rw [e]; simp [hx])
  exact ⟨g ++ x, by rw [List.append_assoc, ← e]; exact e2, ho g hg⟩

theorem ops_append : ∀ {as : List (Name × T)} {x y : Str} {n : Name} {t : T}, Wide.OpsText x (.ofList as) → Wide.OpText y n t →
    Wide.OpsText (x ++ y) (.ofList (as ++ [(n, t)]))
  | [], x, y, n, t, h, _ => by cases h
  | [(m, u)], x, y, n, t, h, hy => by
    cases h with
    | one h => exact .more h (.one hy)
    | more h h' => cases h'
  | (m, u) :: b :: as, x, y, n, t, h, hy => by
    cases h with
    | more h h' =>
      rw [List.append_assoc]
      exact .more h (ops_append (as := b :: as) h' hy)

include hp in
theorem algebraLoop_back : ∀ (k : Nat) (x : Str) (acc : List (Name × T)) (s : Str) (as : List (Name × T)) (r : Str),
    Wide.OpsText x (.ofList acc) → algebraLoop p k acc s = .ok as r → ∃ y, x ++ s = y ++ r ∧ Wide.OpsText y (.ofList as)
  | 0, _, _, _, _, _, _, h => by simp [algebraLoop] at h
  | k + 1, x, acc, s, as, r, hx, h => by
    rw [algebraLoop] at h
    split at h
    · rename_i a r1 e1
      obtain ⟨y, h1, h2⟩ := algebraP_back hp e1
      obtain ⟨z, h3, h4⟩ := algebraLoop_back k (x ++ y) _ r1 as r (ops_append hx h2) h
      exact ⟨z, by rw [← h3, h1, List.append_assoc], h4⟩
    · cases h; exact ⟨x, rfl, hx⟩
    · cases h
    · cases h

include hp in
theorem exprP_back : Back (exprP p) Wide.CoreText := by
  intro s t r h
  rw [exprP] at h
  obtain ⟨u, s1, h1, h⟩ := bind_ok h
  obtain ⟨a, s2, h2, h⟩ := bind_ok h
  obtain ⟨as, s3, h3, h⟩ := bind_ok h
  cases h
  obtain ⟨x, e1, hx⟩ := operandP_back hp _ _ _ h1
  obtain ⟨y, e2, hy⟩ := algebraP_back hp h2
  obtain ⟨z, e3, hz⟩ := algebraLoop_back hp _ y [a] s2 as _ (.one hy) h3
  exact ⟨x ++ z, by rw [e1, e2, e3, List.append_assoc], .expr hx hz⟩

theorem basicP_back {s r : Str} {t : T} (h : basicP s = some (t, r)) : ∃ x, s = x ++ r ∧ Wide.CoreText x t := by
  rw [basicP] at h
  cases e : wordP basicWords s with
  | none => rw [e] at h; cases h
  | some br =>
    obtain ⟨b, s1⟩ := br
    rw [e, Option.bind_some] at h
    simp only at h
    split at h
    · cases h
      obtain ⟨w, hw, e2⟩ := wordP_some e
      refine ⟨w.map ch, ?_, .basic ?_⟩
      · first | exact e2 | exact kw_some e2
      · rw [← basicWords_names]
        exact List.mem_map.mpr ⟨(w, b), hw, rfl⟩
    · cases h

include hp in
theorem coreP_back : Back (coreP p) Wide.CoreText := by
  intro s t r h
  rw [coreP] at h
  rcases orElse_ok h with h | ⟨_, h⟩
  · exact exprP_back hp _ _ _ h
  rcases orElse_ok h with h | ⟨hb, h⟩
  · exact basicP_back (ofOption_ok h)
  rcases orElse_ok h with h | ⟨_, h⟩
  · exact enumP_back _ _ _ h
  rcases orElse_ok h with h | ⟨_, h⟩
  · exact listP_back hp _ _ _ h
  rcases orElse_ok h with h | ⟨_, h⟩
  · exact mapP_back hp _ _ _ h
  rcases orElse_ok h with h | ⟨_, h⟩
  · obtain ⟨x, fs, e, rfl, hx⟩ := recordP_back hp h
    exact ⟨x, e, .record hx⟩
  · obtain ⟨n, e, hn, rfl, hr⟩ := refP_back h
    refine ⟨n, e, .ref hn fun b hm => ?_⟩
    rw [e, basicP_word hm hr] at hb
    cases hb

end

theorem typeP_back : ∀ n, Back (typeP n) Wide.TypeText
  | 0 => fun s t r h => by simp [typeP] at h
  | n + 1 => by
    intro s t r h
    rw [typeP] at h
    obtain ⟨u, s1, h1, h⟩ := bind_ok h
    cases h
    obtain ⟨x, e1, hx⟩ := coreP_back (typeP_back n) _ _ _ h1
    obtain ⟨y, e2, hy⟩ := attrsP_back s1.length s1
    exact ⟨x ++ y, by rw [List.append_assoc, ← e2]; exact e1, .intro hx hy (updateAttrs_put _ _)⟩

/-! ### Definitions -/

theorem wide_name {s : Str} {t : T} (h : Wide.TypeText s t) : (∃ m, t = .none m ∧ m.name ≠ []) ∨ ((∀ m, t ≠ .none m) ∧ t.name = []) := by
  cases h with
  | intro h _ _ =>
    cases h with
    | ref h _ => exact .inl ⟨_, rfl, h.1⟩
    | _ => exact .inr ⟨(fun m h => by cases h), rfl⟩

theorem define_wide {s : Str} {t : T} (n : Name) (h : Wide.TypeText s t) : Defined n t (define n t) := by
  rcases wide_name h with ⟨m, rfl, hn⟩ | ⟨h1, h2⟩
  · refine .inl ⟨m, rfl, ?_⟩
    rw [define, if_neg]
    rw [List.isEmpty_iff]
    exact hn
  · refine .inr ⟨h1, ?_⟩
    rw [define, if_pos (List.isEmpty_iff.mpr h2)]; rfl

theorem declP_back {s r : Str} {n : Name} {d : T} (h : declP s = .ok (n, d) r) : ∃ x, s = x ++ r ∧ Wide.DeclText x n d := by
  rw [declP] at h
  obtain ⟨_, s1, h1, h⟩ := bind_ok h
  obtain ⟨n', s2, h2, h⟩ := bind_ok h
  obtain ⟨_, s3, h3, h⟩ := bind_ok h
  obtain ⟨t, s4, h4, h⟩ := bind_ok h
  cases h
  have e1 := kw_some (unit_ok h1)
  obtain ⟨e2, hn, _⟩ := identP_back (ofOption_ok h2)
  obtain ⟨g1, e3, hg1⟩ := skp_gap_of (s := s1) (by rw [e2]; simp [hn.1])
  obtain ⟨g2, e4, hg2⟩ := skp_eat (unit_ok h3)
  obtain ⟨g3, y, e5, hg3, hy⟩ := skp_type_back (typeP_back _) h4
  refine ⟨[116, 121, 112, 101] ++ g1 ++ n ++ g2 ++ 61 :: (g3 ++ y), ?_, .intro hg1 hn hg2 hg3 hy (define_wide n hy)⟩
  have c1 : "type".toList.map ch = [116, 121, 112, 101] := by decide
  have c2 : ch '=' = 61 := by decide
  rw [e1, e3, e2, e4, e5, c1, c2]
  simp

theorem wideDecl_ne {s : Str} {n : Name} {d : T} (h : Wide.DeclText s n d) : s ≠ [] := by cases h; simp

/-- The definitions after the first. -/
theorem declLoop_back : ∀ (k : Nat) (acc : List (Name × T)) (dup : Bool) (s : Str) (res : List (Name × T)) (r : Str),
    declLoop k acc dup s = .ok (res, false) r → skp r = [] →
    dup = false ∧ ∃ ds, res = acc ++ ds ∧ ((acc.map (·.1)).Nodup → (res.map (·.1)).Nodup) ∧
      ∀ x n d, Wide.DeclText x n d → Wide.DeclsText (x ++ s) ((n, d) :: ds)
  | 0, _, _, _, _, _, h, _ => by simp [declLoop] at h
  | k + 1, acc, dup, s, res, r, h, hr => by
    rw [declLoop] at h
    split at h
    · rename_i n d r1 e
      split at h
      · obtain ⟨h1, _⟩ := declLoop_back k _ _ _ _ _ h hr
        cases h1
      · rename_i hk
        obtain ⟨h1, ds, h2, h3, h4⟩ := declLoop_back k _ _ _ _ _ h hr
        obtain ⟨x, e1, hx⟩ := declP_back e
        obtain ⟨g, e2, hg⟩ := skp_gap_of (s := s) (by rw [e1]; simp [wideDecl_ne hx])
        refine ⟨h1, (n, d) :: ds, by rw [h2]; simp, fun ha => h3 ?_, fun y m c hy => ?_⟩
        · have hk' : assoc n acc = none := by
            cases hh : assoc n acc with
            | none => rfl
            | some _ => rw [hh] at hk; simp at hk
          rw [assoc_none_iff] at hk'
          rw [List.map_append, List.nodup_append]
          exact ⟨ha, by simp, fun a h1 b h2 => by simp at h2; subst h2; rintro rfl; exact hk' h1⟩
        · have := Wide.DeclsText.more hy hg (h4 x n d hx)
          rw [e2, e1]
          rw [List.append_assoc] at this
          exact this
    · cases h
      exact ⟨rfl, [], by simp, id, fun x n d hx => .one hx (skp_nil_last hr)⟩
    · cases h
    · cases h

/-- C99: nothing else is accepted. A text that is accepted consists of definitions as the grammar has them, of names that are not yet
    defined, and it is read as these definitions. -/
theorem C99_only (s r : Str) (symbols res : List (Name × T)) (h : symbolsP symbols s = .ok res r) :
    ∃ ds, Wide.SymbolsText s ds ∧ res = symbols ++ ds ∧ ((symbols.map (·.1)).Nodup → (res.map (·.1)).Nodup) := by
  rw [symbolsP] at h
  obtain ⟨⟨k, t⟩, s1, h1, h⟩ := bind_ok h
  obtain ⟨⟨res', dup⟩, s2, h2, h⟩ := bind_ok h
  simp only at h h2
  split at h
  · cases h
  · rename_i hc
    cases h
    simp only [not_or, Bool.not_eq_true] at hc
    obtain ⟨rfl, hs2⟩ := hc
    have hs2 : skp s2 = [] := by
      by_cases e : skp s2 = []
      · exact e
      · exact absurd e hs2
    obtain ⟨h3, ds, h4, h5, h6⟩ := declLoop_back _ _ _ _ _ _ h2 hs2
    rw [h3, if_neg (by simp)] at h4 h5
    obtain ⟨x, e1, hx⟩ := declP_back h1
    obtain ⟨g, e2, hg⟩ := skp_gap_of (s := s) (by rw [e1]; simp [wideDecl_ne hx])
    refine ⟨(k, t) :: ds, ?_, by rw [h4]; simp, fun ha => h5 ?_⟩
    · rw [e2, e1]; exact .intro hg (h6 x k t hx)
    · have hk' : assoc k symbols = none := by
        cases hh : assoc k symbols with
        | none => rfl
        | some _ => rw [hh] at h3; simp at h3
      rw [assoc_none_iff] at hk'
      rw [List.map_append, List.nodup_append]
      exact ⟨ha, by simp, fun a m1 b m2 => by simp at m2; subst m2; rintro rfl; exact hk' m1⟩

/-- A text that is outside of the narrower grammar: a comment right after a type, and twice the same key. -/
example : symbolsP [] (str "type a = int//x\ntype b = a #k #k=v") =
    .ok [(str "a", .basic .int ⟨str "a", []⟩), (str "b", .alias (.none ⟨str "a", [(str "k", some (str "v"))]⟩) ⟨str "b", []⟩)] [] := by
  decide +kernel

end Verif.SchemaText
