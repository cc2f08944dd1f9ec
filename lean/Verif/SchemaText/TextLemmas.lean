import Verif.SchemaText.TextSpec
import Verif.DataText.Quoted

/-! # C99: lemmas -/

namespace Verif.SchemaText

open Verif.Types (Name Meta updateAttrs setAttr)
open Verif.DataText (ch eat kw isAlnum isSpace isCntrl isDigit quotedP quotedBody)
open Spec

/-- If there is a first character, it has the property. -/
def Hd (p : UInt8 → Prop) (s : Str) : Prop := ∀ b r, s = b :: r → p b

theorem Hd.nil {p : UInt8 → Prop} : Hd p [] := fun _ _ h => by cases h
theorem Hd.cons {p : UInt8 → Prop} {b : UInt8} {s : Str} (h : p b) : Hd p (b :: s) := fun _ _ e => by cases e; exact h
theorem Hd.imp {p q : UInt8 → Prop} {s : Str} (h : Hd p s) (hq : ∀ b, p b → q b) : Hd q s := fun b r e => hq b (h b r e)

theorem isSpace_iff {b : UInt8} : isSpace b = true ↔ Space b := by simp [isSpace, Space]
theorem isCntrl_iff {b : UInt8} : isCntrl b = true ↔ Control b := by simp [isCntrl, Control]
theorem isAlnum_iff {b : UInt8} : (isAlnum b || b == 95) = true ↔ WordChar b := by
  have : b = 95 ↔ b.toNat = 95 := ⟨fun h => by subst h; rfl, fun h => UInt8.toNat_inj.mp h⟩
  simp [isAlnum, isDigit, WordChar, this, or_assoc]
theorem isIdent_iff {b : UInt8} : isIdent b = true ↔ NameChar b := by
  have : b = 46 ↔ b.toNat = 46 := ⟨fun h => by subst h; rfl, fun h => UInt8.toNat_inj.mp h⟩
  rw [isIdent, Bool.or_eq_true, isAlnum_iff, NameChar, beq_iff_eq, this]
theorem isValueChar_iff {b : UInt8} : isValueChar b = true ↔ ValueChar b := by
  simp only [isValueChar, Bool.and_eq_true, Bool.not_eq_true', bne_iff_ne, ValueChar, ← isCntrl_iff, ← isSpace_iff,
    Bool.not_eq_true, and_assoc]

instance (b : UInt8) : Decidable (Space b) := by unfold Space; infer_instance
instance (b : UInt8) : Decidable (WordChar b) := by unfold WordChar; infer_instance
instance (b : UInt8) : Decidable (NameChar b) := by unfold NameChar; infer_instance

theorem not_name {b : UInt8} (h : Space b ∨ b ∈ ([44, 62, 125, 47, 61, 58, 123, 60, 35, 43, 45] : List UInt8)) : ¬ NameChar b := by
  rcases h with h | h
  · intro hn
    simp only [Space, NameChar, WordChar] at h hn
    omega
  · simp at h
    rcases h with rfl | rfl | rfl | rfl | rfl | rfl | rfl | rfl | rfl | rfl | rfl <;> decide +kernel

/-! ### Gaps -/

theorem skpIn_comment : ∀ (c s : Str), 10 ∉ c → skpIn true (c ++ 10 :: s) = skp s
  | [], s, _ => by simp [skpIn, skp]
  | b :: c, s, h => by
    simp at h
    rw [List.cons_append, skpIn, if_neg (by rintro rfl; exact h.1 rfl)]
    exact skpIn_comment c s h.2

theorem skpIn_end : ∀ (c : Str), 10 ∉ c → skpIn true c = []
  | [], _ => by simp [skpIn]
  | b :: c, h => by
    simp at h
    rw [skpIn, if_neg (by rintro rfl; exact h.1 rfl)]
    exact skpIn_end c h.2

theorem skp_space {b : UInt8} (h : Space b) (s : Str) : skp (b :: s) = skp s := by
  rw [← isSpace_iff] at h
  cases s with
  | nil => simp [skp, skpIn, h]
  | cons c s => simp [skp, skpIn, h]

theorem skp_stop {b : UInt8} {s : Str} (h : ¬ Space b) (h' : b ≠ 47) : skp (b :: s) = b :: s := by
  rw [← isSpace_iff] at h
  cases s with
  | nil => simp [skp, skpIn, h]
  | cons c s => simp [skp, skpIn, h, h']

theorem skp_gap {g : Str} (h : Gap g) (s : Str) : skp (g ++ s) = skp s := by
  induction h with
  | nil => rfl
  | space hb _ ih => rw [List.cons_append, skp_space hb, ih]
  | @comment c g hc _ ih =>
    simp only [List.cons_append, List.append_assoc]
    rw [← ih]
    have : skp (47 :: 47 :: (c ++ 10 :: (g ++ s))) = skpIn true (c ++ 10 :: (g ++ s)) := by
      rw [skp, skpIn, if_neg (by decide), if_pos ⟨rfl, rfl⟩]
    rw [this, skpIn_comment _ _ hc]

theorem skp_last {g : Str} (h : LastGap g) : skp g = [] := by
  cases h with
  | gap h => have := skp_gap h []; simpa [skp, skpIn] using this
  | @comment g c hg hc =>
    rw [skp_gap hg, skp, skpIn, if_neg (by decide), if_pos ⟨rfl, rfl⟩, skpIn_end _ hc]

theorem gap_head {g : Str} (h : Gap g) : Hd (fun b => Space b ∨ b = 47) g := by
  cases h with
  | nil => exact .nil
  | space h _ => exact .cons (.inl h)
  | comment _ _ => exact .cons (.inr rfl)

theorem Hd.append {p : UInt8 → Prop} {s r : Str} (h : Hd p s) (hr : Hd p r) : Hd p (s ++ r) := by
  cases s with
  | nil => exact hr
  | cons b s => exact fun c r e => by cases e; exact h _ _ rfl

theorem noIdent_iff {s : Str} : noIdent s = true ↔ Hd (fun b => ¬ NameChar b) s := by
  cases s with
  | nil => simp [noIdent, Hd.nil]
  | cons b s =>
    simp only [noIdent, Bool.not_eq_true', ← Bool.not_eq_true, isIdent_iff]
    exact ⟨fun h => .cons h, fun h => h _ _ rfl⟩

theorem gap_noName {g r : Str} (h : Gap g) (hr : Hd (fun b => ¬ NameChar b) r) : Hd (fun b => ¬ NameChar b) (g ++ r) :=
  ((gap_head h).imp fun b hb => not_name (hb.imp id fun e => by subst e; simp)).append hr

/-! ### Words -/

theorem spanOf_append {p : UInt8 → Bool} : ∀ {n r : Str}, (∀ b ∈ n, p b = true) → Hd (fun b => p b = false) r →
    spanOf p (n ++ r) = (n, r)
  | [], [], _, _ => rfl
  | [], b :: r, _, hr => by simp [spanOf, hr b r rfl]
  | b :: n, r, h, hr => by
    simp only [List.mem_cons, forall_eq_or_imp] at h
    simp [spanOf, h.1, spanOf_append h.2 hr]

theorem plusOf_append {p : UInt8 → Bool} {n r : Str} (hn : n ≠ []) (h : ∀ b ∈ n, p b = true) (hr : Hd (fun b => p b = false) r) :
    plusOf p (n ++ r) = some (n, r) := by
  rw [plusOf, spanOf_append h hr]
  cases n with
  | nil => exact absurd rfl hn
  | cons b n => rfl

theorem plusOf_none {p : UInt8 → Bool} {s : Str} (h : Hd (fun b => p b = false) s) : plusOf p s = none := by
  cases s with
  | nil => rfl
  | cons b s => simp [plusOf, spanOf, h b s rfl]

theorem hd_ident {s : Str} (h : Hd (fun b => ¬ NameChar b) s) : Hd (fun b => isIdent b = false) s :=
  h.imp fun b hb => by rw [← Bool.not_eq_true, isIdent_iff]; exact hb

theorem identP_append {n r : Str} (hn : IsName n) (hr : Hd (fun b => ¬ NameChar b) r) : identP (n ++ r) = some (n, r) :=
  plusOf_append hn.1 (fun b hb => isIdent_iff.mpr (hn.2 b hb)) (hd_ident hr)

theorem identP_none {s : Str} (h : Hd (fun b => ¬ NameChar b) s) : identP s = none := plusOf_none (hd_ident h)

theorem name_head {n : Name} (hn : IsName n) : ∃ b s, n = b :: s ∧ NameChar b := by
  obtain ⟨h, h'⟩ := hn
  cases n with
  | nil => exact absurd rfl h
  | cons b s => exact ⟨b, s, rfl, h' b (by simp)⟩

theorem name_stop {b : UInt8} (h : NameChar b) : ¬ Space b ∧ b ≠ 47 := by
  refine ⟨fun hs => not_name (.inl hs) h, ?_⟩
  rintro rfl
  exact not_name (.inr (by simp)) h

theorem skp_name {n r : Str} (hn : IsName n) : skp (n ++ r) = n ++ r := by
  obtain ⟨b, s, rfl, hb⟩ := name_head hn
  exact skp_stop (name_stop hb).1 (name_stop hb).2

theorem eat_hd {c : Char} {s : Str} (h : Hd (fun b => b ≠ ch c) s) : eat c s = none := by
  cases s with
  | nil => rfl
  | cons b s => simp [eat, h b s rfl]

theorem kw_some : ∀ {w : List Char} {s r : Str}, kw w s = some r → s = w.map ch ++ r
  | [], s, r, h => by simp [kw] at h; simpa using h
  | c :: w, s, r, h => by
    rw [kw] at h
    cases s with
    | nil => simp [eat] at h
    | cons b s =>
      rw [eat] at h
      split at h
      · rename_i h'; split at h' <;> simp at h'
        cases h
      · rename_i h'
        split at h' <;> simp at h'
        subst h'
        rw [kw_some h]
        simp [*]

theorem kw_append : ∀ (w : List Char) (r : Str), kw w (w.map ch ++ r) = some r
  | [], r => rfl
  | c :: w, r => by
    have := kw_append w r
    simp [kw, eat, this]

/-- Two ways to split a text where a name ends. -/
theorem name_split : ∀ {n m r s : Str}, (∀ b ∈ n, NameChar b) → Hd (fun b => ¬ NameChar b) r → (∀ b ∈ m, NameChar b) →
    n ++ r = m ++ s → ∃ m', n = m ++ m' ∧ s = m' ++ r
  | n, [], r, s, _, _, _, h => ⟨n, rfl, h.symm⟩
  | [], b :: m, r, s, _, hr, hm, h => by
    simp at h
    exact absurd (hm b (by simp)) (hr b _ h)
  | c :: n, b :: m, r, s, hn, hr, hm, h => by
    simp at h
    obtain ⟨rfl, h⟩ := h
    obtain ⟨m', rfl, h2⟩ := name_split (fun b hb => hn b (by simp [hb])) hr (fun b hb => hm b (by simp [hb])) h
    exact ⟨m', rfl, h2⟩

/-- After a keyword that is a prefix of a name follows the rest of the name. -/
theorem kw_name {w : List Char} (hw : ∀ b ∈ w.map ch, NameChar b) {n r s : Str} (hn : IsName n)
    (hr : Hd (fun b => ¬ NameChar b) r) (h : kw w (n ++ r) = some s) : ∃ m, n = w.map ch ++ m ∧ s = m ++ r :=
  name_split hn.2 hr hw (kw_some h)

/-- and then a bracket only follows if the name is the keyword. -/
theorem kw_eat {w : List Char} (hw : ∀ b ∈ w.map ch, NameChar b) {n r : Str} (hn : IsName n) (c : Char)
    (hc : ¬ NameChar (ch c)) (hr : Hd (fun b => ¬ NameChar b) r)
    (hr' : n = w.map ch → Hd (fun b => b ≠ ch c) (skp r)) (s : Str) (h : kw w (n ++ r) = some s) : eat c (skp s) = none := by
  obtain ⟨m, rfl, rfl⟩ := kw_name hw hn hr h
  cases m with
  | nil => exact eat_hd (hr' (by simp))
  | cons b m =>
    have hb : NameChar b := hn.2 b (by simp)
    rw [List.cons_append, skp_stop (name_stop hb).1 (name_stop hb).2]
    exact eat_hd (.cons (by rintro rfl; exact hc hb))

/-! ### Quoted strings -/

theorem inQuotes_body {s : Str} {v : Name} (h : InQuotes s v) (r : Str) :
    quotedBody 34 (s ++ 34 :: r) = (v, 34 :: r) := by
  induction h with
  | nil => exact DataText.quotedBody_end 34 (by decide) r
  | @plain b s v hc hq hb _ ih =>
    rw [← isCntrl_iff, Bool.not_eq_true] at hc
    rw [List.cons_append]
    have e := DataText.quotedBody_plain 34 b (s ++ 34 :: r) hc hq (.inl hb)
    rw [e, ih]
  | @quote s v _ ih =>
    rw [List.cons_append, List.cons_append]
    have e := DataText.quotedBody_escaped 34 (s ++ 34 :: r)
    exact e.trans (by rw [ih])
  | @backslashes s v _ ih =>
    rw [List.cons_append, List.cons_append]
    have e := DataText.quotedBody_pair 34 (by decide) (s ++ 34 :: r)
    exact e.trans (by rw [ih]; rfl)
  | @backslash b s v hc hq hb _ ih =>
    rw [← isCntrl_iff, Bool.not_eq_true] at hc
    rw [List.cons_append, List.cons_append]
    have e := DataText.quotedBody_plain 34 b (s ++ 34 :: r) hc hq (.inl hb)
    rw [DataText.quotedBody]
    rw [if_neg (by rintro ⟨_, h⟩; exact hq h), if_neg (by rintro ⟨_, h⟩; exact hb h), if_neg (by decide), e, ih]

theorem quotedP_text {s : Str} {v : Name} (h : QuotedText s v) (r : Str) : quotedP '"' (s ++ r) = some (v, r) := by
  obtain ⟨h⟩ := h
  rename_i s
  rw [quotedP]
  have e : (34 :: (s ++ [34])) ++ r = ch '"' :: (s ++ 34 :: r) := by simp [show ch '"' = 34 from rfl]
  rw [e, DataText.eat_cons]
  simp only
  have e2 : quotedBody (ch '"') (s ++ 34 :: r) = (v, 34 :: r) := inQuotes_body h r
  rw [e2]
  rfl

theorem quoted_head {s : Str} {v : Name} (h : QuotedText s v) : ∃ r, s = 34 :: r := by
  obtain ⟨h⟩ := h
  exact ⟨_, rfl⟩

theorem quotedP_none {s : Str} (h : Hd (fun b => b ≠ 34) s) : quotedP '"' s = none := by
  rw [quotedP, eat_hd (c := '"') h]

end Verif.SchemaText
