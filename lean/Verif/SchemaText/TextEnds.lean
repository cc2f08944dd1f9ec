import Verif.SchemaText.TextParts

/-! # C99: reading ends -/

namespace Verif.SchemaText

open Verif.Types (Name Meta updateAttrs setAttr)
open Verif.DataText (ch eat kw isAlnum isSpace isCntrl isDigit quotedP quotedBody)

/-- There is enough fuel, and what remains has at most this length. -/
def Left {α : Type} (k : Nat) (x : Res α) : Prop := x ≠ .stuck ∧ ∀ a r, x = .ok a r → r.length ≤ k

theorem Left.ok {α : Type} {k : Nat} {a : α} {r : Str} (h : r.length ≤ k) : Left k (.ok a r) :=
  ⟨by simp, fun _ _ e => by cases e; exact h⟩
theorem Left.fail {α : Type} {k : Nat} : Left k (.fail : Res α) := ⟨by simp, fun _ _ e => by cases e⟩
theorem Left.overflow {α : Type} {k : Nat} : Left k (.overflow : Res α) := ⟨by simp, fun _ _ e => by cases e⟩
theorem Left.mono {α : Type} {k k' : Nat} {x : Res α} (h : Left k x) (hk : k ≤ k') : Left k' x :=
  ⟨h.1, fun a r e => Nat.le_trans (h.2 a r e) hk⟩
theorem Left.bind {α β : Type} {k k' : Nat} {x : Res α} {f : α → Str → Res β} (h : Left k x)
    (hf : ∀ a r, r.length ≤ k → Left k' (f a r)) : Left k' (x.bind f) := by
  cases x with
  | ok a r => exact hf a r (h.2 a r rfl)
  | fail => exact .fail
  | overflow => exact .overflow
  | stuck => exact absurd rfl h.1
theorem Left.orElse {α : Type} {k : Nat} {x : Res α} {f : Unit → Res α} (h : Left k x) (hf : Left k (f ())) :
    Left k (x.orElse f) := by
  cases x with
  | fail => exact hf
  | _ => exact h

theorem skpIn_le : ∀ (n : Nat) (b : Bool) (s : Str), s.length ≤ n → (skpIn b s).length ≤ s.length
  | _, _, [], _ => by simp [skpIn]
  | 0, _, _ :: _, h => by simp at h
  | n + 1, true, b :: s, h => by
    simp at h
    rw [skpIn]
    split
    · exact Nat.le_succ_of_le (skpIn_le n false s h)
    · exact Nat.le_succ_of_le (skpIn_le n true s h)
  | n + 1, false, [b], _ => by rw [skpIn]; split <;> simp
  | n + 1, false, b :: c :: s, h => by
    simp at h
    rw [skpIn]
    split
    · exact Nat.le_succ_of_le (skpIn_le n false (c :: s) (by simp; omega))
    · split
      · have := skpIn_le n true s (by omega)
        simp; omega
      · simp

theorem skp_le (s : Str) : (skp s).length ≤ s.length := skpIn_le _ _ _ (Nat.le_refl _)

theorem eat_len {c : Char} {s r : Str} (h : eat c s = some r) : s.length = r.length + 1 := by
  cases s with
  | nil => simp [eat] at h
  | cons b s => rw [eat] at h; split at h <;> simp at h; simp [h]

theorem kw_len {w : List Char} {s r : Str} (h : kw w s = some r) : s.length = r.length + w.length := by
  rw [kw_some h]; simp; omega

theorem Left.eat (c : Char) (s : Str) : Left (s.length - 1) (Res.unit (eat c s)) := by
  cases h : DataText.eat c s with
  | none => exact .fail
  | some r => exact .ok (by have := eat_len h; omega)

theorem Left.kw (w : List Char) (s : Str) : Left (s.length - w.length) (Res.unit (kw w s)) := by
  cases h : DataText.kw w s with
  | none => exact .fail
  | some r => exact .ok (by have := kw_len h; omega)

theorem eat_pos {c : Char} {s : Str} (h : eat c s ≠ none) : 0 < s.length := by
  cases s with
  | nil => simp [eat] at h
  | cons b s => simp

theorem spanOf_len {p : UInt8 → Bool} : ∀ s : Str, (spanOf p s).1.length + (spanOf p s).2.length = s.length
  | [] => rfl
  | b :: s => by rw [spanOf]; split <;> simp; have := spanOf_len (p := p) s; omega

theorem plusOf_len {p : UInt8 → Bool} {s r : Str} {w : Name} (h : plusOf p s = some (w, r)) : r.length + 1 ≤ s.length := by
  rw [plusOf] at h
  split at h <;> simp at h
  rename_i he
  have := spanOf_len (p := p) s
  rw [h] at this he
  cases w with
  | nil => simp at he
  | cons b w => simp at this; omega

theorem quotedBody_len : ∀ (n : Nat) (s : Str), s.length ≤ n → (quotedBody 34 s).2.length ≤ s.length
  | _, [], _ => by simp [quotedBody]
  | 0, _ :: _, h => by simp at h
  | n + 1, [c], _ => by rw [quotedBody]; split <;> simp
  | n + 1, c :: d :: s, hs => by
    have h1 := quotedBody_len n s (by simp at hs; omega)
    have h2 := quotedBody_len n (d :: s) (by simp at hs ⊢; omega)
    rw [quotedBody]
    simp at h2
    split
    · simp; omega
    · split
      · simp; omega
      · split <;> simp; omega

theorem quotedP_len {s r : Str} {w : Name} (h : quotedP '"' s = some (w, r)) : r.length + 1 ≤ s.length := by
  rw [quotedP] at h
  cases h1 : eat '"' s with
  | none => rw [h1] at h; simp at h
  | some s1 =>
    rw [h1] at h
    simp only at h
    have l1 := eat_len h1
    have l2 := quotedBody_len _ s1 (Nat.le_refl _)
    cases h2 : eat '"' (quotedBody (ch '"') s1).2 with
    | none => rw [h2] at h; simp at h
    | some s2 =>
      have l3 := eat_len h2
      rw [h2] at h
      simp at h
      rw [← h.2]
      rw [show ch '"' = 34 from rfl] at l3
      omega

theorem or_len {x y : Option (Name × Str)} {w : Name} {r : Str} {k : Nat} (hx : ∀ w r, x = some (w, r) → r.length + 1 ≤ k)
    (hy : ∀ w r, y = some (w, r) → r.length + 1 ≤ k) (h : x.or y = some (w, r)) : r.length + 1 ≤ k := by
  cases x with
  | none => exact hy w r (by simpa using h)
  | some z => simp at h; subst h; exact hx w r rfl

theorem left_of {α : Type} {k : Nat} {x : Option (α × Str)} (h : ∀ w r, x = some (w, r) → r.length ≤ k) : Left k (Res.ofOption x) := by
  cases x with
  | none => exact .fail
  | some z => exact .ok (h z.1 z.2 rfl)

theorem left_ident (s : Str) : Left (s.length - 1) (Res.ofOption (identP s)) := left_of fun w r h => by
  have := plusOf_len h; omega

theorem ident_pos {s r : Str} {w : Name} (h : identP s = some (w, r)) : r.length + 1 ≤ s.length := plusOf_len h

theorem left_fieldName (s : Str) : Left (s.length - 1) (Res.ofOption (fieldNameP s)) := left_of fun w r h => by
  have := or_len (fun w r h => plusOf_len h) (fun w r h => quotedP_len h) h; omega

theorem left_pathWord (s : Str) : Left (s.length - 1) (Res.ofOption (pathWordP s)) := left_of fun w r h => by
  have := or_len (fun w r h => plusOf_len h) (fun w r h => quotedP_len h) h; omega

theorem attrP_len {s r : Str} {a : Name × Option Name} (h : attrP s = some (a, r)) : r.length ≤ s.length := by
  rw [attrP] at h
  cases h1 : eat '#' s with
  | none => rw [h1] at h; simp at h
  | some s1 =>
    have l1 := eat_len h1
    rw [h1, Option.bind_some] at h
    cases h2 : identP s1 with
    | none => rw [h2] at h; simp at h
    | some x =>
      obtain ⟨k, s2⟩ := x
      have l2 := plusOf_len h2
      rw [h2, Option.map_some] at h
      simp only [Option.some.injEq] at h
      split at h
      · rename_i v s3 h3
        cases h4 : eat '=' s2 with
        | none => rw [h4] at h3; simp at h3
        | some s4 =>
          have l4 := eat_len h4
          rw [h4, Option.bind_some] at h3
          have l5 := or_len (fun w r h => quotedP_len h) (fun w r h => plusOf_len h) h3
          cases h
          omega
      · cases h
        omega

theorem attrsP_len : ∀ (k : Nat) (s : Str), (attrsP k s).2.length ≤ s.length
  | 0, s => by simp [attrsP]
  | k + 1, s => by
    rw [attrsP]
    split
    · rename_i a r h
      have l1 := attrP_len h
      have l2 := skp_le s
      have l3 := attrsP_len k r
      simp only
      omega
    · simp

theorem pathLoop_len : ∀ (k : Nat) (acc : List Name) (s : Str), (pathLoop k acc s).2.length ≤ s.length
  | 0, _, s => by simp [pathLoop]
  | k + 1, acc, s => by
    rw [pathLoop]
    split
    · rename_i w r h
      cases h4 : eat '.' s with
      | none => rw [h4] at h; simp at h
      | some s4 =>
        have l4 := eat_len h4
        rw [h4, Option.bind_some] at h
        have l5 := or_len (fun w r h => plusOf_len h) (fun w r h => quotedP_len h) h
        have := pathLoop_len k (acc ++ [w]) r
        omega
    · simp

/-- What the parser for nested types is known to do with texts shorter than `m`. -/
def Shrinks {α : Type} (m : Nat) (p : Str → Res α) : Prop := ∀ s : Str, s.length < m → Left s.length (p s)

theorem left_comma {α : Type} {p : Str → Res α} {m : Nat} (hp : Shrinks m p) : ∀ (k : Nat) (acc : List α) (s : Str),
    s.length ≤ m → s.length < k → Left s.length (commaLoop p k acc s)
  | 0, _, _, _, h => by omega
  | k + 1, acc, s, hm, hk => by
    rw [commaLoop]
    split
    · exact .ok (Nat.le_refl _)
    · rename_i s1 h1
      have l1 := eat_len h1
      have l2 := hp s1 (by omega)
      split
      · rename_i a r h2
        have := l2.2 a r h2
        exact (left_comma hp k _ r (by omega) (by omega)).mono (by omega)
      · exact .ok (Nat.le_refl _)
      · exact .overflow
      · rename_i h2; exact absurd h2 l2.1

theorem left_braces {α : Type} {p : Str → Res α} {m : Nat} (hp : Shrinks m p) (s : Str) (hs : s.length ≤ m) :
    Left s.length (bracesP p s) := by
  rw [bracesP]
  cases h1 : eat '{' s with
  | none => exact .fail
  | some s1 =>
    have l1 := eat_len h1
    rw [Res.unit_some, Res.ok_bind]
    refine (hp s1 (by omega)).bind fun a s2 l2 => ?_
    refine (left_comma hp _ _ s2 (by omega) (by omega)).bind fun as s3 l3 => ?_
    refine (Left.eat '}' _).bind fun _ s5 l5 => .ok ?_
    revert l5
    cases h4 : eat ',' s3 with
    | some r =>
      have := eat_len h4
      have := skp_le r
      simp only
      omega
    | none => simp only; omega

theorem left_enum (s : Str) : Left s.length (enumP s) := by
  refine (Left.kw _ s).bind fun _ s1 l1 => ?_
  have l2 := skp_le s1
  refine ((left_braces (m := (skp s1).length) (fun s hs => ?_) _ (Nat.le_refl _)).mono (k' := s.length) (by omega)).bind
    fun _ r l3 => .ok l3
  refine (left_ident _).bind fun n r l => .ok ?_
  have := skp_le r
  have := skp_le s
  omega

variable {p : Str → Res T} {m : Nat}

theorem left_list (hp : Shrinks m p) (s : Str) (hs : s.length ≤ m) : Left s.length (listP p s) := by
  rw [listP]
  cases h1 : kw "list".toList s with
  | none => exact .fail
  | some s1 =>
    have l1 := kw_len h1
    simp at l1
    have l2 := skp_le s1
    refine (Left.eat _ _).bind fun _ s2 l3 => ?_
    have l4 := skp_le s2
    refine (hp (skp s2) (by omega)).bind fun t s3 l5 => ?_
    have l6 := skp_le s3
    exact (Left.eat _ _).bind fun _ s4 l7 => .ok (by omega)

theorem left_map (hp : Shrinks m p) (s : Str) (hs : s.length ≤ m) : Left s.length (mapP p s) := by
  rw [mapP]
  cases h1 : kw "map".toList s with
  | none => exact .fail
  | some s1 =>
    have l1 := kw_len h1
    simp at l1
    have l2 := skp_le s1
    refine (Left.eat _ _).bind fun _ s2 l3 => ?_
    have l4 := skp_le s2
    refine (hp (skp s2) (by omega)).bind fun t s3 l5 => ?_
    have l6 := skp_le s3
    refine (Left.eat _ _).bind fun _ s4 l7 => ?_
    have l8 := skp_le s4
    refine (hp (skp s4) (by omega)).bind fun t s5 l9 => ?_
    have l10 := skp_le s5
    exact (Left.eat _ _).bind fun _ s6 l11 => .ok (by omega)

theorem left_field (hp : Shrinks m p) : Shrinks m (fieldP p) := by
  intro s hs
  have l1 := skp_le s
  refine (left_fieldName _).bind fun n s1 l2 => ?_
  have l3 := skp_le s1
  refine (Left.eat _ _).bind fun _ s2 l4 => ?_
  have l5 := skp_le s2
  refine (hp (skp s2) (by omega)).bind fun t s3 l6 => .ok ?_
  have l7 := skp_le s3
  omega

theorem left_record (hp : Shrinks m p) (s : Str) (hs : s.length ≤ m) : Left s.length (recordP p s) := by
  rw [recordP]
  refine (Left.kw _ s).bind fun _ s1 l1 => ?_
  have l2 := skp_le s1
  exact ((left_braces (left_field hp) _ (by omega)).mono (k' := s.length) (by omega)).bind fun _ r l3 => .ok l3

theorem left_ref (s : Str) : Left s.length (refP s) :=
  ((left_ident s).mono (by omega)).bind fun _ _ l => .ok l

theorem left_operand (hp : Shrinks m p) (s : Str) (hs : s.length ≤ m) : Left s.length (operandP p s) :=
  .orElse (.orElse (left_record hp s hs) (left_ref s)) .overflow

theorem left_minus (s : Str) : Left (s.length - 1) (minusP s) := by
  refine (Left.eat _ s).bind fun _ s1 l1 => ?_
  have l2 := skp_le s1
  refine (left_pathWord _).bind fun w s2 l3 => .ok ?_
  have := pathLoop_len s2.length [w] s2
  omega

theorem left_op (hp : Shrinks m p) {w : List Char} (hw : 0 < w.length) (s : Str) (hs : s.length ≤ m) :
    Left (s.length - 1) (opP p w s) := by
  refine (Left.kw w s).bind fun _ s1 l1 => ?_
  have l2 := skp_le s1
  exact (left_operand hp (skp s1) (by omega)).bind fun t s2 l3 => .ok (by omega)

theorem left_algebra (hp : Shrinks m p) (s : Str) (hs : s.length ≤ m) : Left (s.length - 1) (algebraP p s) :=
  .orElse (.orElse (.orElse (left_op hp (by decide) s hs) (left_op hp (by decide) s hs)) (left_op hp (by decide) s hs))
    (left_minus s)

theorem algebraP_nil (p : Str → Res T) : algebraP p [] = .fail := rfl

theorem left_algebraLoop (hp : Shrinks m p) : ∀ (k : Nat) (acc : List (Name × T)) (s : Str), s.length ≤ m → s.length < k →
    Left s.length (algebraLoop p k acc s)
  | 0, _, _, _, h => by omega
  | k + 1, acc, s, hm, hk => by
    have l1 := skp_le s
    have l2 := left_algebra hp (skp s) (by omega)
    rw [algebraLoop]
    split
    · rename_i a r h
      have l3 := l2.2 a r h
      have l4 : 0 < (skp s).length := by
        cases h' : skp s with
        | nil => rw [h', algebraP_nil] at h; cases h
        | cons b q => simp
      exact (left_algebraLoop hp k _ r (by omega) (by omega)).mono (by omega)
    · exact .ok (Nat.le_refl _)
    · exact .overflow
    · rename_i h; exact absurd h l2.1

theorem left_expr (hp : Shrinks m p) (s : Str) (hs : s.length ≤ m) : Left s.length (exprP p s) := by
  refine (left_operand hp s hs).bind fun t s1 l1 => ?_
  have l2 := skp_le s1
  refine (left_algebra hp (skp s1) (by omega)).bind fun a s2 l3 => ?_
  exact (left_algebraLoop hp _ _ s2 (by omega) (by omega)).bind fun as s3 l4 => .ok (by omega)

theorem left_basic (s : Str) : Left s.length (Res.ofOption (basicP s)) := left_of fun w r h => by
  rw [basicP] at h
  cases h1 : wordP basicWords s with
  | none => rw [h1] at h; simp at h
  | some x =>
    obtain ⟨b, q⟩ := x
    obtain ⟨v, _, e⟩ := wordP_some h1
    rw [h1, Option.bind_some] at h
    split at h <;> simp at h
    rename_i heq
    cases heq
    rw [e, ← h.2.2]
    simp

theorem left_core (hp : Shrinks m p) (s : Str) (hs : s.length ≤ m) : Left s.length (coreP p s) :=
  .orElse (left_expr hp s hs) <| .orElse (left_basic s) <| .orElse (left_enum s) <| .orElse (left_list hp s hs) <|
    .orElse (left_map hp s hs) <| .orElse (left_record hp s hs) (left_ref s)

theorem left_type : ∀ n, Shrinks n (typeP n)
  | 0 => fun s h => by omega
  | n + 1 => fun s h => by
    rw [typeP]
    refine (left_core (left_type n) s (by omega)).bind fun t r l => .ok ?_
    have := attrsP_len r.length r
    omega

theorem left_decl (s : Str) : Left (s.length - 1) (declP s) := by
  rw [declP]
  cases h1 : kw "type".toList s with
  | none => exact .fail
  | some s1 =>
    have l1 := kw_len h1
    simp at l1
    have l2 := skp_le s1
    refine (left_ident _).bind fun n s2 l3 => ?_
    have l4 := skp_le s2
    refine (Left.eat _ _).bind fun _ s3 l5 => ?_
    have l6 := skp_le s3
    exact (left_type (s.length + 1) (skp s3) (by omega)).bind fun t s4 l7 => .ok (by omega)

theorem left_declLoop : ∀ (k : Nat) (acc : List (Name × T)) (dup : Bool) (s : Str), s.length < k →
    Left s.length (declLoop k acc dup s)
  | 0, _, _, _, h => by omega
  | k + 1, acc, dup, s, hk => by
    have l1 := skp_le s
    have l2 := left_decl (skp s)
    rw [declLoop]
    split
    · rename_i n t r h
      have l3 := l2.2 _ r h
      have l4 : 0 < (skp s).length := by
        cases h' : skp s with
        | nil => rw [h'] at h; cases h
        | cons b q => simp
      split
      · exact (left_declLoop k _ _ r (by omega)).mono (by omega)
      · exact (left_declLoop k _ _ r (by omega)).mono (by omega)
    · exact .ok (Nat.le_refl _)
    · exact .overflow
    · rename_i h; exact absurd h l2.1

theorem left_symbols (acc : List (Name × T)) (s : Str) : Left 0 (symbolsP acc s) := by
  have l1 := skp_le s
  refine (left_decl (skp s)).bind fun x s1 l2 => ?_
  refine (left_declLoop _ _ _ s1 (by omega)).bind fun r s2 l3 => ?_
  split
  · exact .fail
  · exact .ok (by simp)

end Verif.SchemaText
