import Verif.Json.Parse
import Verif.DataText.LiteralProps
/-!
The parser reads what the grammar says.
-/
namespace Verif.Json
open Verif.Data Verif.DataText Verif.DataText.Spec Verif.Json.Spec

theorem digit_byte {d : Nat} (h : d < 10) : isDigit (48 + d).toUInt8 = true ∧ (48 + d).toUInt8.toNat - 48 = d := by
  have : (48 + d).toUInt8.toNat = 48 + d := by simp; omega
  constructor
  · simp only [isDigit, this]; simp; omega
  · omega

theorem digitsOf_text {ds : List Nat} (hd : ∀ d ∈ ds, d < 10) {r : Str} (hr : headNot isDigit r = true) :
    digitsOf (digitText ds ++ r) = (ds, r) := by
  induction ds with
  | nil =>
    cases r with
    | nil => rfl
    | cons b r =>
      simp only [headNot, Bool.not_eq_true'] at hr
      simp [digitText, digitsOf, hr]
  | cons d ds ih =>
    have h := digit_byte (hd d (by simp))
    have e : digitText (d :: ds) ++ r = (48 + d).toUInt8 :: (digitText ds ++ r) := rfl
    rw [e, digitsOf, h.1, ih (fun x hx => hd x (by simp [hx])), h.2]
    rfl

/-- What may not follow a number. -/
def stop (b : UInt8) : Bool := isDigit b || b == 46 || b == 101 || b == 69

theorem head_digit {ds : List Nat} (hd : Digits ds) (r : Str) :
    ∃ b t, digitText ds ++ r = b :: t ∧ isDigit b = true := by
  obtain ⟨h0, h1⟩ := hd
  match ds, h0 with
  | d :: ds, _ => exact ⟨_, _, rfl, (digit_byte (h1 d (by simp))).1⟩

theorem digits_ne {ds : List Nat} (hd : Digits ds) : ds ≠ [] := hd.1

theorem isDigit_ne {b : UInt8} (h : isDigit b = true) : b ≠ 45 ∧ b ≠ 43 ∧ b ≠ 46 ∧ b ≠ 101 ∧ b ≠ 69 ∧ isWs b = false ∧ b ≠ 93 ∧ b ≠ 34
    ∧ b ≠ 91 ∧ b ≠ 123 ∧ b ≠ 110 ∧ b ≠ 116 ∧ b ≠ 102 := by
  refine ⟨?_, ?_, ?_, ?_, ?_, ?_, ?_, ?_, ?_, ?_, ?_, ?_, ?_⟩
  case refine_6 =>
    simp only [isDigit, Bool.and_eq_true, decide_eq_true_eq] at h
    simp only [isWs, Bool.or_eq_false_iff, beq_eq_false_iff_ne]
    refine ⟨⟨⟨?_, ?_⟩, ?_⟩, ?_⟩ <;> (intro hb; subst hb; simp at h)
  all_goals (intro hb; subst hb; simp [isDigit] at h)

theorem expP_text {e : Str} {x : Option Int} (h : Exponent e x) {r : Str} (hr : headNot stop r = true) :
    expP (e ++ r) = some (x, r) := by
  have hrd : headNot isDigit r = true := by
    cases r with
    | nil => rfl
    | cons b r => simp [headNot, stop] at hr ⊢; exact hr.1.1.1
  cases h with
  | absent =>
    cases r with
    | nil => rfl
    | cons b r =>
      simp only [headNot, stop, Bool.not_eq_true', Bool.or_eq_false_iff, beq_eq_false_iff_ne] at hr
      simp [expP, hr.2, hr.1.2]
  | plain e ds he hd =>
    obtain ⟨b, t, e1, e2⟩ := head_digit hd r
    have hn := isDigit_ne e2
    have hs : sign (digitText ds ++ r) = (false, digitText ds ++ r) := by
      rw [e1, sign, if_neg hn.1, if_neg hn.2.1]
    simp only [List.cons_append, expP, if_pos he, hs, digitsOf_text hd.2 hrd, if_neg hd.1, value_numeral]
    simp
  | plus e ds he hd =>
    have hs : sign (43 :: (digitText ds ++ r)) = (false, digitText ds ++ r) := by simp [sign]
    simp only [List.cons_append, expP, if_pos he, hs, digitsOf_text hd.2 hrd, if_neg hd.1, value_numeral]
    simp
  | minus e ds he hd =>
    have hs : sign (45 :: (digitText ds ++ r)) = (true, digitText ds ++ r) := by simp [sign]
    simp only [List.cons_append, expP, if_pos he, hs, digitsOf_text hd.2 hrd, if_neg hd.1, value_numeral]
    simp

theorem exp_head {e : Str} {x : Option Int} (h : Exponent e x) {r : Str} (hr : headNot stop r = true) :
    headNot isDigit (e ++ r) = true ∧ headNot (· == 46) (e ++ r) = true := by
  cases h with
  | absent =>
    cases r with
    | nil => exact ⟨rfl, rfl⟩
    | cons b r => simp [headNot, stop] at hr ⊢; exact ⟨hr.1.1.1, hr.1.1.2⟩
  | plain e ds he hd => rcases he with he | he <;> subst he <;> simp [headNot, isDigit]
  | plus e ds he hd => rcases he with he | he <;> subst he <;> simp [headNot, isDigit]
  | minus e ds he hd => rcases he with he | he <;> subst he <;> simp [headNot, isDigit]

theorem fracP_text {fs : List Nat} (hf : ∀ d ∈ fs, d < 10) {r : Str} (h1 : headNot isDigit r = true) (h2 : headNot (· == 46) r = true) :
    fracP ((if fs = [] then [] else 46 :: digitText fs) ++ r) = some (fs, r) := by
  by_cases h : fs = []
  · subst h
    cases r with
    | nil => rfl
    | cons b r =>
      simp [headNot] at h2
      simp [fracP, h2]
  · simp only [if_neg h, List.cons_append, fracP, if_true, digitsOf_text hf h1]

theorem frac_head {fs : List Nat} {r : Str} (h : headNot isDigit r = true) :
    headNot isDigit ((if fs = [] then [] else 46 :: digitText fs) ++ r) = true := by
  split
  · exact h
  · simp [headNot, isDigit]

theorem numberP_text {t : Str} {n : Num} (h : Numeral t n) {r : Str} (hr : headNot stop r = true) : numberP (t ++ r) = some (n, r) := by
  cases h with
  | mk neg ds fs e x hd hz hf he =>
    have hE := exp_head he hr
    have hm : minus ((if neg then [45] else []) ++ digitText ds ++ (if fs = [] then [] else 46 :: digitText fs) ++ e ++ r)
        = (neg, digitText ds ++ ((if fs = [] then [] else 46 :: digitText fs) ++ (e ++ r))) := by
      cases neg with
      | true => simp [minus]
      | false =>
        obtain ⟨b, t, e1, e2⟩ := head_digit hd ((if fs = [] then [] else 46 :: digitText fs) ++ (e ++ r))
        simp only [Bool.false_eq_true, if_false, List.nil_append, List.append_assoc]
        rw [e1, minus, if_neg (isDigit_ne e2).1]
    unfold numberP
    simp only [hm, digitsOf_text hd.2 (frac_head hE.1), fracP_text hf hE.1 hE.2, expP_text he hr]
    rw [if_neg]
    intro hc
    rcases hc with hc | ⟨hc, hc'⟩
    · exact hd.1 hc
    · exact hc' (hz hc)

theorem hexOf_hex {b : UInt8} {n : Nat} (h : Hex b n) : hexOf b = some n := by
  induction h with
  | digit d hd =>
    have : (48 + d).toUInt8.toNat = 48 + d := by simp; omega
    simp only [hexOf, this]
    rw [if_pos (by omega)]
    congr 1; omega
  | upper d hd =>
    have : (65 + d).toUInt8.toNat = 65 + d := by simp; omega
    simp only [hexOf, this]
    rw [if_neg (by omega), if_pos (by omega)]
    congr 1; omega
  | lower d hd =>
    have : (97 + d).toUInt8.toNat = 97 + d := by simp; omega
    simp only [hexOf, this]
    rw [if_neg (by omega), if_neg (by omega), if_pos (by omega)]
    congr 1; omega

theorem unitP_text {u : Str} {n : Nat} (h : Unit16 u n) (r : Str) : unitP (u ++ r) = some (n, r) := by
  cases h with
  | mk a b c d w x y z h1 h2 h3 h4 =>
    simp [unitP, hex4, hexOf_hex h1, hexOf_hex h2, hexOf_hex h3, hexOf_hex h4]

theorem chars_text {t s : Str} (h : Chars t s) : ∀ (n : Nat) (r : Str), t.length < n → chars n (t ++ 34 :: r) = some (s, r) := by
  induction h with
  | nil =>
    intro n r hn
    obtain ⟨n, rfl⟩ : ∃ k, n = k + 1 := ⟨n - 1, by simp at hn; omega⟩
    simp [chars]
  | plain b t s h1 h2 h3 _ ih =>
    intro n r hn
    obtain ⟨n, rfl⟩ : ∃ k, n = k + 1 := ⟨n - 1, by simp at hn; omega⟩
    simp only [List.length_cons] at hn
    simp only [List.cons_append, chars]
    rw [if_neg h2, if_neg (by omega), if_pos h3, ih n r (by omega)]
    rfl
  | short c b t s hc _ ih =>
    intro n r hn
    obtain ⟨n, rfl⟩ : ∃ k, n = k + 1 := ⟨n - 1, by simp at hn; omega⟩
    simp only [List.length_cons] at hn
    have hf : (Spec.short.find? fun p => p.1 == c) = some (c, b) := by
      simp only [Spec.short, List.mem_cons, Prod.mk.injEq, List.not_mem_nil, or_false] at hc
      rcases hc with ⟨rfl, rfl⟩ | ⟨rfl, rfl⟩ | ⟨rfl, rfl⟩ | ⟨rfl, rfl⟩ | ⟨rfl, rfl⟩ | ⟨rfl, rfl⟩ | ⟨rfl, rfl⟩ | ⟨rfl, rfl⟩ <;> decide
    simp only [List.cons_append, chars]
    rw [if_neg (by decide), if_neg (by decide), if_neg (by decide), hf]
    simp only [ih n r (by omega)]
    rfl
  | unicode u k t s hu hk _ ih =>
    intro n r hn
    obtain ⟨n, rfl⟩ : ∃ j, n = j + 1 := ⟨n - 1, by simp at hn; omega⟩
    have hp := unitP_text hu (t ++ 34 :: r)
    have hc : codeP (u ++ (t ++ 34 :: r)) = some (Char.ofNat k, t ++ 34 :: r) := by
      simp only [codeP, hp, if_neg hk]
    cases hu with
    | mk a b c d w x y z h1 h2 h3 h4 =>
      simp only [List.length_append, List.length_cons, List.length_nil] at hn
      simp only [List.cons_append, List.nil_append, chars] at hc ⊢
      rw [if_neg (by decide), if_neg (by decide), if_neg (by decide)]
      rw [show (Spec.short.find? fun p => p.1 == (117 : UInt8)) = none from by decide]
      simp only [hc, ih n r (by omega)]
      rfl
  | pair u v m k t s hu hv hm hk _ ih =>
    intro n r hn
    obtain ⟨n, rfl⟩ : ∃ j, n = j + 1 := ⟨n - 1, by simp at hn; omega⟩
    have hp := unitP_text hu (v ++ (t ++ 34 :: r))
    have hq := unitP_text hv (t ++ 34 :: r)
    have hc : codeP (u ++ (v ++ (t ++ 34 :: r))) = some (Char.ofNat (0x10000 + (m - 0xD800) * 0x400 + (k - 0xDC00)), t ++ 34 :: r) := by
      simp only [codeP, hp, hq]
      rw [if_pos (by omega), if_pos (by omega), if_pos (by omega)]
    have hlv : v.length = 6 := by cases hv; rfl
    rw [List.append_assoc, List.append_assoc]
    cases hu with
    | mk a b c d w x y z h1 h2 h3 h4 =>
      simp only [List.length_append, List.length_cons, List.length_nil] at hn
      simp only [List.cons_append, List.nil_append, chars] at hc ⊢
      rw [if_neg (by decide), if_neg (by decide), if_neg (by decide)]
      rw [show (Spec.short.find? fun p => p.1 == (117 : UInt8)) = none from by decide]
      simp only [hc, ih n r (by omega)]
      rfl

theorem stringP_text {t s : Str} (h : Chars t s) (r : Str) : stringP (34 :: (t ++ 34 :: r)) = some (s, r) := by
  simp only [stringP, if_true]
  apply chars_text h
  simp; omega

theorem isWs_iff (b : UInt8) : isWs b = true ↔ b = 32 ∨ b = 9 ∨ b = 10 ∨ b = 13 := by
  simp [isWs, or_assoc]

theorem ws_skip {a : Str} (ha : Ws a) (s : Str) : ws (a ++ s) = ws s := by
  induction a with
  | nil => rfl
  | cons b a ih =>
    have hb := (isWs_iff b).mpr (ha b (by simp))
    have := ih (fun x hx => ha x (by simp [hx]))
    simp only [ws, List.cons_append, List.dropWhile, hb] at this ⊢
    exact this

theorem ws_stop {b : UInt8} (hb : isWs b = false) (s : Str) : ws (b :: s) = b :: s := by
  simp [ws, List.dropWhile, hb]

/-- The first character of the text of a value. -/
def Starts (t : Str) : Prop := ∃ b u, t = b :: u ∧ isWs b = false ∧ b ≠ 93

theorem Starts.ws {t : Str} (h : Starts t) (r : Str) : Json.ws (t ++ r) = t ++ r := by
  obtain ⟨b, u, rfl, hb, _⟩ := h
  exact ws_stop hb _

theorem numeral_starts {t : Str} {n : Num} (h : Numeral t n) : ∃ b u, t = b :: u ∧ (isDigit b = true ∨ b = 45) := by
  cases h with
  | mk neg ds fs e x hd hz hf he =>
    cases neg with
    | true => exact ⟨_, _, rfl, .inr rfl⟩
    | false =>
      obtain ⟨b, u, e1, e2⟩ := head_digit hd ((if fs = [] then [] else 46 :: digitText fs) ++ e)
      exact ⟨b, u, by simpa using e1, .inl e2⟩

def ReadsText (t : Str) (v : Value) : Prop :=
  Starts t ∧ ∀ (n : Nat) (r : Str), t.length < n → headNot stop r = true → valueP n (t ++ r) = some (v, r)

def ReadsElements (t : Str) (xs : List Value) : Prop :=
  (∀ r, ∃ b u, ws (t ++ r) = b :: u ∧ b ≠ 93) ∧
  ∀ (n m : Nat) (r : Str), t.length < n → t.length < m → itemsP (valueP n) m (t ++ 93 :: r) = some (xs, r)

def ReadsMembers (t : Str) (ns : List Str) (xs : List Value) : Prop :=
  (∀ r, ∃ b u, ws (t ++ r) = b :: u ∧ b ≠ 125) ∧
  ∀ (n m : Nat) (r : Str), t.length < n → t.length < m → membersP (valueP n) m (t ++ 125 :: r) = some ((ns, xs), r)

theorem ws_end {b : Str} (hb : Ws b) (c : UInt8) (hc : isWs c = false) (r : Str) : ws (b ++ c :: r) = c :: r := by
  rw [ws_skip hb, ws_stop hc]

theorem stop_ws {b : Str} (hb : Ws b) (c : UInt8) (hc : stop c = false) (r : Str) : headNot stop (b ++ c :: r) = true := by
  cases b with
  | nil => simp [headNot, hc]
  | cons x b =>
    rcases hb x (by simp) with h | h | h | h <;> subst h <;> simp [headNot, stop, isDigit]

theorem reads_number {t : Str} {k : Num} (h : Numeral t k) : ReadsText t (.num k) := by
  obtain ⟨b, u, e, hb⟩ := numeral_starts h
  have hne : isWs b = false ∧ b ≠ 93 ∧ b ≠ 34 ∧ b ≠ 91 ∧ b ≠ 123 ∧ b ≠ 110 ∧ b ≠ 116 ∧ b ≠ 102 := by
    rcases hb with hb | hb
    · have := isDigit_ne hb; exact ⟨this.2.2.2.2.2.1, this.2.2.2.2.2.2⟩
    · subst hb; decide
  refine ⟨⟨b, u, e, hne.1, hne.2.1⟩, ?_⟩
  intro n r hn hr
  obtain ⟨n, rfl⟩ : ∃ k, n = k + 1 := ⟨n - 1, by omega⟩
  have hp := numberP_text h hr
  subst e
  simp only [List.cons_append] at hp ⊢
  simp only [valueP]
  rw [if_neg hne.2.2.1, if_neg hne.2.2.2.1, if_neg hne.2.2.2.2.1, if_neg hne.2.2.2.2.2.1, if_neg hne.2.2.2.2.2.2.1,
    if_neg hne.2.2.2.2.2.2.2, hp]
  rfl

theorem reads {t : Str} {v : Value} (h : Text t v) : ReadsText t v := by
  refine Text.rec (motive_1 := fun t v _ => ReadsText t v) (motive_2 := fun t xs _ => ReadsElements t xs)
    (motive_3 := fun t ns xs _ => ReadsMembers t ns xs) ?_ ?_ ?_ ?_ ?_ ?_ ?_ ?_ ?_ ?_ ?_ ?_ ?_ h
  · refine ⟨⟨110, _, rfl, by decide, by decide⟩, ?_⟩
    intro n r hn hr
    obtain ⟨n, rfl⟩ : ∃ k, n = k + 1 := ⟨n - 1, by omega⟩
    rfl
  · refine ⟨⟨116, _, rfl, by decide, by decide⟩, ?_⟩
    intro n r hn hr
    obtain ⟨n, rfl⟩ : ∃ k, n = k + 1 := ⟨n - 1, by omega⟩
    rfl
  · refine ⟨⟨102, _, rfl, by decide, by decide⟩, ?_⟩
    intro n r hn hr
    obtain ⟨n, rfl⟩ : ∃ k, n = k + 1 := ⟨n - 1, by omega⟩
    rfl
  · intro t k hk
    exact reads_number hk
  · intro t s hs
    refine ⟨⟨34, _, rfl, by decide, by decide⟩, ?_⟩
    intro n r hn hr
    obtain ⟨n, rfl⟩ : ∃ k, n = k + 1 := ⟨n - 1, by omega⟩
    have hp := stringP_text hs r
    simp only [List.cons_append, List.append_assoc, List.nil_append, valueP, if_true, hp]
    rfl
  · intro w hw
    refine ⟨⟨91, _, rfl, by decide, by decide⟩, ?_⟩
    intro n r hn hr
    obtain ⟨n, rfl⟩ : ∃ k, n = k + 1 := ⟨n - 1, by omega⟩
    simp only [List.cons_append, List.append_assoc, List.nil_append, valueP]
    rw [if_neg (by decide), if_pos (by trivial)]
    simp only [arrayP, ws_end hw 93 (by decide), if_true]
  · intro t xs _ ⟨h1, h2⟩
    refine ⟨⟨91, _, rfl, by decide, by decide⟩, ?_⟩
    intro n r hn hr
    obtain ⟨n, rfl⟩ : ∃ k, n = k + 1 := ⟨n - 1, by omega⟩
    simp only [List.length_cons, List.length_append, List.length_nil] at hn
    simp only [List.cons_append, List.append_assoc, List.nil_append, valueP]
    rw [if_neg (by decide), if_pos (by trivial)]
    obtain ⟨b, u, e1, e2⟩ := h1 (93 :: r)
    simp only [arrayP, e1, if_neg e2]
    rw [h2 n _ r (by omega) (by simp; omega)]
    rfl
  · intro w hw
    refine ⟨⟨123, _, rfl, by decide, by decide⟩, ?_⟩
    intro n r hn hr
    obtain ⟨n, rfl⟩ : ∃ k, n = k + 1 := ⟨n - 1, by omega⟩
    simp only [List.cons_append, List.append_assoc, List.nil_append, valueP]
    rw [if_neg (by decide), if_neg (by decide), if_pos (by trivial)]
    simp only [objectP, ws_end hw 125 (by decide), if_true]
  · intro t ns xs _ ⟨h1, h2⟩
    refine ⟨⟨123, _, rfl, by decide, by decide⟩, ?_⟩
    intro n r hn hr
    obtain ⟨n, rfl⟩ : ∃ k, n = k + 1 := ⟨n - 1, by omega⟩
    simp only [List.length_cons, List.length_append, List.length_nil] at hn
    simp only [List.cons_append, List.append_assoc, List.nil_append, valueP]
    rw [if_neg (by decide), if_neg (by decide), if_pos (by trivial)]
    obtain ⟨b, u, e1, e2⟩ := h1 (125 :: r)
    simp only [objectP, e1, if_neg e2]
    rw [h2 n _ r (by omega) (by simp; omega)]
    rfl
  · intro a t b v ha _ hb ⟨hs, ht⟩
    constructor
    · intro r
      obtain ⟨x, u, e, hx, hx'⟩ := hs
      refine ⟨x, u ++ b ++ r, ?_, hx'⟩
      rw [List.append_assoc, ws_skip ha, e]
      simp only [List.cons_append, ws_stop hx, List.append_assoc]
    · intro n m r hn hm
      obtain ⟨m, rfl⟩ : ∃ k, m = k + 1 := ⟨m - 1, by omega⟩
      simp only [List.length_append] at hn
      rw [itemsP, List.append_assoc, ws_skip ha, List.append_assoc, hs.ws, ht n _ (by omega) (stop_ws hb 93 (by decide) r)]
      simp only [ws_end hb 93 (by decide), if_true]
  · intro a t b ts v vs ha _ hb _ ⟨hs, ht⟩ ⟨h1, h2⟩
    constructor
    · intro r
      obtain ⟨x, u, e, hx, hx'⟩ := hs
      refine ⟨x, u ++ b ++ 44 :: (ts ++ r), ?_, hx'⟩
      rw [List.append_assoc, ws_skip ha, e]
      simp only [List.cons_append, ws_stop hx, List.append_assoc]
    · intro n m r hn hm
      obtain ⟨m, rfl⟩ : ∃ k, m = k + 1 := ⟨m - 1, by omega⟩
      simp only [List.length_append, List.length_cons] at hn hm
      rw [itemsP, List.append_assoc, ws_skip ha, List.append_assoc, hs.ws, List.append_assoc, List.cons_append,
        ht n _ (by omega) (stop_ws hb 44 (by decide) _)]
      simp only [ws_end hb 44 (by decide)]
      rw [if_neg (by decide), if_pos (by trivial), h2 n m r (by omega) (by omega)]
      rfl
  · intro a k b c t d nm v ha hk hb hc _ hd ⟨hs, ht⟩
    constructor
    · intro r
      refine ⟨34, k ++ 34 :: (b ++ 58 :: (c ++ (t ++ d))) ++ r, ?_, by decide⟩
      rw [List.append_assoc, ws_skip ha, List.cons_append, ws_stop (by decide)]
    · intro n m r hn hm
      obtain ⟨m, rfl⟩ : ∃ k, m = k + 1 := ⟨m - 1, by omega⟩
      simp only [List.length_append, List.length_cons] at hn hm
      rw [membersP, List.append_assoc, ws_skip ha, List.cons_append, ws_stop (by decide), List.append_assoc, List.cons_append,
        stringP_text hk]
      simp only [List.append_assoc, List.cons_append, ws_end hb 58 (by decide), ne_eq, not_true_eq_false, if_false]
      rw [ws_skip hc, hs.ws, ht n _ (by omega) (stop_ws hd 125 (by decide) r)]
      simp only [ws_end hd 125 (by decide), if_true]
  · intro a k b c t d ts nm v ns vs ha hk hb hc _ hd _ ⟨hs, ht⟩ ⟨h1, h2⟩
    constructor
    · intro r
      refine ⟨34, k ++ 34 :: (b ++ 58 :: (c ++ (t ++ (d ++ 44 :: ts)))) ++ r, ?_, by decide⟩
      rw [List.append_assoc, ws_skip ha, List.cons_append, ws_stop (by decide)]
    · intro n m r hn hm
      obtain ⟨m, rfl⟩ : ∃ k, m = k + 1 := ⟨m - 1, by omega⟩
      simp only [List.length_append, List.length_cons] at hn hm
      rw [membersP, List.append_assoc, ws_skip ha, List.cons_append, ws_stop (by decide), List.append_assoc, List.cons_append,
        stringP_text hk]
      simp only [List.append_assoc, List.cons_append, ws_end hb 58 (by decide), ne_eq, not_true_eq_false, if_false]
      rw [ws_skip hc, hs.ws, ht n _ (by omega) (stop_ws hd 44 (by decide) _)]
      simp only [ws_end hd 44 (by decide)]
      rw [if_neg (by decide), if_pos (by trivial), h2 n m r (by omega) (by omega)]
      rfl

/-! UTF-8 -/

theorem byte_toNat {n : Nat} (h : n < 256) : (UInt8.ofNat n).toNat = n := by
  rw [UInt8.toNat_ofNat']
  exact Nat.mod_eq_of_lt h

theorem wf1 {a : UInt8} (h : a.toNat < 128) (s : Str) : wellFormed (a :: s) = wellFormed s := by
  rw [wellFormed.eq_def]
  simp only [if_pos h]

theorem wf2 {a b : UInt8} (h : 194 ≤ a.toNat ∧ a.toNat ≤ 223) (hb : 128 ≤ b.toNat ∧ b.toNat ≤ 191) (s : Str) :
    wellFormed (a :: b :: s) = wellFormed s := by
  rw [wellFormed.eq_def]
  simp only [if_neg (show ¬ a.toNat < 128 by omega), if_pos h, isCont, hb.1, hb.2, decide_true, Bool.and_self, Bool.true_and]

theorem wf3 {a b c : UInt8} (h : 224 ≤ a.toNat ∧ a.toNat ≤ 239) (hb : 128 ≤ b.toNat ∧ b.toNat ≤ 191) (hc : 128 ≤ c.toNat ∧ c.toNat ≤ 191)
    (h1 : a.toNat = 224 → 160 ≤ b.toNat) (h2 : a.toNat = 237 → b.toNat ≤ 159) (s : Str) :
    wellFormed (a :: b :: c :: s) = wellFormed s := by
  have e1 : (a.toNat != 224 || decide (160 ≤ b.toNat)) = true := by
    by_cases h : a.toNat = 224
    · simp [h1 h]
    · simp [h]
  have e2 : (a.toNat != 237 || decide (b.toNat ≤ 159)) = true := by
    by_cases h : a.toNat = 237
    · simp [h2 h]
    · simp [h]
  rw [wellFormed.eq_def]
  simp only [if_neg (show ¬ a.toNat < 128 by omega), if_neg (show ¬ (194 ≤ a.toNat ∧ a.toNat ≤ 223) by omega), if_pos h, e1, e2,
    isCont, hb.1, hb.2, hc.1, hc.2, decide_true, Bool.and_self, Bool.true_and]

theorem wf4 {a b c d : UInt8} (h : 240 ≤ a.toNat ∧ a.toNat ≤ 244) (hb : 128 ≤ b.toNat ∧ b.toNat ≤ 191) (hc : 128 ≤ c.toNat ∧ c.toNat ≤ 191)
    (hd : 128 ≤ d.toNat ∧ d.toNat ≤ 191)
    (h1 : a.toNat = 240 → 144 ≤ b.toNat) (h2 : a.toNat = 244 → b.toNat ≤ 143) (s : Str) :
    wellFormed (a :: b :: c :: d :: s) = wellFormed s := by
  have e1 : (a.toNat != 240 || decide (144 ≤ b.toNat)) = true := by
    by_cases h : a.toNat = 240
    · simp [h1 h]
    · simp [h]
  have e2 : (a.toNat != 244 || decide (b.toNat ≤ 143)) = true := by
    by_cases h : a.toNat = 244
    · simp [h2 h]
    · simp [h]
  rw [wellFormed.eq_def]
  simp only [if_neg (show ¬ a.toNat < 128 by omega), if_neg (show ¬ (194 ≤ a.toNat ∧ a.toNat ≤ 223) by omega),
    if_neg (show ¬ (224 ≤ a.toNat ∧ a.toNat ≤ 239) by omega), if_pos h, e1, e2,
    isCont, hb.1, hb.2, hc.1, hc.2, hd.1, hd.2, decide_true, Bool.and_self, Bool.true_and]

theorem wellFormed_utf8 (c : Char) (s : Str) : wellFormed (utf8 c ++ s) = wellFormed s := by
  have hv : c.val.toNat < 0xD800 ∨ (0xDFFF < c.val.toNat ∧ c.val.toNat < 0x110000) := by
    have := c.valid
    simpa [UInt32.isValidChar, Nat.isValidChar] using this
  simp only [utf8, String.utf8EncodeChar]
  generalize c.val.toNat = v at hv
  split
  · apply wf1
    rw [byte_toNat (by omega)]; omega
  · split
    · apply wf2
      · rw [byte_toNat (by omega)]; omega
      · rw [byte_toNat (by omega)]; omega
    · split
      · apply wf3
        · rw [byte_toNat (by omega)]; omega
        · rw [byte_toNat (by omega)]; omega
        · rw [byte_toNat (by omega)]; omega
        · rw [byte_toNat (by omega), byte_toNat (by omega)]; omega
        · rw [byte_toNat (by omega), byte_toNat (by omega)]; omega
      · apply wf4
        · rw [byte_toNat (by omega)]; omega
        · rw [byte_toNat (by omega)]; omega
        · rw [byte_toNat (by omega)]; omega
        · rw [byte_toNat (by omega)]; omega
        · rw [byte_toNat (by omega), byte_toNat (by omega)]; omega
        · rw [byte_toNat (by omega), byte_toNat (by omega)]; omega

theorem wellFormed_of {s : Str} (h : Utf8 s) : wellFormed s = true := by
  obtain ⟨cs, rfl⟩ := h
  induction cs with
  | nil => rfl
  | cons c cs ih => rw [List.flatMap_cons, wellFormed_utf8, ih]

/-- The parser reads every document as the value that the grammar gives to it. -/
theorem document_reads {s : Str} {v : Value} (h : Document s v) : document s = some v := by
  obtain ⟨hu, a, t, b, rfl, ha, ht, hb⟩ := h
  obtain ⟨hs, hr⟩ := reads ht
  have hstop : headNot stop b = true := by
    cases b with
    | nil => rfl
    | cons x b => rcases hb x (by simp) with h | h | h | h <;> subst h <;> simp [headNot, stop, isDigit]
  have hw : ws b = [] := by
    have := ws_skip hb []
    simpa [ws] using this
  unfold document
  rw [if_pos (wellFormed_of hu), ws_skip ha, hs.ws, hr _ b (by simp; omega) hstop]
  simp [hw]

end Verif.Json
