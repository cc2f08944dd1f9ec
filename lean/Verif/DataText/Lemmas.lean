import Verif.DataText.Model

/-!
Helper lemmas: characters, literals, digits, and inputs that no number begins.
-/
namespace Verif.DataText
open Verif.Data Verif.Address

/-- A statement about all bytes is a statement about 256 numbers. -/
theorem forall_byte (p : UInt8 → Bool) (h : (List.range 256).all (fun n => p (UInt8.ofNat n)) = true) (b : UInt8) :
    p b = true := by
  have h1 := List.all_eq_true.mp h b.toNat (List.mem_range.mpr b.toNat_lt)
  simpa using h1

/-- The first byte, if any, does not satisfy `p`. -/
def headNot (p : UInt8 → Bool) : Str → Bool
  | [] => true
  | b :: _ => !p b

@[simp] theorem headNot_nil (p) : headNot p [] = true := rfl
@[simp] theorem headNot_cons (p b s) : headNot p (b :: s) = !p b := rfl

theorem eat_cons (c : Char) (s : Str) : eat c (ch c :: s) = some s := by simp [eat]
theorem eat_nil (c : Char) : eat c [] = none := rfl

theorem eat_none {c : Char} {s : Str} (h : headNot (· == ch c) s = true) : eat c s = none := by
  cases s with
  | nil => rfl
  | cons b s => simp_all [eat]

theorem headNot_mono {p q : UInt8 → Bool} {s : Str} (h : headNot p s = true) (hq : ∀ b, q b = true → p b = true) :
    headNot q s = true := by
  cases s with
  | nil => rfl
  | cons b s =>
    simp only [headNot_cons, Bool.not_eq_true'] at *
    cases hb : q b with
    | false => rfl
    | true => rw [hq b hb] at h; cases h

/-- Some name of the table begins with `b`. -/
def begins (table : List (List Char × Nat)) (b : UInt8) : Bool :=
  table.any fun e => match e.1 with
    | [] => true
    | c :: _ => ch c == b

theorem lookup_none (table : List (List Char × Nat)) (s : Str) (hne : table.all (fun e => !e.1.isEmpty) = true)
    (h : headNot (begins table) s = true) : lookup table s = none := by
  induction table with
  | nil => rfl
  | cons e t ih =>
    obtain ⟨name, v⟩ := e
    simp only [List.all_cons, Bool.and_eq_true] at hne
    cases name with
    | nil => simp at hne
    | cons c cs =>
      have h1 : eat c s = none := by
        apply eat_none
        refine headNot_mono h fun b hb => ?_
        simp only [beq_iff_eq] at hb
        simp [begins, hb]
      have h2 : headNot (begins t) s = true := by
        refine headNot_mono h fun b hb => ?_
        simp only [begins, List.any_cons] at *
        simp [hb]
      simp only [lookup, kw, h1]
      exact ih hne.2 h2

/-- What may follow a printed value: the end, a separator, a closing bracket, or an arrow. -/
inductive Delim : Str → Prop
  | nil : Delim []
  | comma (t) : Delim (ch ',' :: t)
  | list (t) : Delim (ch ']' :: t)
  | map (t) : Delim (ch '}' :: t)
  | record (t) : Delim (ch '>' :: t)
  | arrow (t) : Delim (ch ' ' :: ch '-' :: ch '>' :: t)

theorem suffixes_names : suffixes.all (fun e => !e.1.isEmpty) = true := by decide
theorem units_names : units.all (fun e => !e.1.isEmpty) = true := by decide

/-- Characters that may not follow directly after a printed value. -/
def sticky (b : UInt8) : Bool :=
  isXDigit b || b == ch ':' || b == ch '.' || b == ch '-' || b == ch '/' || b == ch '+'

theorem Delim.headNot_sticky {r : Str} (h : Delim r) : headNot sticky r = true := by
  cases h <;> first | rfl | decide

theorem Delim.suffix {r : Str} (h : Delim r) : lookup suffixes (skipWs r) = none := by
  apply lookup_none _ _ suffixes_names
  cases h <;> rfl

theorem Delim.unit {r : Str} (h : Delim r) : lookup units (skipWs r) = none := by
  apply lookup_none _ _ units_names
  cases h <;> rfl

theorem headNot_digit {r : Str} (h : headNot sticky r = true) : headNot isDigit r = true :=
  headNot_mono h fun b hb => by simp [sticky, isXDigit, hb]

theorem headNot_xdigit {r : Str} (h : headNot sticky r = true) : headNot isXDigit r = true :=
  headNot_mono h fun b hb => by simp [sticky, hb]

theorem eat_sticky {r : Str} {c : Char} (h : headNot sticky r = true) (hc : sticky (ch c) = true) : eat c r = none := by
  apply eat_none
  refine headNot_mono h fun b hb => ?_
  simp only [beq_iff_eq] at hb
  rw [hb]; exact hc

/-! Digits -/

/-- The decimal digits of a positive number. -/
def posDigits (n : Nat) : List Nat := if n = 0 then [] else posDigits (n / 10) ++ [n % 10]
decreasing_by omega

/-- The decimal digits of a number. -/
def digits (n : Nat) : List Nat := if n = 0 then [0] else posDigits n

/-- The text of a list of digits. -/
def txt (ds : List Nat) : Str := ds.map digitChar

theorem printPos_eq (n : Nat) : printPos n = txt (posDigits n) := by
  induction n using Nat.strongRecOn with
  | _ n ih =>
    rw [printPos, posDigits]
    split
    · rfl
    · rw [ih (n / 10) (by omega)]; simp [txt]

theorem printNat_eq (n : Nat) : printNat n = txt (digits n) := by
  unfold printNat digits
  split
  · rfl
  · exact printPos_eq n

theorem posDigits_lt (n : Nat) : ∀ d ∈ posDigits n, d < 10 := by
  induction n using Nat.strongRecOn with
  | _ n ih =>
    rw [posDigits]
    split
    · simp
    · intro d hd
      rw [List.mem_append] at hd
      rcases hd with hd | hd
      · exact ih (n / 10) (by omega) d hd
      · simp at hd; omega

theorem digits_lt (n : Nat) : ∀ d ∈ digits n, d < 10 := by
  unfold digits
  split
  · simp
  · exact posDigits_lt n

theorem value_snoc (ds : List Nat) (d : Nat) : value (ds ++ [d]) = value ds * 10 + d := by simp [value]

theorem value_posDigits (n : Nat) : value (posDigits n) = n := by
  induction n using Nat.strongRecOn with
  | _ n ih =>
    rw [posDigits]
    split
    · simp_all [value]
    · rw [value_snoc, ih (n / 10) (by omega)]; omega

theorem value_digits (n : Nat) : value (digits n) = n := by
  unfold digits
  split
  · simp_all [value]
  · exact value_posDigits n

theorem posDigits_length (k n : Nat) (h : n < 10 ^ k) : (posDigits n).length ≤ k := by
  induction k generalizing n with
  | zero => rw [posDigits]; simp_all
  | succ k ih =>
    rw [posDigits]
    split
    · simp
    · have := ih (n / 10) (by rw [Nat.pow_succ] at h; omega)
      simp; omega

theorem digits_length (k n : Nat) (hk : 0 < k) (h : n < 10 ^ k) : (digits n).length ≤ k := by
  unfold digits
  split
  · simp; omega
  · exact posDigits_length k n h

theorem digits_ne_nil (n : Nat) : digits n ≠ [] := by
  unfold digits
  split
  · simp
  · rename_i h; rw [posDigits]; simp [h]

theorem digitChar_isDigit (d : Nat) (h : d < 10) : isDigit (digitChar d) = true := by
  have : d = 0 ∨ d = 1 ∨ d = 2 ∨ d = 3 ∨ d = 4 ∨ d = 5 ∨ d = 6 ∨ d = 7 ∨ d = 8 ∨ d = 9 := by omega
  rcases this with h | h | h | h | h | h | h | h | h | h <;> subst h <;> decide

theorem digitChar_val (d : Nat) (h : d < 10) : (digitChar d).toNat - 48 = d := by
  have : d = 0 ∨ d = 1 ∨ d = 2 ∨ d = 3 ∨ d = 4 ∨ d = 5 ∨ d = 6 ∨ d = 7 ∨ d = 8 ∨ d = 9 := by omega
  rcases this with h | h | h | h | h | h | h | h | h | h <;> subst h <;> decide

theorem takeDigits_stop (m : Nat) (r : Str) (h : headNot isDigit r = true) : takeDigits m r = ([], r) := by
  cases m with
  | zero => rfl
  | succ m =>
    cases r with
    | nil => rfl
    | cons b r => simp_all [takeDigits]

theorem takeDigits_txt (m : Nat) (ds : List Nat) (hd : ∀ d ∈ ds, d < 10) (r : Str) (h : headNot isDigit r = true) :
    takeDigits m (txt ds ++ r) = (ds.take m, txt (ds.drop m) ++ r) := by
  induction ds generalizing m with
  | nil => simp [txt, takeDigits_stop m r h]
  | cons d ds ih =>
    cases m with
    | zero => simp [takeDigits]
    | succ m =>
      have h1 : isDigit (digitChar d) = true := digitChar_isDigit d (hd d (by simp))
      have h2 := ih m fun x hx => hd x (by simp [hx])
      simp only [txt, List.map_cons, List.cons_append, takeDigits, h1, if_true] at *
      rw [h2]
      simp [digitChar_val d (hd d (by simp))]

theorem takeDigits_all (m : Nat) (ds : List Nat) (hd : ∀ d ∈ ds, d < 10) (hl : ds.length ≤ m) (r : Str)
    (h : headNot isDigit r = true) : takeDigits m (txt ds ++ r) = (ds, r) := by
  rw [takeDigits_txt m ds hd r h, List.take_of_length_le hl, List.drop_of_length_le hl]; rfl

/-- After some digits comes another one or the rest. -/
theorem headNot_txt {p : UInt8 → Bool} (hp : ∀ b, isDigit b = true → p b = false) (ds : List Nat) (hd : ∀ d ∈ ds, d < 10)
    (r : Str) (h : headNot p r = true) : headNot p (txt ds ++ r) = true := by
  cases ds with
  | nil => exact h
  | cons d ds => simp [txt, hp _ (digitChar_isDigit d (hd d (by simp)))]

/-- A digit is none of the other characters that the parsers look for. -/
theorem digit_ne {b : UInt8} (h : isDigit b = true) (c : Char) (hc : isDigit (ch c) = false) : b ≠ ch c := by
  intro hb; rw [hb, hc] at h; cases h

theorem takeSign_digit {b : UInt8} (h : isDigit b = true) (s : Str) : takeSign (b :: s) = (false, b :: s) := by
  simp [takeSign, digit_ne h '-' (by decide), digit_ne h '+' (by decide)]

theorem takeSign_txt (ds : List Nat) (hd : ∀ d ∈ ds, d < 10) (hne : ds ≠ []) (r : Str) :
    takeSign (txt ds ++ r) = (false, txt ds ++ r) := by
  cases ds with
  | nil => exact absurd rfl hne
  | cons d ds => exact takeSign_digit (digitChar_isDigit d (hd d (by simp))) _

theorem txt_append_ne (ds : List Nat) (hne : ds ≠ []) (r : Str) : txt ds ++ r ≠ [] := by
  cases ds with
  | nil => exact absurd rfl hne
  | cons d ds => simp [txt]

/-! Inputs that no number begins -/

/-- Characters that begin numbers. -/
def numeric (b : UInt8) : Bool := isDigit b || b == ch '+' || b == ch '-' || b == ch '.'

theorem takeSign_other {s : Str} (h : headNot numeric s = true) : takeSign s = (false, s) := by
  cases s with
  | nil => rfl
  | cons b s =>
    simp only [headNot_cons, numeric, Bool.not_eq_true', Bool.or_eq_false_iff, beq_eq_false_iff_ne] at h
    simp [takeSign, h]

theorem headNot_numeric_digit {s : Str} (h : headNot numeric s = true) : headNot isDigit s = true :=
  headNot_mono h fun b hb => by simp [numeric, hb]

theorem realP_other {s : Str} (q : Bool) (h : headNot numeric s = true) : realP q s = none := by
  have h1 := headNot_numeric_digit h
  have h2 : eat '.' s = none := eat_none (headNot_mono h fun b hb => by simp_all [numeric])
  unfold realP
  split
  · rfl
  · simp [takeSign_other h, takeDigits_stop 20 s h1, h2]

theorem durOneP_other {s : Str} (env : Env) (h : headNot numeric s = true) : durOneP env s = none := by
  simp [durOneP, realP_other false h]

theorem durationP_other {s : Str} (env : Env) (h : headNot numeric s = true) : durationP env s = none := by
  simp [durationP, durOneP_other env h]

theorem uintP_other {s : Str} (bits max min : Nat) (hm : 0 < min) (h : headNot isDigit s = true) :
    uintP bits max min s = none := by
  unfold uintP
  rw [takeDigits_stop max s h]
  simp; omega

theorem fixedP_other {s : Str} (n : Nat) (hn : 0 < n) (h : headNot numeric s = true) : fixedP n s = none := by
  unfold fixedP
  rw [takeSign_other h, takeDigits_stop n s (headNot_numeric_digit h)]
  simp; intro _; omega

theorem ymdhmsP_other {s : Str} (env : Env) (h : headNot numeric s = true) : ymdhmsP env s = none := by
  simp [ymdhmsP, guarded, fixedP_other 4 (by omega) h]

theorem countP_other {s : Str} (h : headNot isDigit s = true) : countP s = none := by
  simp [countP, uintP_other 64 20 1 (by omega) h]

theorem integerP_other {s : Str} (env : Env) (h : headNot numeric s = true) : integerP env s = none := by
  have : int64P env s = none := by
    unfold int64P
    rw [takeSign_other h, takeDigits_stop 19 s (headNot_numeric_digit h)]
    simp
  simp [integerP, this]

theorem v4P_other {s : Str} (h : headNot isDigit s = true) : v4P s = none := by
  simp [v4P, decP, uintP_other 16 3 1 (by omega) h]

/-- `timeP` fails where no number and none of its words begins. -/
theorem timeP_other {s : Str} (env : Env) (h : headNot numeric s = true) (h1 : eat '@' s = none)
    (h2 : kw ['n', 'o', 'w'] s = none) (h3 : kw ['i', 'n'] s = none) : timeP env s = none := by
  simp [timeP, ymdhmsP_other env h, unixP, h1, nowShiftP, h2, inP, h3, agoP, durationP_other env h]

theorem h16_none {s : Str} (h : headNot isXDigit s = true) : h16 s = none := by
  cases s with
  | nil => rfl
  | cons b s => simp_all [h16]

theorem uptoC_none {s : Str} (n : Nat) (h : h16c s = none) : uptoC n s = s := by
  cases n with
  | zero => rfl
  | succ n => simp [uptoC, h16Colon, h]

theorem kw_none {c : Char} {cs : List Char} {s : Str} (h : eat c s = none) : kw (c :: cs) s = none := by
  simp [kw, h]

/-- An IPv6 address begins with a colon, or with hexadecimal digits and a colon. -/
theorem v6P_none {s : Str} (h1 : eat ':' s = none) (h2 : h16c s = none) : v6P s = none := by
  have hu : ∀ n, uptoC n s = s := fun n => uptoC_none n h2
  have hl : ∀ n, eat ':' (leftPart n s) = none := by
    intro n
    simp only [leftPart, hu]
    cases h : h16 s with
    | none => simpa using h1
    | some r =>
      simp only [h16c, h, Option.bind_some] at h2
      simpa using h2
  have hg : ∀ n m f, gapAlt n m f s = none := fun n m f => by simp [gapAlt, kw_none (hl n)]
  have h6 : repC 6 s = none := by simp [repC, h2]
  simp [v6P, hg, h6, kw_none h1]

theorem addrP_none {s : Str} (h1 : eat ':' s = none) (h2 : h16c s = none) (h3 : v4P s = none) : addrP s = none := by
  simp [addrP, h3, v6P_none h1 h2]

theorem netP_none {s : Str} (h : addrP s = none) : netP s = none := by simp [netP, h]

end Verif.DataText
