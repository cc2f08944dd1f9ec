import Verif.Zeek.Spec
import Verif.Zeek.Round
import Verif.Number.Reading
import Verif.DataText.AddrText
import Verif.DataText.LiteralProps
/-!
Lemmas about the texts of single values.
-/
namespace Verif.Zeek
open Verif.Data Verif.DataText Verif.Calendar Verif.Escape
open Verif.DataText.Spec (Digits digitText numeral)
open Verif.Number.Spec (decimalText decimalValue)

/-! ### Numbers -/

theorem numeral_lt {fs : List Nat} (h : ∀ d ∈ fs, d < 10) : numeral fs < 10 ^ fs.length := by
  rw [← value_numeral]; exact value_lt fs h

/-- The number that `real_parser` yields, before the sign. -/
theorem litVal_eq (neg : Bool) {ds fs : List Nat} (hd : numeral ds < 2 ^ 53) (hf : ∀ d ∈ fs, d < 10) (hl : fs.length ≤ 15) :
    litVal ⟨neg, ds, fs⟩ = (if neg then -1 else 1) * rnd ((numeral ds : Rat) + rnd ((numeral fs : Rat) / 10 ^ fs.length)) := by
  have h1 : dbl ds = (numeral ds : Rat) := by rw [dbl_value _ (by rw [value_numeral]; exact hd), value_numeral]
  have h2 : dbl fs = (numeral fs : Rat) := by
    have := numeral_lt hf
    have h3 : 10 ^ fs.length ≤ 10 ^ 15 := Nat.pow_le_pow_right (by omega) hl
    rw [dbl_value _ (by rw [value_numeral]; omega), value_numeral]
  simp only [litVal, h1, h2]
  cases neg <;> simp

theorem frac_bounds {fs : List Nat} (hf : ∀ d ∈ fs, d < 10) : (0 : Rat) ≤ (numeral fs : Rat) / 10 ^ fs.length ∧ (numeral fs : Rat) / 10 ^ fs.length ≤ 1 := by
  have hp : (0 : Rat) < 10 ^ fs.length := by positivity
  refine ⟨div_nonneg (by exact_mod_cast Nat.zero_le _) hp.le, ?_⟩
  rw [div_le_one hp]
  exact_mod_cast (numeral_lt hf).le

/-- Up to the sign, the distance of two numbers. -/
theorem sign_abs (neg : Bool) (a b : Rat) : |(if neg then -1 else 1) * a - (if neg then -1 else 1) * b| = |a - b| := by
  cases neg
  · simp
  · simp only [if_true, neg_mul, one_mul]
    rw [show -a - -b = -(a - b) by ring, abs_neg]

/-- Real numbers are read with a small relative error. -/
theorem real_near (neg : Bool) {ds fs : List Nat} (hd : numeral ds < 2 ^ 52) (hf : ∀ d ∈ fs, d < 10) (hl : fs.length ≤ 15) :
    |litVal ⟨neg, ds, fs⟩ - decimalValue neg ds fs| ≤ |decimalValue neg ds fs| / 2 ^ 51 := by
  obtain ⟨g0, g1⟩ := frac_bounds hf
  rw [litVal_eq neg (by omega) hf hl, decimalValue, sign_abs]
  have habs : |(if neg then (-1 : Rat) else 1) * ((numeral ds : Rat) + (numeral fs : Rat) / 10 ^ fs.length)|
      = (numeral ds : Rat) + (numeral fs : Rat) / 10 ^ fs.length := by
    rw [abs_mul, abs_of_nonneg (add_nonneg (by exact_mod_cast Nat.zero_le _) g0)]
    cases neg <;> simp
  rw [habs]
  have hn : (0 : Rat) ≤ numeral ds := by exact_mod_cast Nat.zero_le _
  generalize (numeral ds : Rat) = n at *
  generalize (numeral fs : Rat) / 10 ^ fs.length = g at *
  have e1 := rnd_all g
  rw [abs_of_nonneg g0] at e1
  generalize rnd g = u at *
  have e2 := rnd_all (n + u)
  generalize rnd (n + u) = r at *
  have hu : |n + u| ≤ n + g + g / 2 ^ 53 := by
    rw [abs_le] at e1 ⊢
    have : g / 2 ^ 53 ≤ g := div_le_self g0 (by norm_num)
    constructor <;> linarith [e1.1, e1.2]
  have e3 : |n + u| / 2 ^ 53 ≤ (n + g + g / 2 ^ 53) / 2 ^ 53 := div_le_div_of_nonneg_right hu (by norm_num)
  have e4 : |r - (n + u)| ≤ (n + g + g / 2 ^ 53) / 2 ^ 53 := le_trans e2 e3
  rw [abs_le] at e1 e4 ⊢
  constructor <;> linarith [e1.1, e1.2, e4.1, e4.2]

/-- Numbers of seconds are read as nanoseconds with an error of less than a microsecond. -/
theorem seconds_near (env : Env) (neg : Bool) {ds fs : List Nat} (hd : numeral ds < 2 ^ 32) (hf : ∀ d ∈ fs, d < 10) (hl : fs.length ≤ 15) :
    |(seconds env ⟨neg, ds, fs⟩ : Rat) - decimalValue neg ds fs * 10 ^ 9| < 1000 := by
  obtain ⟨g0, g1⟩ := frac_bounds hf
  have key : |litVal ⟨neg, ds, fs⟩ - decimalValue neg ds fs| ≤ 478 / 10 ^ 9 ∧ |decimalValue neg ds fs| ≤ 2 ^ 32 := by
    rw [litVal_eq neg (by omega) hf hl, decimalValue, sign_abs]
    have hn : (0 : Rat) ≤ numeral ds := by exact_mod_cast Nat.zero_le _
    have hn2 : (numeral ds : Rat) ≤ 2 ^ 32 - 1 := by
      have : (numeral ds : Rat) + 1 ≤ 2 ^ 32 := by exact_mod_cast hd
      linarith
    have habs : |(if neg then (-1 : Rat) else 1) * ((numeral ds : Rat) + (numeral fs : Rat) / 10 ^ fs.length)|
        = (numeral ds : Rat) + (numeral fs : Rat) / 10 ^ fs.length := by
      rw [abs_mul, abs_of_nonneg (add_nonneg hn g0)]
      cases neg <;> simp
    rw [habs]
    generalize (numeral ds : Rat) = n at *
    generalize (numeral fs : Rat) / 10 ^ fs.length = g at *
    have e1 := rnd_le (x := g) (B := 1) (e := 1 / 10 ^ 15) (by rw [abs_of_nonneg g0]; exact g1) (by norm_num)
    generalize rnd g = u at *
    rw [abs_le] at e1
    have e2 := rnd_le (x := n + u) (B := 2 ^ 32 + 1) (e := 477 / 10 ^ 9) (by
      rw [abs_le]
      constructor
      · linarith [e1.1]
      · linarith [e1.2]) (by norm_num)
    rw [abs_le] at e2 ⊢
    refine ⟨⟨?_, ?_⟩, ?_⟩
    · linarith [e1.1, e1.2, e2.1, e2.2]
    · linarith [e1.1, e1.2, e2.1, e2.2]
    · linarith
  obtain ⟨k1, k2⟩ := key
  unfold seconds
  generalize litVal ⟨neg, ds, fs⟩ = x at *
  generalize decimalValue neg ds fs = v at *
  rw [abs_le] at k1 k2
  have e3 := rnd_le (x := x * 10 ^ 9) (B := 2 ^ 32 * 10 ^ 9 + 478) (e := 478) (by
    rw [abs_le]
    constructor <;> linarith [k1.1, k1.2, k2.1, k2.2]) (by norm_num)
  have e4 := trunc_abs (rnd (x * 10 ^ 9))
  generalize rnd (x * 10 ^ 9) = y at *
  rw [abs_le] at e3
  rw [abs_lt] at e4
  have hr : -(2 ^ 63) ≤ trunc y ∧ trunc y < 2 ^ 63 := by
    have h1 : (-(2 ^ 63) : Rat) ≤ (trunc y : Rat) := by linarith [e3.1, e3.2, e4.1, e4.2, k1.1, k1.2, k2.1, k2.2]
    have h2 : (trunc y : Rat) < 2 ^ 63 := by linarith [e3.1, e3.2, e4.1, e4.2, k1.1, k1.2, k2.1, k2.2]
    constructor
    · exact_mod_cast h1
    · exact_mod_cast h2
  rw [Env.int64, if_pos hr, abs_lt]
  constructor <;> linarith [e3.1, e3.2, e4.1, e4.2, k1.1, k1.2]

/-! ### Strings -/

theorem hex_facts {b : UInt8} {x : Nat} (h : Spec.Hex b x) : Escape.isXdigit b = true ∧ Escape.hexVal b = x ∧ x < 16
    ∧ isXDigit b = true ∧ DataText.hexVal b = x := by
  have key : ∀ b : UInt8, ∀ x : Nat, Spec.Hex b x → Escape.isXdigit b = true ∧ Escape.hexVal b = x ∧ x < 16
      ∧ isXDigit b = true ∧ DataText.hexVal b = x := by
    intro b x h
    rcases h with ⟨h1, h2, rfl⟩ | ⟨h1, h2, rfl⟩ | ⟨h1, h2, rfl⟩
    · have : isDigit b = true := by simp [isDigit, h1, h2]
      refine ⟨by simp [Escape.isXdigit]; omega, by simp [Escape.hexVal]; omega, by omega, by simp [isXDigit, this], by simp [DataText.hexVal, this]⟩
    · have : isDigit b = false := by simp [isDigit]; omega
      refine ⟨by simp [Escape.isXdigit]; omega, ?_, by omega, by simp [isXDigit, this, h1, h2], ?_⟩
      · unfold Escape.hexVal; split
        · omega
        · split <;> omega
      · unfold DataText.hexVal; rw [this]; simp; omega
    · have : isDigit b = false := by simp [isDigit]; omega
      refine ⟨by simp [Escape.isXdigit]; omega, ?_, by omega, by simp [isXDigit, this, h1, h2], ?_⟩
      · unfold Escape.hexVal; split
        · omega
        · split
          · omega
          · split <;> omega
      · unfold DataText.hexVal; rw [this]; simp; omega
  exact key b x h

theorem hexByte_eq {h l : UInt8} {x y : Nat} (hx : Spec.Hex h x) (hy : Spec.Hex l y) : hexByte h l = (x * 16 + y).toUInt8 := by
  obtain ⟨_, a, hx, _⟩ := hex_facts hx
  obtain ⟨_, b, hy, _⟩ := hex_facts hy
  unfold hexByte
  rw [a, b]
  have : ∀ x < 16, ∀ y < 16, (x <<< 4) ||| y = x * 16 + y := by decide
  rw [this x hx y hy]

theorem unescape_run {t s : Str} (h : Spec.Unescapes t s) : ∀ (n : Nat) (acc : Str), t.length ≤ n → Escape.run byteUnescaper n acc t = some (acc ++ s) := by
  induction h with
  | nil => intro n acc _; cases n <;> simp [Escape.run]
  | plain b t s hb _ ih =>
    intro n acc hn
    obtain ⟨k, rfl⟩ : ∃ k, n = k + 1 := ⟨n - 1, by simp at hn; omega⟩
    have : byteUnescaper b t = .ok [b] t := by simp [byteUnescaper, backslash, hb]
    simp only [Escape.run, this]
    rw [ih k _ (by simpa using hn)]
    simp
  | hex h l x y t s hx hy _ ih =>
    intro n acc hn
    obtain ⟨k, rfl⟩ : ∃ k, n = k + 1 := ⟨n - 1, by simp at hn; omega⟩
    have : byteUnescaper 92 (120 :: h :: l :: t) = .ok [(x * 16 + y).toUInt8] t := by
      have h1 := (hex_facts hx).1
      have h2 := (hex_facts hy).1
      simp [byteUnescaper, backslash, hexUnescaper, h1, h2, hexByte_eq hx hy]
    simp only [Escape.run, this]
    rw [ih k _ (by simp at hn; omega)]
    simp
  | quoted b t s hb hl _ ih =>
    intro n acc hn
    obtain ⟨k, rfl⟩ : ∃ k, n = k + 1 := ⟨n - 1, by simp at hn; omega⟩
    have : byteUnescaper 92 (b :: t) = .ok [b] t := by
      have : ¬ t.length + 1 + 1 < 4 := by omega
      simp [byteUnescaper, backslash, hb, this]
    simp only [Escape.run, this]
    rw [ih k _ (by simp at hn; omega)]
    simp

theorem unescape_text {t s : Str} (h : Spec.Unescapes t s) : byteUnescape t = some s := by
  have := unescape_run h t.length [] (Nat.le_refl _)
  simpa [byteUnescape, unescape] using this

/-- Without a separator, a string is the whole text. -/
theorem upTo_all (s : Str) : upTo [] s = (s, []) := by
  induction s with
  | nil => rfl
  | cons b s ih => simp [upTo, ih]

/-- A text up to the separator. -/
theorem upTo_sep (b : UInt8) (sep text r : Str) (h : b ∉ text) (hr : r = [] ∨ (b :: sep) <+: r) : upTo (b :: sep) (text ++ r) = (text, r) := by
  induction text with
  | nil =>
    rcases hr with rfl | hr
    · rfl
    · cases r with
      | nil => rfl
      | cons c r =>
        have : (b :: sep).isPrefixOf (c :: r) = true := List.isPrefixOf_iff_prefix.mpr hr
        simp [upTo, this]
  | cons c t ih =>
    have hc : b ≠ c := fun e => h (by simp [e])
    have : ¬ (b :: sep).isPrefixOf (c :: (t ++ r)) = true := by
      simp [List.isPrefixOf, hc]
    simp only [List.cons_append, upTo]
    rw [if_neg (fun e => this e.2), ih fun e => h (by simp [e])]

/-! ### One value -/

theorem sticky_digit {r : Str} (h : headNot stickyA r = true) : headNot isDigit r = true :=
  headNot_mono h fun b hb => by simp [stickyA, isXDigit, hb]

theorem takeSign_sign {neg : Bool} {p : Str} {ds : List Nat} (hs : Spec.Sign neg p) (hd : Digits ds) (r : Str) :
    takeSign (p ++ (txt ds ++ r)) = (neg, txt ds ++ r) := by
  rcases hs with ⟨rfl, rfl | rfl⟩ | ⟨rfl, rfl⟩
  · exact takeSign_txt ds hd.2 hd.1 r
  · rfl
  · rfl

/-- The text of a value, with something behind it that does not continue it, is read as what it means. -/
theorem one_reads (env : Env) (sep : Str) {t : Ty} {text : Str} {v : Data} (h : Spec.Means1 t text v) (r : Str) (hr : headNot stickyA r = true)
    (hs : t = .string → upTo sep (text ++ r) = (text, r)) : ∃ w, cellP env sep t (text ++ r) = some (w, r) ∧ Spec.Means1 t text w ∧ takes t w = true
      ∧ (t ≠ .real → t ≠ .time → t ≠ .duration → w = v) := by
  have hrd := sticky_digit hr
  cases h with
  | bool b => refine ⟨.bool b, ?_, .bool b, rfl, fun _ _ _ => rfl⟩; cases b <;> rfl
  | int neg p ds i hsg hd hl he h1 h2 =>
    refine ⟨.int i, ?_, .int neg p ds i hsg hd hl he h1 h2, rfl, fun _ _ _ => rfl⟩
    have e := takeDigits_all 19 ds hd.2 hl r hrd
    have e2 := takeSign_sign hsg hd r
    have hne : p ++ (txt ds ++ r) ≠ [] := by
      intro e; simp at e; exact hd.1 (by simpa [txt] using e.2.1)
    rw [List.append_assoc, ← Number.txt_digitText]
    simp only [cellP, via, int64P, e2, e, if_neg hne, hd.1, if_false, Option.map_some, value_numeral, ← he]
    rw [Env.int64, if_pos ⟨h1, h2⟩]
  | count _ ds ht hd hl h1 =>
    refine ⟨.count (numeral ds), ?_, .count _ ds ht hd hl h1, by rcases ht with rfl | rfl <;> rfl, fun _ _ _ => rfl⟩
    have e := takeDigits_all 20 ds hd.2 hl r hrd
    have h2 : 1 ≤ ds.length := List.length_pos_iff.mpr hd.1
    rw [← Number.txt_digitText]
    rcases ht with rfl | rfl <;>
      simp only [cellP, via, uintP, e, if_pos h2, Option.map_some, value_numeral, Nat.mod_eq_of_lt h1]
  | real neg ds fs q hd hf hl hn hlf _ =>
    refine ⟨.real (.fin (litVal ⟨neg, ds, fs⟩)), ?_, .real neg ds fs _ hd hf hl hn hlf (real_near neg hn hf.2 hlf), rfl, fun h _ _ => absurd rfl h⟩
    have e := Number.realP_num hd hf hl (by omega) neg true r hrd
    rw [← Number.decimalText_eq] at e
    simp only [cellP, via, e, Option.map_some]
  | time neg ds fs q hd hf hl hn hlf _ =>
    refine ⟨.time (seconds env ⟨neg, ds, fs⟩), ?_, .time neg ds fs _ hd hf hl hn hlf (seconds_near env neg hn hf.2 hlf), rfl, fun _ h _ => absurd rfl h⟩
    have e := Number.realP_num hd hf hl (by omega) neg true r hrd
    rw [← Number.decimalText_eq] at e
    simp only [cellP, via, e, Option.map_some]
  | duration neg ds fs q hd hf hl hn hlf _ =>
    refine ⟨.duration (seconds env ⟨neg, ds, fs⟩), ?_, .duration neg ds fs _ hd hf hl hn hlf (seconds_near env neg hn hf.2 hlf), rfl, fun _ _ h => absurd rfl h⟩
    have e := Number.realP_num hd hf hl (by omega) neg true r hrd
    rw [← Number.decimalText_eq] at e
    simp only [cellP, via, e, Option.map_some]
  | string _ s hne hu =>
    refine ⟨.string s, ?_, .string text s hne hu, rfl, fun _ _ _ => rfl⟩
    simp only [cellP, stringP, hs rfl, if_neg hne, unescape_text hu, Option.getD_some]
  | addr a =>
    refine ⟨.address a, ?_, .addr a, rfl, fun _ _ _ => rfl⟩
    simp only [cellP, via, addrP_print a r hr, Option.map_some]
  | subnet n hn =>
    refine ⟨.subnet n, ?_, .subnet n hn, rfl, fun _ _ _ => rfl⟩
    simp only [cellP, via, netP_print n hn r hrd, Option.map_some]

/-! ### Lists -/

theorem strip_append (p s : Str) : strip p (p ++ s) = some s := by
  induction p with
  | nil => cases s <;> rfl
  | cons b p ih => simp [strip, ih]

/-- The elements after the first one. -/
def tail (sep : Str) (texts : List Str) : Str := texts.flatMap (sep ++ ·)

theorem joined_cons (sep x : Str) (xs : List Str) : Spec.joined sep (x :: xs) = x ++ tail sep xs := by
  induction xs generalizing x with
  | nil => simp [Spec.joined, tail]
  | cons y ys ih => rw [Spec.joined, ih y]; simp [tail]

theorem moreP_reads (env : Env) (b : UInt8) (sep : Str) (hb : stickyA b = false) {t : Ty} : ∀ (texts : List Str) (vs : List Data),
    (∀ x ∈ texts, b ∉ x) → List.Forall₂ (Spec.Means1 t) texts vs → ∀ n, texts.length ≤ n →
    ∃ ws, moreP (cellP env (b :: sep) t) (b :: sep) n (tail (b :: sep) texts) = (ws, []) ∧ List.Forall₂ (Spec.Means1 t) texts ws
      ∧ ∀ w ∈ ws, takes t w = true
  | [], _, _, _, n, _ => by
    refine ⟨[], ?_, .nil, by simp⟩
    cases n with
    | zero => rfl
    | succ n => simp [moreP, tail, strip]
  | x :: xs, [], _, h, _, _ => by cases h
  | x :: xs, v :: vs, hx, h, n, hn => by
    cases h with
    | cons h1 h2 =>
      obtain ⟨k, rfl⟩ : ∃ k, n = k + 1 := ⟨n - 1, by simp at hn; omega⟩
      obtain ⟨ws, e1, e2, e3⟩ := moreP_reads env b sep hb xs vs (fun y hy => hx y (by simp [hy])) h2 k (by simpa using hn)
      have hr : headNot stickyA (tail (b :: sep) xs) = true := by
        cases xs with
        | nil => rfl
        | cons y ys => simp [tail, headNot, hb]
      obtain ⟨w, c1, c2, c3, _⟩ := one_reads env (b :: sep) h1 (tail (b :: sep) xs) hr (fun _ => by
        apply upTo_sep _ _ _ _ (hx x (by simp))
        cases xs with
        | nil => exact .inl rfl
        | cons y ys => exact .inr ⟨y ++ tail (b :: sep) ys, by simp [tail]⟩)
      refine ⟨w :: ws, ?_, .cons c2 e2, ?_⟩
      · have : tail (b :: sep) (x :: xs) = (b :: sep) ++ (x ++ tail (b :: sep) xs) := by simp [tail]
        rw [this]
        simp only [moreP, strip_append, Option.bind_some, c1, e1]
      · intro y hy
        rcases List.mem_cons.mp hy with rfl | hy
        · exact c3
        · exact e3 y hy

theorem tail_length (b : UInt8) (sep : Str) (texts : List Str) : texts.length ≤ (tail (b :: sep) texts).length := by
  induction texts with
  | nil => simp
  | cons x xs ih =>
    have : tail (b :: sep) (x :: xs) = (b :: sep) ++ (x ++ tail (b :: sep) xs) := by simp [tail]
    rw [this]
    simp only [List.length_cons, List.length_append]
    omega

/-- Separators of elements that do not begin like a part of a number or an address. -/
theorem setSep_head {setSep : Str} (h : ∃ b s, setSep = b :: s ∧ ¬ (48 ≤ b.toNat ∧ b.toNat ≤ 57) ∧ ¬ (65 ≤ b.toNat ∧ b.toNat ≤ 70)
    ∧ ¬ (97 ≤ b.toNat ∧ b.toNat ≤ 102) ∧ b.toNat ≠ 46 ∧ b.toNat ≠ 58) : ∃ b s, setSep = b :: s ∧ stickyA b = false := by
  obtain ⟨b, s, e, h1, h2, h3, h4, h5⟩ := h
  refine ⟨b, s, e, ?_⟩
  have e1 : b ≠ ch ':' := fun e => h5 (by rw [e]; rfl)
  have e2 : b ≠ ch '.' := fun e => h4 (by rw [e]; rfl)
  simp [stickyA, isXDigit, isDigit, e1, e2]
  omega

/-- The text of a column is read as what it means. -/
theorem cell_reads (env : Env) {setSep : Str} (hsep : ∃ b s, setSep = b :: s ∧ stickyA b = false) {t : Ty} {text : Str} {v : Data}
    (h : Spec.Means setSep t text v) : ∃ w, cell env setSep t text = some w ∧ Spec.Means setSep t text w ∧ takes t w = true := by
  cases h with
  | one _ _ _ h =>
    have hnl : inner setSep t = [] := by
      cases h with
      | count _ ds ht => rcases ht with rfl | rfl <;> rfl
      | _ => rfl
    obtain ⟨w, c1, c2, c3, _⟩ := one_reads env [] h [] rfl (fun _ => by rw [List.append_nil]; exact upTo_all text)
    rw [List.append_nil] at c1
    refine ⟨w, ?_, .one _ _ _ c2, c3⟩
    simp only [cell, hnl, c1]
  | list t texts vs hne hw hf =>
    obtain ⟨b, s, rfl, hb⟩ := hsep
    cases hf with
    | nil => exact absurd rfl hne
    | cons h1 h2 =>
      rename_i x v xs vs
      have hx : ∀ y ∈ x :: xs, b ∉ y := fun y hy => hw y hy b rfl
      obtain ⟨ws, e1, e2, e3⟩ := moreP_reads env b s hb xs vs (fun y hy => hx y (by simp [hy])) h2 _ (tail_length b s xs)
      have hr : headNot stickyA (tail (b :: s) xs) = true := by
        cases xs with
        | nil => rfl
        | cons y ys => simp [tail, headNot, hb]
      obtain ⟨w, c1, c2, c3, _⟩ := one_reads env (b :: s) h1 (tail (b :: s) xs) hr (fun _ => by
        apply upTo_sep _ _ _ _ (hx x (by simp))
        cases xs with
        | nil => exact .inl rfl
        | cons y ys => exact .inr ⟨y ++ tail (b :: s) ys, by simp [tail]⟩)
      refine ⟨.list (w :: ws), ?_, .list t _ _ (by simp) hw (.cons c2 e2), ?_⟩
      · rw [joined_cons]
        simp only [cell, inner, cellP, c1, e1]
      · simp only [takes, List.all_eq_true]
        intro y _
        rcases List.mem_cons.mp y.2 with h | h
        · rw [h]; exact c3
        · exact e3 _ h

end Verif.Zeek
