import Verif.Zeek.Reading
import Verif.Escape.Lemmas
/-!
Lemmas about writing.
-/
namespace Verif.Zeek
open Verif.Data Verif.DataText Verif.Calendar Verif.Escape
open Verif.DataText.Spec (Digits digitText numeral)
open Verif.Number.Spec (decimalText decimalValue)

/-! ### Numbers -/

theorem rnd_neg (x : Rat) : rnd (-x) = -rnd x := by
  unfold rnd
  by_cases h : x < 0
  · have : ¬ (-x < 0) := by linarith
    simp [h, this]
  · by_cases h0 : x = 0
    · subst h0; simp [rndPos]
    · have h1 : -x < 0 := by
        have := lt_of_le_of_ne (not_lt.mp h) (Ne.symm h0)
        linarith
      rw [if_pos h1, if_neg h, neg_neg]

theorem numeral_zeros_end (fs : List Nat) (k : Nat) : (numeral (fs ++ List.replicate k 0) : Rat) / 10 ^ (fs ++ List.replicate k 0).length
    = (numeral fs : Rat) / 10 ^ fs.length := by
  have e : numeral (fs ++ List.replicate k 0) = numeral fs * 10 ^ k := by
    induction k with
    | zero => simp
    | succ k ih =>
      rw [List.replicate_succ', ← List.append_assoc, ← value_numeral, value, List.foldl_append, ← value, value_numeral, ih]
      simp only [List.foldl_cons, List.foldl_nil]
      rw [Nat.pow_succ]; ring
  rw [e, List.length_append, List.length_replicate, pow_add]
  push_cast
  rw [mul_div_mul_right]
  positivity

/-- The text of a real number that is not negative. -/
theorem realAbs_text {x : Rat} (h0 : 0 ≤ x) (hx : x < 2 ^ 64) (hf : x - x.floor ≤ 1 - 6 / 10 ^ 7) : ∃ fs,
    realAbs x = some (digitText (digits x.floor.toNat) ++ [46] ++ digitText fs) ∧ Digits fs ∧ fs.length ≤ 15
    ∧ |((x.floor.toNat : Nat) : Rat) + (numeral fs : Rat) / 10 ^ fs.length - x| ≤ 501 / 10 ^ 9 := by
  obtain ⟨b1, b2⟩ := Number.right_bounds 6 (by omega) h0
  obtain ⟨f0, f1, f2⟩ := Number.floor_nonneg h0
  have hr : Number.right 6 x < 10 ^ 6 := by
    have : (Number.right 6 x : Rat) < 10 ^ 6 := by
      have : (x - x.floor) * 10 ^ 6 ≤ 10 ^ 6 - 6 / 10 := by linarith
      have e : (1 / 2 + 1 / 2 ^ 19 : Rat) < 6 / 10 := by norm_num
      linarith
    exact_mod_cast this
  obtain ⟨fs, e, d, l, _, v⟩ := Number.fraction_text 6 (Number.right 6 x) (by omega) hr
  have hz : ∀ n, List.replicate n (ch '0') = digitText (List.replicate n 0) := by
    intro n; rw [← Number.txt_digitText]; simp [txt]; right; rfl
  have hlen : 1 ≤ (printNat (Number.chop 7 (Number.right 6 x))).length := by
    rw [printNat_eq, txt, List.length_map]
    exact List.length_pos_iff.mpr (digits_ne_nil _)
  refine ⟨fs ++ List.replicate (6 - (printNat (Number.chop 7 (Number.right 6 x))).length) 0, ?_, ⟨by simp [d.1], ?_⟩, ?_, ?_⟩
  · simp only [realAbs, if_pos hx, fill]
    rw [← List.append_assoc (List.replicate _ _), e, hz, printNat_eq, Number.txt_digitText]
    simp [digitText]
    rfl
  · intro x hx
    rcases List.mem_append.mp hx with h | h
    · exact d.2 x h
    · rw [List.eq_of_mem_replicate h]; omega
  · simp only [List.length_append, List.length_replicate]; omega
  · rw [numeral_zeros_end, v, f0, abs_le]
    have e3 : (1 / 2 + 1 / 2 ^ 19 : Rat) ≤ 501 / 1000 := by norm_num
    have e4 : (Number.right 6 x : Rat) / 10 ^ 6 * 10 ^ 6 = Number.right 6 x := by field_simp
    constructor <;> linarith

theorem floor_small {x : Rat} {N : Nat} (h0 : 0 ≤ x) (h : x < N) : x.floor.toNat < N := by
  obtain ⟨f0, f1, f2⟩ := Number.floor_nonneg h0
  have : ((x.floor.toNat : Nat) : Rat) < N := by rw [f0]; linarith
  exact_mod_cast this

theorem digits_len {n : Nat} (h : n < 2 ^ 64) : (digits n).length ≤ 20 := digits_length 20 n (by omega) (by omega)

/-- The text of a real number. -/
theorem real_text {q : Rat} (hq : |q| < 2 ^ 52) (hf : |q| - |q|.floor ≤ 1 - 6 / 10 ^ 7) : ∃ neg ds fs, printReal (.fin q) = some (decimalText neg ds fs)
    ∧ Digits ds ∧ Digits fs ∧ ds.length ≤ 20 ∧ numeral ds = |q|.floor.toNat ∧ fs.length ≤ 15 ∧ |decimalValue neg ds fs - q| ≤ 501 / 10 ^ 9 := by
  have h64 : |q| < 2 ^ 64 := lt_trans hq (by norm_num)
  obtain ⟨fs, e1, e2, e3, e4⟩ := realAbs_text (abs_nonneg q) h64 hf
  have hn := floor_small (N := 2 ^ 52) (abs_nonneg q) (by exact_mod_cast hq)
  have hlen := digits_len (n := |q|.floor.toNat) (by omega)
  by_cases h : q < 0
  · have ea : |q| = -q := abs_of_neg h
    refine ⟨true, digits |q|.floor.toNat, fs, ?_, Number.digits_ok _, e2, hlen, Number.numeral_digits _, e3, ?_⟩
    · simp only [printReal, if_pos h]
      rw [← ea, e1]
      simp [decimalText, ch]
    · rw [decimalValue, Number.numeral_digits]
      rw [ea] at e4 ⊢
      rw [abs_le] at e4 ⊢
      simp only [if_true]
      constructor <;> linarith [e4.1, e4.2]
  · have ea : |q| = q := abs_of_nonneg (not_lt.mp h)
    refine ⟨false, digits |q|.floor.toNat, fs, ?_, Number.digits_ok _, e2, hlen, Number.numeral_digits _, e3, ?_⟩
    · simp only [printReal, if_neg h]
      rw [← ea, e1]
      simp [decimalText]
    · rw [decimalValue, Number.numeral_digits]
      rw [ea] at e4 ⊢
      simpa using e4

/-- Seconds of a number of nanoseconds that is not negative. -/
theorem toSeconds_near (n : Nat) (hn : n < (2 ^ 32 - 2) * 10 ^ 9) (hi : n % 10 ^ 9 = 0 ∨ (2000 ≤ n % 10 ^ 9 ∧ n % 10 ^ 9 ≤ 999998000)) :
    0 ≤ toSeconds n ∧ |toSeconds n * 10 ^ 9 - n| ≤ 954 ∧ toSeconds n < 2 ^ 32 - 1 ∧ toSeconds n - (toSeconds n).floor ≤ 1 - 6 / 10 ^ 7 := by
  have hd := Nat.div_add_mod n (10 ^ 9)
  generalize n / 10 ^ 9 = k at hd
  generalize n % 10 ^ 9 = m at hd hi
  have hk : k < 2 ^ 32 - 2 := by omega
  rcases hi with hi | ⟨hi1, hi2⟩
  · -- exact
    have e1 : rnd ((n : Int) : Rat) = n := by
      have := rnd_nat (k * 5 ^ 9) 9 (by omega)
      have e : k * 5 ^ 9 * 2 ^ 9 = n := by omega
      rw [e] at this
      exact_mod_cast this
    have e2 : (n : Rat) / 10 ^ 9 = (k : Nat) := by
      rw [div_eq_iff (by norm_num)]
      have : n = k * 10 ^ 9 := by omega
      exact_mod_cast this
    have e3 : toSeconds n = (k : Nat) := by
      rw [toSeconds, e1, e2]
      exact rnd_small _ (by omega)
    have e4 : ((k : Nat) : Rat) * 10 ^ 9 = n := by rw [← e2]; field_simp
    rw [e3]
    refine ⟨by exact_mod_cast Nat.zero_le _, ?_, ?_, ?_⟩
    · rw [e4]; simp
    · have : ((k : Nat) : Rat) < (2 ^ 32 - 2 : Nat) := by exact_mod_cast hk
      refine lt_trans this ?_
      norm_num
    · have : ((k : Rat)).floor = (k : Nat) := by
        have := Rat.floor_intCast (k : Nat)
        exact_mod_cast this
      rw [this]
      norm_num
  · have hnr : (n : Rat) ≤ (2 ^ 32 - 2) * 10 ^ 9 := by
      have : (n : Rat) ≤ ((2 ^ 32 - 2) * 10 ^ 9 : Nat) := by exact_mod_cast hn.le
      refine le_trans this ?_
      norm_num
    have hn0 : (0 : Rat) ≤ n := by exact_mod_cast Nat.zero_le n
    have e1 := rnd_le (x := (n : Rat)) (B := (2 ^ 32 - 2) * 10 ^ 9) (e := 477) (by rw [abs_of_nonneg hn0]; exact hnr) (by norm_num)
    have hts : toSeconds n = rnd (rnd (n : Rat) / 10 ^ 9) := by rw [toSeconds]; norm_cast
    rw [hts]
    clear hts
    generalize rnd (n : Rat) = y at *
    rw [abs_le] at e1
    have ey : y / 10 ^ 9 * 10 ^ 9 = y := by field_simp
    have e2 := rnd_le (x := y / 10 ^ 9) (B := 2 ^ 32) (e := 477 / 10 ^ 9) (by
      rw [abs_le]
      constructor <;> linarith [e1.1, e1.2]) (by norm_num)
    generalize y / 10 ^ 9 = z at *
    generalize rnd z = x at *
    rw [abs_le] at e2
    have hm : (n : Rat) = 10 ^ 9 * (k : Rat) + (m : Rat) := by exact_mod_cast hd.symm
    have m1 : (2000 : Rat) ≤ m := by exact_mod_cast hi1
    have m2 : (m : Rat) ≤ 999998000 := by exact_mod_cast hi2
    have k0 : (0 : Rat) ≤ k := by exact_mod_cast Nat.zero_le _
    have k1 : (k : Rat) ≤ 2 ^ 32 - 3 := by
      have : (k : Rat) ≤ (2 ^ 32 - 3 : Nat) := by exact_mod_cast (by omega : k ≤ 2 ^ 32 - 3)
      refine le_trans this ?_
      norm_num
    clear hd hk hi1 hi2 hn
    obtain ⟨e11, e12⟩ := e1
    obtain ⟨e21, e22⟩ := e2
    have hx1 : (k : Rat) ≤ x := by linarith
    have hx2 : x < (k : Rat) + 1 - 6 / 10 ^ 7 := by linarith
    have hfl : x.floor = (k : Int) := by
      apply le_antisymm
      · have h1 := Rat.floor_le x
        have : (x.floor : Rat) < ((k : Int) : Rat) + 1 := by
          rw [Int.cast_natCast]
          linarith
        have : x.floor < (k : Int) + 1 := by exact_mod_cast this
        omega
      · rw [Rat.le_floor_iff]
        exact_mod_cast hx1
    refine ⟨by linarith, ?_, by linarith, ?_⟩
    · rw [abs_le]; constructor <;> linarith
    · rw [hfl, Int.cast_natCast]; linarith

theorem toSeconds_neg (t : Int) : toSeconds (-t) = -toSeconds t := by
  simp only [toSeconds]
  rw [← rnd_neg, Int.cast_neg, rnd_neg]
  congr 1
  ring

/-- The text of a number of nanoseconds. -/
theorem seconds_text {t : Int} (ht : t.natAbs < (2 ^ 32 - 2) * 10 ^ 9) (hi : Spec.InSecond t) : ∃ neg ds fs,
    printReal (.fin (toSeconds t)) = some (decimalText neg ds fs) ∧ Digits ds ∧ Digits fs ∧ ds.length ≤ 20 ∧ numeral ds < 2 ^ 32 ∧ fs.length ≤ 15
    ∧ |decimalValue neg ds fs * 10 ^ 9 - t| ≤ 1455 := by
  obtain ⟨h0, h1, h2, h3⟩ := toSeconds_near t.natAbs ht hi
  have habs : |toSeconds t| = toSeconds (t.natAbs : Int) ∧ |toSeconds t * 10 ^ 9 - t| ≤ 954 := by
    rcases Int.natAbs_eq t with e | e
    · have e' : ((t.natAbs : Nat) : Int) = t := e.symm
      rw [e'] at h0 h1 h2 h3 ⊢
      refine ⟨abs_of_nonneg h0, ?_⟩
      have : ((t.natAbs : Nat) : Rat) = t := by rw [← Int.cast_natCast, e']
      rw [this] at h1
      exact h1
    · have e1 : toSeconds t = -toSeconds (t.natAbs : Int) := by rw [← toSeconds_neg, ← e]
      refine ⟨by rw [e1, abs_neg, abs_of_nonneg h0], ?_⟩
      have : (t : Rat) = -((t.natAbs : Nat) : Rat) := by
        rw [← Int.cast_natCast, ← Int.cast_neg, ← e]
      rw [e1, this]
      rw [abs_le] at h1 ⊢
      constructor <;> linarith [h1.1, h1.2]
  obtain ⟨ha, hb⟩ := habs
  rw [← ha] at h0 h2 h3
  obtain ⟨neg, ds, fs, e1, e2, e3, e4, e5, e6, e7⟩ := real_text (lt_trans h2 (by norm_num)) h3
  refine ⟨neg, ds, fs, e1, e2, e3, e4, ?_, e6, ?_⟩
  · rw [e5]
    exact floor_small h0 (lt_trans h2 (by norm_num))
  · rw [abs_le] at hb e7 ⊢
    constructor <;> linarith [hb.1, hb.2, e7.1, e7.2]

/-! ### Characters -/

/-- Characters of numbers and addresses. -/
def Bland (s : Str) : Prop := ∀ b ∈ s, 43 ≤ b.toNat ∧ b.toNat ≤ 122 ∧ b.toNat ≠ 44 ∧ b.toNat ≠ 92

theorem bland_append {a b : Str} (ha : Bland a) (hb : Bland b) : Bland (a ++ b) := by
  intro x hx
  rcases List.mem_append.mp hx with h | h
  · exact ha x h
  · exact hb x h

theorem bland_cons {a : UInt8} {b : Str} (ha : 43 ≤ a.toNat ∧ a.toNat ≤ 122 ∧ a.toNat ≠ 44 ∧ a.toNat ≠ 92) (hb : Bland b) : Bland (a :: b) := by
  intro x hx
  rcases List.mem_cons.mp hx with h | h
  · exact h ▸ ha
  · exact hb x h

theorem bland_nil : Bland [] := by intro x hx; simp at hx

theorem bland_txt {ds : List Nat} (h : ∀ d ∈ ds, d < 10) : Bland (txt ds) := by
  intro x hx
  obtain ⟨d, hd, rfl⟩ := List.mem_map.mp hx
  have : ∀ d, d < 10 → 43 ≤ (digitChar d).toNat ∧ (digitChar d).toNat ≤ 122 ∧ (digitChar d).toNat ≠ 44 ∧ (digitChar d).toNat ≠ 92 := by decide
  exact this d (h d hd)

theorem bland_printNat (n : Nat) : Bland (printNat n) := by rw [printNat_eq]; exact bland_txt (digits_lt n)

theorem bland_join {sep : Str} (hs : Bland sep) : ∀ {ts : List Str}, (∀ t ∈ ts, Bland t) → Bland (DataText.join sep ts)
  | [], _ => bland_nil
  | [t], h => h t (by simp)
  | t :: u :: ts, h => bland_append (bland_append (h t (by simp)) hs) (bland_join hs fun x hx => h x (by simp only [List.mem_cons] at hx ⊢; exact .inr hx))

theorem bland_printHex (n : Nat) (h : n < 65536) : Bland (printHex n) := by
  have hx : ∀ d, d < 16 → 43 ≤ (hexLower d).toNat ∧ (hexLower d).toNat ≤ 122 ∧ (hexLower d).toNat ≠ 44 ∧ (hexLower d).toNat ≠ 92 := by decide
  unfold printHex
  repeat' split
  · exact bland_cons (hx _ (by omega)) bland_nil
  · exact bland_cons (hx _ (by omega)) (bland_cons (hx _ (by omega)) bland_nil)
  · exact bland_cons (hx _ (by omega)) (bland_cons (hx _ (by omega)) (bland_cons (hx _ (by omega)) bland_nil))
  · exact bland_cons (hx _ (by omega)) (bland_cons (hx _ (by omega)) (bland_cons (hx _ (by omega)) (bland_cons (hx _ (by omega)) bland_nil)))

theorem bland_ntop4 (bs : List Nat) : Bland (ntop4 bs) := by
  refine bland_join (by intro b hb; simp at hb; subst hb; decide) ?_
  intro t ht
  obtain ⟨n, _, rfl⟩ := List.mem_map.mp ht
  exact bland_printNat n

theorem words_lt : ∀ {bs : List Nat}, (∀ b ∈ bs, b < 256) → ∀ w ∈ wordsOf bs, w < 65536
  | a :: b :: r, h, w, hw => by
    simp only [wordsOf, List.mem_cons] at hw
    rcases hw with rfl | hw
    · have := h a (by simp); have := h b (by simp); omega
    · exact words_lt (fun x hx => h x (by simp [hx])) w hw
  | [], _, w, hw => by simp [wordsOf] at hw
  | [_], _, w, hw => by simp [wordsOf] at hw

theorem bland_ntop6 (bs : List Nat) (h : ∀ b ∈ bs, b < 256) : Bland (ntop6 bs) := by
  have hc : Bland [ch ':'] := by intro b hb; simp at hb; subst hb; decide
  have hcc : Bland [ch ':', ch ':'] := by intro b hb; simp at hb; subst hb; decide
  have hw : ∀ ws : List Nat, (∀ w ∈ ws, w ∈ wordsOf bs) → Bland (DataText.join [ch ':'] (ws.map printHex)) := by
    intro ws hws
    refine bland_join hc ?_
    intro t ht
    obtain ⟨n, hn, rfl⟩ := List.mem_map.mp ht
    exact bland_printHex n (words_lt h n (hws n hn))
  unfold ntop6
  split
  · exact hw _ fun w h => h
  split
  · exact bland_append hcc (bland_ntop4 _)
  split
  · exact bland_append (bland_append (bland_append hcc (bland_printHex _ (by omega))) hc) (bland_ntop4 _)
  · exact bland_append (bland_append (hw _ fun w h => List.mem_of_mem_take h) hcc) (hw _ fun w h => List.mem_of_mem_drop h)

theorem bland_printAddr (a : Address.Address) : Bland (printAddr a) := by
  unfold printAddr
  split
  · exact bland_ntop4 _
  · refine bland_ntop6 _ ?_
    intro b hb
    simp only [addrBytes, List.mem_map] at hb
    obtain ⟨x, _, rfl⟩ := hb
    exact x.isLt

theorem bland_printNet (n : Address.Subnet) : Bland (printNet n) :=
  bland_append (bland_append (bland_printAddr _) (by intro b hb; simp at hb; subst hb; decide)) (bland_printNat _)

theorem bland_decimal (neg : Bool) {ds fs : List Nat} (hd : Digits ds) (hf : Digits fs) : Bland (decimalText neg ds fs) := by
  unfold decimalText
  rw [← Number.txt_digitText, ← Number.txt_digitText]
  refine bland_append (bland_append (bland_append ?_ (bland_txt hd.2)) (by intro b hb; simp at hb; subst hb; decide)) (bland_txt hf.2)
  cases neg
  · exact bland_nil
  · intro b hb; simp at hb; subst hb; decide

/-! ### Strings -/

theorem escape_facts (b : UInt8) (h : b ≠ 92) : (escapeChar b = [b] ∧ b ≠ 9 ∧ b ≠ 44) ∨
    ∃ hi lo x y, escapeChar b = [92, 120, hi, lo] ∧ Spec.Hex hi x ∧ Spec.Hex lo y ∧ (x * 16 + y).toUInt8 = b ∧ hi ≠ 9 ∧ hi ≠ 44 ∧ lo ≠ 9 ∧ lo ≠ 44 := by
  by_cases hc : Escape.isCntrl b ∨ b = 9 ∨ b = ch ','
  · right
    have key : ∀ b : UInt8, ∃ x, x < 16 ∧ ∃ y, y < 16 ∧ Spec.Hex (hexHi b) x ∧ Spec.Hex (hexLo b) y ∧ (x * 16 + y).toUInt8 = b
        ∧ hexHi b ≠ 9 ∧ hexHi b ≠ 44 ∧ hexLo b ≠ 9 ∧ hexLo b ≠ 44 := by
      intro b
      have hb := b.toNat_lt
      have hh : ∀ n, n < 16 → Spec.Hex (hexAlphabet.getD n 0) n ∧ hexAlphabet.getD n 0 ≠ 9 ∧ hexAlphabet.getD n 0 ≠ 44 := by
        unfold Spec.Hex; decide
      have e1 : (b.toNat >>> 4) &&& 0x0f = b.toNat / 16 := by
        rw [Nat.shiftRight_eq_div_pow, show (0x0f : Nat) = 2 ^ 4 - 1 from rfl, Nat.and_two_pow_sub_one_eq_mod]
        omega
      have e2 : b.toNat &&& 0x0f = b.toNat % 16 := by
        rw [show (0x0f : Nat) = 2 ^ 4 - 1 from rfl, Nat.and_two_pow_sub_one_eq_mod]
      refine ⟨b.toNat / 16, by omega, b.toNat % 16, by omega, ?_, ?_, ?_, ?_⟩
      · rw [hexHi, e1]; exact (hh _ (by omega)).1
      · rw [hexLo, e2]; exact (hh _ (by omega)).1
      · have : b.toNat / 16 * 16 + b.toNat % 16 = b.toNat := by omega
        rw [this]; simp
      · rw [hexHi, e1, hexLo, e2]
        exact ⟨(hh _ (by omega)).2.1, (hh _ (by omega)).2.2, (hh _ (by omega)).2.1, (hh _ (by omega)).2.2⟩
    obtain ⟨x, _, y, _, h1, h2, h3, h4⟩ := key b
    exact ⟨hexHi b, hexLo b, x, y, by rw [escapeChar, if_pos hc]; rfl, h1, h2, h3, h4⟩
  · left
    refine ⟨by simp [escapeChar, hc], fun e => hc (.inr (.inl e)), fun e => hc (.inr (.inr (by rw [e]; rfl)))⟩

/-- A string without backslashes is escaped so that it can be read. -/
theorem escape_text : ∀ (s : Str), 92 ∉ s → Spec.Unescapes (s.flatMap escapeChar) s ∧ 9 ∉ s.flatMap escapeChar ∧ 44 ∉ s.flatMap escapeChar
  | [], _ => ⟨.nil, by simp, by simp⟩
  | b :: s, h => by
    obtain ⟨h1, h2, h3⟩ := escape_text s fun e => h (by simp [e])
    have hb : b ≠ 92 := fun e => h (by simp [e])
    rw [List.flatMap_cons]
    rcases escape_facts b hb with ⟨e, n1, n2⟩ | ⟨hi, lo, x, y, e, g1, g2, g3, n⟩
    · rw [e]
      exact ⟨.plain b _ _ hb h1, by simp [h2, Ne.symm n1], by simp [h3, Ne.symm n2]⟩
    · rw [e]
      refine ⟨?_, ?_, ?_⟩
      · have := Spec.Unescapes.hex hi lo x y _ _ g1 g2 h1
        rw [g3] at this
        exact this
      · simp only [List.cons_append, List.nil_append, List.mem_cons, h2, or_false, not_or]
        exact ⟨by decide, by decide, Ne.symm n.1, Ne.symm n.2.2.1⟩
      · simp only [List.cons_append, List.nil_append, List.mem_cons, h3, or_false, not_or]
        exact ⟨by decide, by decide, Ne.symm n.2.1, Ne.symm n.2.2.2⟩

theorem escape_head {s : Str} (h : s ≠ []) (h92 : 92 ∉ s) : s.flatMap escapeChar ≠ []
    ∧ ((s.flatMap escapeChar).head? = some 35 → s.head? = some 35) := by
  cases s with
  | nil => exact absurd rfl h
  | cons b s =>
    rw [List.flatMap_cons]
    rcases escape_facts b (fun e => h92 (by simp [e])) with ⟨e, _⟩ | ⟨hi, lo, x, y, e, _⟩ <;> rw [e] <;> simp

theorem escape_inj {s : Str} (h92 : 92 ∉ s) {t : Str} (ht : 92 ∉ t) (h : s.flatMap escapeChar = t) : s = t := by
  induction s generalizing t with
  | nil => simpa using h
  | cons b s ih =>
    rw [List.flatMap_cons] at h
    rcases escape_facts b (fun e => h92 (by simp [e])) with ⟨e, _⟩ | ⟨hi, lo, x, y, e, _⟩
    · rw [e] at h
      subst h
      have := ih (fun e => h92 (by simp [e])) (t := s.flatMap escapeChar) (fun e => ht (by simp [e])) rfl
      rw [List.singleton_append, ← this]
    · rw [e] at h
      subst h
      simp at ht

/-! ### One value -/

/-- A value, its text, and what is read for it. -/
structure Back1 (env : Env) (t : Ty) (v : Data) (text : Str) (w : Data) : Prop where
  print : printCell v = some text
  ne : text ≠ []
  noTab : 9 ∉ text
  noComma : 44 ∉ text
  hash : text.head? = some 35 → ∃ s, v = .string (35 :: s)
  word : ∀ u : Str, u = str "-" ∨ u = str "(empty)" → text = u → v = .string u
  takes : takes t w = true
  near : Spec.Near1 v w
  read : ∀ sep r, headNot stickyA r = true → (sep = [] ∧ r = [] ∨ sep = [44] ∧ (r = [] ∨ [44] <+: r)) → cellP env sep t (text ++ r) = some (w, r)

theorem bland_back {text : Str} (h : Bland text) : 9 ∉ text ∧ 44 ∉ text ∧ text.head? ≠ some 35 ∧ text ≠ str "(empty)" := by
  refine ⟨fun e => absurd (h 9 e).1 (by decide), fun e => absurd (h 44 e).2.2.1 (by decide), ?_, ?_⟩
  · intro e
    cases text with
    | nil => simp at e
    | cons b t =>
      simp at e
      subst e
      exact absurd (h 35 (by simp)).1 (by decide)
  · intro e
    subst e
    exact absurd (h 40 (by decide)).1 (by decide)

theorem back_of (env : Env) {t : Ty} {v w : Data} {text : Str} (hp : printCell v = some text) (hb : Bland text) (hne : text ≠ []) (hd : text ≠ str "-")
    (ht : takes t w = true) (hn : Spec.Near1 v w) (hr : ∀ sep r, headNot stickyA r = true → cellP env sep t (text ++ r) = some (w, r)) : Back1 env t v text w := by
  obtain ⟨h1, h2, h3, h4⟩ := bland_back hb
  refine ⟨hp, hne, h1, h2, fun h => absurd h h3, ?_, ht, hn, fun sep r h _ => hr sep r h⟩
  intro u hu e
  rcases hu with rfl | rfl
  · exact absurd e hd
  · exact absurd e h4

/-- Values of exact kinds. -/
theorem back_exact (env : Env) {t : Ty} {v : Data} {text : Str} (hp : printCell v = some text) (hb : Bland text) (hne : text ≠ []) (hd : text ≠ str "-")
    (hm : Spec.Means1 t text v) (h1 : t ≠ .real) (h2 : t ≠ .time) (h3 : t ≠ .duration) (h4 : t ≠ .string) : Back1 env t v text v := by
  refine back_of env hp hb hne hd ?_ (.same v) ?_
  · obtain ⟨w, _, _, ht, hw⟩ := one_reads env [] hm [] rfl (fun e => absurd e h4)
    rw [hw h1 h2 h3] at ht
    exact ht
  · intro sep r hr
    obtain ⟨w, e, _, ht, hw⟩ := one_reads env sep hm r hr (fun e => absurd e h4)
    rw [hw h1 h2 h3] at e
    exact e

theorem dash_len {text : Str} (h : 2 ≤ text.length) : text ≠ str "-" := fun e => by rw [e] at h; exact absurd h (by decide)

theorem decimal_len (neg : Bool) {ds fs : List Nat} (hd : Digits ds) (hf : Digits fs) : 2 ≤ (decimalText neg ds fs).length := by
  have := List.length_pos_iff.mpr hd.1
  have := List.length_pos_iff.mpr hf.1
  simp [decimalText, digitText]
  omega

theorem back1 (env : Env) {t : Ty} {v : Data} (h : Spec.Writable1 t v) : ∃ text w, Back1 env t v text w := by
  cases h with
  | bool b =>
    refine ⟨[if b then ch 'T' else ch 'F'], .bool b, back_exact env rfl ?_ (by simp) (by cases b <;> decide) (by cases b <;> exact .bool _) (by simp) (by simp) (by simp) (by simp)⟩
    cases b <;> (intro x hx; simp at hx; subst hx; decide)
  | int i h1 h2 =>
    have hl : (digits i.natAbs).length ≤ 19 := digits_length 19 _ (by omega) (by omega)
    have hpos := List.length_pos_iff.mpr (digits_ne_nil i.natAbs)
    by_cases hi : i < 0
    · have hp : printCell (.int i) = some (ch '-' :: printNat i.natAbs) := by
        rw [printCell, printInt, if_neg (by omega)]
        simp [hi]
      refine ⟨_, _, back_exact env hp (bland_cons (by decide) (bland_printNat _)) (by simp) (dash_len ?_) ?_ (by simp) (by simp) (by simp) (by simp)⟩
      · rw [printNat_eq]; simp [txt]; omega
      · have := Spec.Means1.int true [45] (digits i.natAbs) i (.inr ⟨rfl, rfl⟩) (Number.digits_ok _) hl (by rw [Number.numeral_digits, if_pos rfl]; omega) (by omega) h2
        rw [printNat_eq, Number.txt_digitText]
        exact this
    · have hp : printCell (.int i) = some (ch '+' :: printNat i.natAbs) := by
        rw [printCell, printInt, if_neg (by omega)]
        simp [hi]
      refine ⟨_, _, back_exact env hp (bland_cons (by decide) (bland_printNat _)) (by simp) (dash_len ?_) ?_ (by simp) (by simp) (by simp) (by simp)⟩
      · rw [printNat_eq]; simp [txt]; omega
      · have := Spec.Means1.int false [43] (digits i.natAbs) i (.inl ⟨rfl, .inr rfl⟩) (Number.digits_ok _) hl (by rw [Number.numeral_digits, if_neg (by simp)]; omega) (by omega) h2
        rw [printNat_eq, Number.txt_digitText]
        exact this
  | count _ n ht hn =>
    have hm : Spec.Means1 t (printNat n) (.count n) := by
      have := Spec.Means1.count t (digits n) ht (Number.digits_ok n) (digits_len hn) (by rw [Number.numeral_digits]; exact hn)
      rw [Number.numeral_digits] at this
      rw [printNat_eq, Number.txt_digitText]
      exact this
    have hne : printNat n ≠ [] := by rw [printNat_eq]; simpa [txt] using digits_ne_nil n
    have hd : printNat n ≠ str "-" := by
      intro e
      rw [printNat_eq] at e
      have : ch '-' ∈ txt (digits n) := by rw [e]; decide
      exact txt_absent _ (digits_lt n) '-' (by decide) this
    refine ⟨printNat n, .count n, back_exact env rfl (bland_printNat n) hne hd hm ?_ ?_ ?_ ?_⟩ <;> rcases ht with rfl | rfl <;> simp
  | real q hq hf =>
    obtain ⟨neg, ds, fs, e1, e2, e3, e4, e5, e6, e7⟩ := real_text hq (le_trans hf (by norm_num))
    have hn52 : numeral ds < 2 ^ 52 := by rw [e5]; exact floor_small (abs_nonneg q) (by exact_mod_cast hq)
    refine ⟨_, .real (.fin (litVal ⟨neg, ds, fs⟩)), back_of env (v := .real (.fin q)) e1 (bland_decimal neg e2 e3) ?_ (dash_len (decimal_len neg e2 e3)) rfl ?_ ?_⟩
    · intro e; have := decimal_len neg e2 e3; rw [e] at this; simp at this
    · refine .real q _ ?_
      have := real_near neg hn52 e3.2 e6
      generalize litVal ⟨neg, ds, fs⟩ = w at *
      generalize decimalValue neg ds fs = d at *
      have hd : |d| ≤ |q| + 501 / 10 ^ 9 := by
        have := abs_sub_abs_le_abs_sub d q
        linarith
      have h3 : |d| / 2 ^ 51 ≤ (|q| + 501 / 10 ^ 9) / 2 ^ 51 := div_le_div_of_nonneg_right hd (by norm_num)
      have h4 : |w - q| ≤ |w - d| + |d - q| := by
        have := abs_add_le (w - d) (d - q)
        have e : w - d + (d - q) = w - q := by ring
        rwa [e] at this
      have h5 : (|q| + 501 / 10 ^ 9) / 2 ^ 51 = |q| / 2 ^ 51 + 501 / 10 ^ 9 / 2 ^ 51 := by ring
      have h6 : (501 / 10 ^ 9 / 2 ^ 51 : Rat) ≤ 1 / 10 ^ 9 := by norm_num
      linarith
    · intro sep r hr
      have e := Number.realP_num e2 e3 e4 (by omega) neg true r (sticky_digit hr)
      rw [← Number.decimalText_eq] at e
      simp only [cellP, via, e, Option.map_some]
  | time n hn hi =>
    obtain ⟨neg, ds, fs, e1, e2, e3, e4, e5, e6, e7⟩ := seconds_text hn hi
    refine ⟨_, .time (seconds env ⟨neg, ds, fs⟩), back_of env (v := .time n) e1 (bland_decimal neg e2 e3) ?_ (dash_len (decimal_len neg e2 e3)) rfl ?_ ?_⟩
    · intro e; have := decimal_len neg e2 e3; rw [e] at this; simp at this
    · refine .time n _ ?_
      have := seconds_near env neg e5 e3.2 e6
      rw [abs_lt] at this
      rw [abs_le] at e7 ⊢
      constructor <;> linarith [e7.1, e7.2, this.1, this.2]
    · intro sep r hr
      have e := Number.realP_num e2 e3 e4 (by omega) neg true r (sticky_digit hr)
      rw [← Number.decimalText_eq] at e
      simp only [cellP, via, e, Option.map_some]
  | duration n hn hi =>
    obtain ⟨neg, ds, fs, e1, e2, e3, e4, e5, e6, e7⟩ := seconds_text hn hi
    refine ⟨_, .duration (seconds env ⟨neg, ds, fs⟩), back_of env (v := .duration n) e1 (bland_decimal neg e2 e3) ?_ (dash_len (decimal_len neg e2 e3)) rfl ?_ ?_⟩
    · intro e; have := decimal_len neg e2 e3; rw [e] at this; simp at this
    · refine .duration n _ ?_
      have := seconds_near env neg e5 e3.2 e6
      rw [abs_lt] at this
      rw [abs_le] at e7 ⊢
      constructor <;> linarith [e7.1, e7.2, this.1, this.2]
    · intro sep r hr
      have e := Number.realP_num e2 e3 e4 (by omega) neg true r (sticky_digit hr)
      rw [← Number.decimalText_eq] at e
      simp only [cellP, via, e, Option.map_some]
  | string s hne h92 =>
    obtain ⟨h1, h2, h3⟩ := escape_text s h92
    obtain ⟨h4, h5⟩ := escape_head hne h92
    refine ⟨s.flatMap escapeChar, .string s, ⟨rfl, h4, h2, h3, ?_, ?_, rfl, .same _, ?_⟩⟩
    · intro h
      have := h5 h
      cases s with
      | nil => simp at this
      | cons b s => simp at this; subst this; exact ⟨s, rfl⟩
    · intro u hu e
      have : 92 ∉ u := by rcases hu with rfl | rfl <;> decide
      rw [escape_inj h92 this e]
    · intro sep r hr hs
      obtain ⟨w, e, _, _, hw⟩ := one_reads env sep (.string _ s h4 h1) r hr (fun _ => by
        rcases hs with ⟨rfl, rfl⟩ | ⟨rfl, hr'⟩
        · rw [List.append_nil]; exact upTo_all _
        · exact upTo_sep 44 [] _ r h3 hr')
      rw [hw (by simp) (by simp) (by simp)] at e
      exact e
  | addr a =>
    have hne : printAddr a ≠ [] := by
      intro e
      have := addrP_print a [] rfl
      rw [e] at this
      exact absurd this (by rw [show addrP ([] ++ []) = none from by decide +kernel]; simp)
    have hd : printAddr a ≠ str "-" := by
      intro e
      have := addrP_print a [] rfl
      rw [e] at this
      exact absurd this (by rw [show addrP (str "-" ++ []) = none from by decide +kernel]; simp)
    exact ⟨printAddr a, .address a, back_exact env rfl (bland_printAddr a) hne hd (.addr a) (by simp) (by simp) (by simp) (by simp)⟩
  | subnet n hn =>
    have hlen : 2 ≤ (printNet n).length := by
      have : 1 ≤ (printNat n.length).length := by rw [printNat_eq, txt, List.length_map]; exact List.length_pos_iff.mpr (digits_ne_nil _)
      simp [printNet]; omega
    refine ⟨printNet n, .subnet n, back_exact env rfl (bland_printNet n) ?_ (dash_len hlen) (.subnet n hn) (by simp) (by simp) (by simp) (by simp)⟩
    intro e; rw [e] at hlen; simp at hlen

/-! ### Columns -/

/-- A value of a column, its text, and what is read for it. -/
structure Back (env : Env) (h : Spec.Head) (t : Ty) (v : Data) (text : Str) (w : Data) : Prop where
  print : printCell v = some text
  ne : text ≠ []
  noTab : 9 ∉ text
  hash : Spec.NoHash v → text.head? ≠ some 35
  takes : takes t w = true
  near : Spec.Near v w
  read : field env (headerOf h) t text = some w

/-- Lists, element by element. -/
theorem backs (env : Env) {t : Ty} : ∀ vs : List Data, (∀ v ∈ vs, Spec.Writable1 t v) → ∃ texts ws, printMore vs = some (tail [44] texts)
    ∧ texts.length = vs.length ∧ (∀ x ∈ texts, x ≠ [] ∧ 9 ∉ x ∧ 44 ∉ x) ∧ List.Forall₂ Spec.Near1 vs ws ∧ (∀ w ∈ ws, takes t w = true)
    ∧ ∀ n, texts.length ≤ n → moreP (cellP env [44] t) [44] n (tail [44] texts) = (ws, [])
  | [], _ => ⟨[], [], rfl, rfl, by simp, .nil, by simp, fun n _ => by cases n <;> simp [moreP, tail, strip]⟩
  | v :: vs, h => by
    obtain ⟨texts, ws, e1, e2, e3, e4, e5, e6⟩ := backs env vs fun u hu => h u (by simp [hu])
    obtain ⟨text, w, hb⟩ := back1 env (h v (by simp))
    have ht : tail [44] (text :: texts) = 44 :: (text ++ tail [44] texts) := by simp [tail]
    refine ⟨text :: texts, w :: ws, ?_, by simp [e2], ?_, .cons hb.near e4, ?_, ?_⟩
    · rw [ht]
      simp only [printMore, hb.print, e1, ch]
      rfl
    · intro x hx
      rcases List.mem_cons.mp hx with rfl | hx
      · exact ⟨hb.ne, hb.noTab, hb.noComma⟩
      · exact e3 x hx
    · intro x hx
      rcases List.mem_cons.mp hx with rfl | hx
      · exact hb.takes
      · exact e5 x hx
    · intro n hn
      obtain ⟨k, rfl⟩ : ∃ k, n = k + 1 := ⟨n - 1, by simp at hn; omega⟩
      have hr := hb.read [44] (tail [44] texts) (by cases texts <;> simp [tail, headNot, stickyA, isXDigit, isDigit, ch])
        (.inr ⟨rfl, by cases texts with | nil => exact .inl rfl | cons y ys => exact .inr ⟨y ++ tail [44] ys, by simp [tail]⟩⟩)
      rw [ht]
      have hs : strip [44] (44 :: (text ++ tail [44] texts)) = some (text ++ tail [44] texts) := strip_append [44] _
      simp only [moreP, hs, Option.bind_some, hr, e6 k (by simpa using hn)]

theorem tail_noTab {texts : List Str} (h : ∀ x ∈ texts, x ≠ [] ∧ 9 ∉ x ∧ 44 ∉ x) : 9 ∉ tail [44] texts := by
  intro e
  simp only [tail, List.mem_flatMap] at e
  obtain ⟨x, hx, e⟩ := e
  simp only [List.cons_append, List.nil_append, List.mem_cons] at e
  rcases e with e | e
  · exact absurd e (by decide)
  · exact (h x hx).2.1 e

/-- Headers as Zeek writes them. -/
def Standard (h : Spec.Head) : Prop := h.sep = [9] ∧ h.setSep = [44] ∧ h.empty = DataText.Spec.ascii "(empty)" ∧ h.unset = DataText.Spec.ascii "-"

theorem back (env : Env) {h : Spec.Head} (hz : Standard h) {t : Ty} {v : Data} (hw : Spec.Writable t v) : ∃ text w, Back env h t v text w := by
  obtain ⟨_, z2, z3, z4⟩ := hz
  have hun : (headerOf h).unset = str "-" := z4
  have hem : (headerOf h).empty = str "(empty)" := z3
  have hss : (headerOf h).setSep = [44] := z2
  cases hw with
  | none =>
    exact ⟨str "-", .none, rfl, by decide, by decide, fun _ => by decide, by cases t <;> rfl, .one _ _ (.same _), by simp [field, hun]⟩
  | one _ _ h1 n1 n2 =>
    obtain ⟨text, w, hb⟩ := back1 env h1
    have w1 : text ≠ str "-" := fun e => n1 (hb.word _ (.inl rfl) e)
    have w2 : text ≠ str "(empty)" := fun e => n2 (hb.word _ (.inr rfl) e)
    refine ⟨text, w, hb.print, hb.ne, hb.noTab, ?_, hb.takes, .one _ _ hb.near, ?_⟩
    · intro hn e
      obtain ⟨s, rfl⟩ := hb.hash e
      exact hn rfl
    · have hin : inner [44] t = [] := by
        cases h1 with
        | count _ _ ht => rcases ht with rfl | rfl <;> rfl
        | _ => rfl
      have hr := hb.read [] [] rfl (.inl ⟨rfl, rfl⟩)
      rw [List.append_nil] at hr
      simp only [field, hun, hem, w1, w2, if_false, cell, hss, hin, hr]
  | list t vs h1 n1 n2 =>
    cases vs with
    | nil =>
      exact ⟨str "(empty)", .list [], by simp [printCell], by decide, by decide, fun _ => by decide, rfl, .list _ _ .nil,
        by simp [field, hun, hem, construct, show str "(empty)" ≠ str "-" by decide]⟩
    | cons v vs =>
      obtain ⟨text, w, hb⟩ := back1 env (h1 v (by simp))
      obtain ⟨texts, ws, e1, e2, e3, e4, e5, e6⟩ := backs env vs fun u hu => h1 u (by simp [hu])
      have hword : ∀ u : Str, u = str "-" ∨ u = str "(empty)" → v :: vs ≠ [.string u] → text ++ tail [44] texts ≠ u := by
        intro u hu hne e
        cases texts with
        | nil =>
          have hvs : vs = [] := List.length_eq_zero_iff.mp (by simpa using e2.symm)
          have : text = u := by simpa [tail] using e
          exact hne (by rw [hvs, hb.word u hu this])
        | cons y ys =>
          have : 44 ∈ u := by rw [← e]; simp [tail]
          rcases hu with rfl | rfl <;> exact absurd this (by decide)
      have w1 := hword (str "-") (.inl rfl) n1
      have w2 := hword (str "(empty)") (.inr rfl) n2
      refine ⟨text ++ tail [44] texts, .list (w :: ws), ?_, ?_, ?_, ?_, ?_, .list _ _ (.cons hb.near e4), ?_⟩
      · simp only [printCell, hb.print, e1]
      · intro e; exact hb.ne (List.append_eq_nil_iff.mp e).1
      · intro e
        rcases List.mem_append.mp e with e | e
        · exact hb.noTab e
        · exact tail_noTab e3 e
      · intro hn e
        have : text.head? = some 35 := by
          cases text with
          | nil => exact absurd rfl hb.ne
          | cons b x => simpa using e
        obtain ⟨s, rfl⟩ := hb.hash this
        exact hn rfl
      · simp only [takes, List.all_eq_true]
        intro x _
        rcases List.mem_cons.mp x.2 with e | e
        · rw [e]; exact hb.takes
        · exact e5 x.1 e
      · have hr := hb.read [44] (tail [44] texts) (by cases texts <;> simp [tail, headNot, stickyA, isXDigit, isDigit, ch])
          (.inr ⟨rfl, by cases texts with | nil => exact .inl rfl | cons y ys => exact .inr ⟨y ++ tail [44] ys, by simp [tail]⟩⟩)
        simp only [field, hun, hem, w1, w2, if_false, cell, hss, inner, cellP, hr, e6 _ (tail_length 44 [] texts)]

/-- Rows, column by column. -/
theorem back_row (env : Env) {h : Spec.Head} (hz : Standard h) : ∀ (cols : List Spec.Column) (r : List Data), List.Forall₂ (fun c v => Spec.Writable c.ty v) cols r →
    ∃ texts ws, printCells r = some texts ∧ texts.length = cols.length ∧ (∀ x ∈ texts, x ≠ [] ∧ 9 ∉ x)
      ∧ (∀ x v, texts.head? = some x → r.head? = some v → Spec.NoHash v → x.head? ≠ some 35)
      ∧ readFields env (headerOf h) (cols.map (·.ty)) texts = some ws ∧ taken (cols.map (·.ty)) ws = ws.length ∧ List.Forall₂ Spec.Near r ws
  | [], [], _ => ⟨[], [], rfl, rfl, by simp, by simp, rfl, rfl, .nil⟩
  | c :: cs, v :: vs, hf => by
    cases hf with
    | cons h1 h2 =>
      obtain ⟨text, w, hb⟩ := back env hz h1
      obtain ⟨texts, ws, e1, e2, e3, e4, e5, e6, e7⟩ := back_row env hz cs vs h2
      refine ⟨text :: texts, w :: ws, by simp [printCells, hb.print, e1], by simp [e2], ?_, ?_, ?_, ?_, .cons hb.near e7⟩
      · intro x hx
        rcases List.mem_cons.mp hx with rfl | hx
        · exact ⟨hb.ne, hb.noTab⟩
        · exact e3 x hx
      · intro x u hx hu hn
        simp at hx hu
        subst hx hu
        exact hb.hash hn
      · simp [readFields, hb.read, e5]
      · simp [taken, hb.takes, e6]

theorem joined_join (sep : Str) : ∀ xs : List Str, Spec.joined sep xs = Escape.join xs sep
  | [] => rfl
  | [x] => rfl
  | x :: y :: xs => by rw [Spec.joined, joined_join sep (y :: xs)]; rfl

/-- What a written row is read as. -/
theorem row_line (env : Env) {h : Spec.Head} {sepText : Str} (hk : Spec.HeadOk h sepText) (hz : Standard h) {r : List Data} (hr : Spec.RowOk h.cols r) :
    ∃ l ws, printRow r = some l ∧ List.Forall₂ Spec.Near r ws ∧ ∀ evs, Fits env (.body (headerOf h), evs) l
      ∧ absLine env (.body (headerOf h), evs) l = (.body (headerOf h), evs ++ [((headerOf h).name, (headerOf h).fields, ws)]) := by
  obtain ⟨texts, ws, e1, e2, e3, e4, e5, e6, e7⟩ := back_row env hz h.cols r hr.1
  have hsep : h.sep = [9] := hz.1
  have hne : texts ≠ [] := by
    intro e; rw [e] at e2; exact hk.cols.1 (List.length_eq_zero_iff.mp e2.symm)
  have hrne : r ≠ [] := by
    intro e; rw [e] at e1; simp [printCells] at e1; exact hne e1
  have hf : Spec.FieldLine h texts := by
    refine ⟨hne, by rw [e2]; exact hk.cols.2.1, ?_, ?_⟩
    · intro x hx
      refine ⟨(e3 x hx).1, fun b hb => ?_⟩
      rw [hsep] at hb
      injection hb with hb
      subst hb
      exact (e3 x hx).2
    · intro x hx
      cases r with
      | nil => exact absurd rfl hrne
      | cons v vs => exact e4 x v hx rfl (hr.2 v rfl)
  obtain ⟨f1, f2, f3, f4⟩ := fieldLine_facts (l := ⟨h, sepText, []⟩) hk hf
  have htys : (headerOf h).fields.map (·.2) = h.cols.map (·.ty) := by simp [headerOf]
  refine ⟨Spec.joined h.sep texts, ws, ?_, e7, fun evs => ⟨?_, ?_⟩⟩
  · simp only [printRow, e1, Option.map_some, joined_join, hsep]
  · intro k hkk _ _ _ vs hvs
    injection hkk with hkk
    subst hkk
    rw [show (headerOf h).sep = h.sep from rfl, f4, htys, e5] at hvs
    injection hvs with hvs
    rw [htys, ← hvs]
    exact e6
  · simp only [absLine, f1, f2, f3, show (headerOf h).sep = h.sep from rfl, f4, htys, e5]
    simp [headerOf, e2]

theorem rows_lines (env : Env) {h : Spec.Head} {sepText : Str} (hk : Spec.HeadOk h sepText) (hz : Standard h) : ∀ rows : List (List Data),
    (∀ r ∈ rows, Spec.RowOk h.cols r) → ∃ lines wss, rows.map printRow = lines.map some ∧ List.Forall₂ (List.Forall₂ Spec.Near) rows wss
      ∧ ∀ evs, lines.foldl (absLine env) (.body (headerOf h), evs) = (.body (headerOf h), evs ++ label (headerOf h) wss)
        ∧ ∀ pre x, pre ++ [x] <+: lines → Fits env (pre.foldl (absLine env) (.body (headerOf h), evs)) x
  | [], _ => ⟨[], [], rfl, .nil, fun evs => ⟨by simp [label], fun pre x h => by simp at h⟩⟩
  | r :: rows, hr => by
    obtain ⟨l, ws, e1, e2, e3⟩ := row_line env hk hz (hr r (by simp))
    obtain ⟨lines, wss, g1, g2, g3⟩ := rows_lines env hk hz rows fun q hq => hr q (by simp [hq])
    refine ⟨l :: lines, ws :: wss, by simp [e1, g1], .cons e2 g2, fun evs => ⟨?_, ?_⟩⟩
    · rw [List.foldl_cons, (e3 evs).2, (g3 _).1]
      simp [label]
    · intro pre x hp
      obtain ⟨t, ht⟩ := hp
      cases pre with
      | nil =>
        have : x = l := (List.cons.inj ht).1
        rw [this]; exact (e3 evs).1
      | cons p pre =>
        have : p = l := (List.cons.inj ht).1
        subst this
        rw [List.foldl_cons, (e3 evs).2]
        exact (g3 _).2 pre x ⟨t, (List.cons.inj ht).2⟩

end Verif.Zeek
