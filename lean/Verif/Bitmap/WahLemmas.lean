import Verif.Bitmap.Wah
import Verif.Bitmap.EwahOps

/-!
# WAH: representation invariant
-/

namespace Verif.Bitmap

open Ewah Wah Spec

theorem maxFillWords_eq : maxFillWords = 2 ^ 62 - 1 := by decide

theorem getLsbD_fillMask (i : Nat) : fillMask.getLsbD i = decide (i = 62) := by
  rw [fillMask, BitVec.getLsbD_ushiftRight, getLsbD_msb1]
  by_cases h : i = 62 <;> simp [h] <;> omega

theorem getLsbD_all2 (i : Nat) : (Word.all >>> 2).getLsbD i = decide (i < 62) := by
  rw [BitVec.getLsbD_ushiftRight, getLsbD_all]
  by_cases h : i < 62 <;> simp [h] <;> omega

theorem getLsbD_makeFill (bit : Bool) {n : Nat} (hn : n ≤ maxFillWords) {i : Nat} (hi : i < 64) :
    (makeFill bit n).getLsbD i = if i < 62 then n.testBit i else if i = 62 then bit else true := by
  rw [maxFillWords_eq] at hn
  have hb : ((if bit then 1#64 else 0#64) <<< (64 - 2)).getLsbD i = (decide (i = 62) && bit) := by
    rw [BitVec.getLsbD_shiftLeft]
    cases bit
    · simp
    · simp only [if_true, BitVec.getLsbD_one, Bool.and_true]
      by_cases h : i = 62 <;> by_cases h' : i < 62 <;> simp [h, h', hi] <;> omega
  rw [makeFill, BitVec.getLsbD_or, BitVec.getLsbD_or, getLsbD_msb1, BitVec.getLsbD_ofNat, hb]
  by_cases h : i < 62
  · rw [if_pos h]
    have e1 : i ≠ 63 := by omega
    have e2 : i ≠ 62 := by omega
    simp [hi, e1, e2]
  · rw [if_neg h]
    have ht : n.testBit i = false := testBit_of_lt (show n < 2 ^ 62 by omega) (by omega)
    by_cases h2 : i = 62
    · subst h2
      simp [ht]
    · have : i = 63 := by omega
      simp [this]

theorem isFill_eq (b : Word) : isFill b = b.getLsbD 63 := by
  have e : (Word.msb1) = Word.mask 63 := by decide
  rw [isFill, e, and_mask_ne_zero]

theorem fillType_eq (b : Word) : fillType b = b.getLsbD 62 := by
  have e : fillMask = Word.mask 62 := by decide
  have := test_eq b (show 62 < 64 by omega)
  rw [Word.test] at this
  rw [fillType, e, this]

theorem isFill_makeFill (bit : Bool) {n : Nat} (hn : n ≤ maxFillWords) : isFill (makeFill bit n) = true := by
  rw [isFill_eq, getLsbD_makeFill bit hn (by omega)]; rfl

theorem fillType_makeFill (bit : Bool) {n : Nat} (hn : n ≤ maxFillWords) :
    fillType (makeFill bit n) = bit := by
  rw [fillType_eq, getLsbD_makeFill bit hn (by omega)]; rfl

theorem fillWords_makeFill (bit : Bool) {n : Nat} (hn : n ≤ maxFillWords) :
    fillWords (makeFill bit n) = n := by
  rw [fillWords]
  have hn' := hn
  rw [maxFillWords_eq] at hn'
  apply toNat_eq_of_testBit (by omega)
  intro i hi
  rw [BitVec.getLsbD_and, getLsbD_makeFill bit hn hi, getLsbD_all2]
  by_cases h : i < 62
  · simp [h]
  · have ht : n.testBit i = false := testBit_of_lt (show n < 2 ^ 62 by omega) (by omega)
    simp [h, ht]

theorem fillWords_le (b : Word) : fillWords b ≤ maxFillWords := by
  rw [maxFillWords_eq, fillWords, BitVec.toNat_and]
  exact Nat.le_trans Nat.and_le_right (by decide)

/-- The bits a completed block stands for. -/
def wahBits (b : Word) : List Bool :=
  if isFill b then List.replicate (fillWords b * 63) (fillType b) else wbits 63 b

theorem wahBits_makeFill (bit : Bool) {n : Nat} (hn : n ≤ maxFillWords) :
    wahBits (makeFill bit n) = List.replicate (n * 63) bit := by
  rw [wahBits, isFill_makeFill bit hn, fillWords_makeFill bit hn, fillType_makeFill bit hn]; rfl

theorem allOrNoneLow_fill {x : Word} (h : allOrNoneLow x 63 = true) (hx : x.getLsbD 63 = false) :
    wbits 63 x = List.replicate 63 (x != 0#64) := by
  have hlt : x.toNat < 2 ^ 63 := by
    have := BitVec.isLt x
    rcases Nat.lt_or_ge x.toNat (2 ^ 63) with h | h
    · exact h
    · rw [BitVec.getLsbD, Nat.testBit_eq_decide_div_mod_eq] at hx
      have : x.toNat / 2 ^ 63 = 1 := by omega
      rw [this] at hx
      simp at hx
  have key : x.toNat = 0 ∨ x.toNat = 2 ^ 63 - 1 := by
    have e : Word.lsbMask 63 = BitVec.ofNat 64 (2 ^ 63 - 1) := by decide
    simp only [allOrNoneLow, decide_eq_true_eq, e, BitVec.le_def, BitVec.toNat_and, BitVec.toNat_add,
      BitVec.toNat_ofNat] at h
    have e2 : ((2:Nat) ^ 63 - 1) % 2 ^ 64 = 2 ^ 63 - 1 := by decide
    rw [e2, Nat.and_two_pow_sub_one_eq_mod] at h
    omega
  rcases key with hk | hk
  · have : x = 0#64 := BitVec.eq_of_toNat_eq (by simpa using hk)
    subst this
    decide
  · have : x = BitVec.ofNat 64 (2 ^ 63 - 1) := BitVec.eq_of_toNat_eq (by rw [hk]; decide)
    subst this
    decide

/-- `s` stands for the bits `l`: completed blocks and an active word with zeros above
`num_last_`. -/
def WahRep (s : WahBitmap) (l : List Bool) : Prop :=
  s.numBits = l.length ∧
  ((s.blocks = [] ∧ s.numLast = 0 ∧ l = []) ∨
   ∃ pre act, s.blocks = pre ++ [act] ∧ s.numLast ≤ 63
      ∧ (∀ i, s.numLast ≤ i → act.getLsbD i = false)
      ∧ l = pre.flatMap wahBits ++ wbits s.numLast act)

theorem merge_rep {s : WahBitmap} {pre : List Word} {act : Word} (hb : s.blocks = pre ++ [act])
    (hn : s.numLast = 63) (hact : ∀ i, 63 ≤ i → act.getLsbD i = false) :
    ∃ pre', s.mergeActiveWord = some ⟨pre' ++ [0#64], 0, s.numBits⟩ ∧ pre' ≠ []
      ∧ pre'.flatMap wahBits = pre.flatMap wahBits ++ wbits 63 act := by
  have hlit : wahBits act = wbits 63 act := by
    rw [wahBits, isFill_eq, hact 63 (by omega)]; rfl
  have h1 : 1 ≤ maxFillWords := by decide
  rw [WahBitmap.mergeActiveWord]
  rw [if_neg (by rw [hb, hn]; simp [literalSize])]
  simp only [hb, List.getLastD_concat, List.dropLast_concat]
  cases hf : allOrNoneLow act literalSize
  · refine ⟨pre ++ [act], ?_, by simp, by simp [hlit]⟩
    simp [Word.none]
  · have hfill := allOrNoneLow_fill hf (hact 63 (by omega))
    simp only [Bool.not_true, Bool.false_eq_true, if_false]
    by_cases hl : (pre ++ [act]).length = 1
    · rw [if_pos hl]
      refine ⟨pre ++ [makeFill (act != 0#64) 1], by simp [Word.none], by simp, ?_⟩
      simp [wahBits_makeFill _ h1, hfill]
    · rw [if_neg hl]
      have hp : pre ≠ [] := by rintro rfl; simp at hl
      split
      · next hc =>
        rw [Bool.and_eq_true, isFillOf, Bool.and_eq_true, beq_iff_eq, decide_eq_true_eq] at hc
        obtain ⟨⟨c1, c2⟩, c3⟩ := hc
        refine ⟨pre.dropLast ++ [makeFill (act != Word.none) (fillWords (pre.getLastD 0#64) + 1)],
          by simp [Word.none], by simp, ?_⟩
        have hpre : pre = pre.dropLast ++ [pre.getLastD 0#64] := by
          have e : pre.getLastD 0#64 = pre.getLast hp := by
            rw [List.getLastD_eq_getLast?, List.getLast?_eq_some_getLast hp]; rfl
          rw [e, List.dropLast_concat_getLast]
        generalize hq : pre.getLastD 0#64 = q at *
        generalize pre.dropLast = r at *
        subst hpre
        rw [List.flatMap_append, List.flatMap_append]
        simp only [List.flatMap_cons, List.flatMap_nil, List.append_nil, List.append_assoc]
        rw [wahBits_makeFill _ (by omega), hfill, wahBits, c1, c2, if_pos rfl,
          show (act != Word.none) = (act != 0#64) from rfl, List.replicate_append_replicate,
          Nat.succ_mul]
      · refine ⟨pre ++ [makeFill (act != 0#64) 1], by simp [Word.none], by simp, ?_⟩
        simp [wahBits_makeFill _ h1, hfill]

theorem prepare_rep {s : WahBitmap} {l : List Bool} (h : WahRep s l) :
    ∃ s' pre act, s.prepare = some s' ∧ s'.blocks = pre ++ [act] ∧ s'.numLast ≤ 62
      ∧ s'.numBits = l.length
      ∧ (∀ i, s'.numLast ≤ i → act.getLsbD i = false)
      ∧ l = pre.flatMap wahBits ++ wbits s'.numLast act := by
  obtain ⟨hlen, h⟩ := h
  rw [WahBitmap.prepare]
  rcases h with ⟨hb, hn, hl⟩ | ⟨pre, act, hb, hn, ha, hl⟩
  · rw [if_pos hb]
    refine ⟨_, [], 0#64, rfl, rfl, by simp [hn], hlen, by simp, by simp [hl, hn, wbits]⟩
  · rw [if_neg (by simp [hb])]
    split
    · next hc =>
      rw [literalSize] at hc
      rw [hc] at ha
      obtain ⟨pre', h1, h2, h3⟩ := merge_rep hb hc ha
      refine ⟨_, pre', 0#64, h1, rfl, by simp, hlen, by simp, ?_⟩
      rw [h3, hl, hc]; simp [wbits]
    · next hc =>
      rw [literalSize] at hc
      exact ⟨s, pre, act, rfl, hb, by omega, hlen, ha, hl⟩

theorem appendBit_wah {s : WahBitmap} {l : List Bool} (h : WahRep s l) (bit : Bool) :
    ∃ s', s.appendBit bit = some s' ∧ WahRep s' (l ++ [bit]) := by
  obtain ⟨s', pre, act, hp, hb, hn, hlen, ha, hl⟩ := prepare_rep h
  rw [WahBitmap.appendBit, hp]
  refine ⟨_, rfl, by simp [hlen], Or.inr ⟨pre, _, by rw [hb, setBack_concat], ?_, ?_, ?_⟩⟩
  · simp only; omega
  · intro i hi
    simp only at hi
    rw [BitVec.getLsbD_or, ha i (by omega), BitVec.getLsbD_shiftLeft]
    cases bit
    · simp
    · simp only [if_true, BitVec.getLsbD_one]
      have : i - s'.numLast ≠ 0 := by omega
      simp [this]
  · rw [hl, List.append_assoc]
    congr 1
    have e : [bit] = wbits 1 (if bit then 1#64 else 0#64) := by cases bit <;> decide
    rw [e]
    apply wbits_append
    · intro i hi
      rw [BitVec.getLsbD_or, BitVec.getLsbD_shiftLeft]
      simp [hi]
    · intro i hi
      have : i = 0 := by omega
      subst this
      rw [BitVec.getLsbD_or, ha _ (by omega), BitVec.getLsbD_shiftLeft]
      have : s'.numLast < 64 := by omega
      simp [this]

theorem flatMap_addFills (bit : Bool) (fills : Nat) :
    (WahBitmap.appendFills.addFills bit fills).flatMap wahBits = List.replicate (fills * 63) bit := by
  induction fills using Nat.strongRecOn with
  | ind fills ih =>
    rw [WahBitmap.appendFills.addFills]
    split
    · next h =>
      rw [List.flatMap_cons, ih _ (by omega), wahBits_makeFill _ (Nat.le_refl _),
        List.replicate_append_replicate]
      generalize maxFillWords = M at h ⊢
      congr 1
      rw [← Nat.add_mul]
      congr 1
      omega
    · split
      · next h h' =>
        have : 0 < maxFillWords := by decide
        simp [wahBits_makeFill _ (show fills ≤ maxFillWords by omega)]
      · next h h' =>
        have : fills = 0 := by omega
        subst this
        simp

theorem appendFills_wah {s : WahBitmap} {pre : List Word} {act : Word} {l : List Bool}
    (hb : s.blocks = pre ++ [act]) (hn : s.numLast = 63)
    (hact : ∀ i, 63 ≤ i → act.getLsbD i = false) (hlen : s.numBits = l.length)
    (hl : l = pre.flatMap wahBits ++ wbits 63 act) (bit : Bool) (n : Nat) :
    ∃ s', s.appendFills bit n = some s' ∧ WahRep s' (l ++ List.replicate n bit) := by
  obtain ⟨pre', h1, h2, h3⟩ := merge_rep hb hn hact
  rw [WahBitmap.appendFills, h1]
  simp only [Option.bind_some, List.dropLast_concat]
  rw [if_neg h2]
  have hdiv := Nat.div_add_mod n 63
  have hmod := Nat.mod_lt n (show 0 < 63 by omega)
  have tail : ∀ bs : List Word, bs.flatMap wahBits = l ++ List.replicate (n / 63 * 63) bit →
      WahRep ⟨bs ++ [if n % 63 > 0 ∧ bit = true then Word.lsbMask (n % 63) else Word.none],
        n % 63, s.numBits + n⟩ (l ++ List.replicate n bit) := by
    intro bs hbs
    refine ⟨by simp [hlen], Or.inr ⟨bs, _, rfl, by simp only; omega, ?_, ?_⟩⟩
    · intro i hi
      simp only at hi
      split
      · rw [getLsbD_lsbMask]
        have : ¬ i < n % 63 := by omega
        simp [this]
      · simp [Word.none]
    · rw [hbs, List.append_assoc]
      congr 1
      have e : wbits (n % 63) (if n % 63 > 0 ∧ bit = true then Word.lsbMask (n % 63) else Word.none)
          = List.replicate (n % 63) bit := by
        symm
        apply list_ext_wbits (by simp)
        intro i hi
        rw [List.getElem?_replicate, if_pos hi]
        cases bit
        · simp [Word.none]
        · rw [if_pos (by constructor; omega; rfl), getLsbD_lsbMask]
          simp [hi]; omega
      simp only
      rw [e, List.replicate_append_replicate]
      congr 1
      omega
  simp only [literalSize]
  refine ⟨_, rfl, tail _ ?_⟩
  rw [List.flatMap_append, flatMap_addFills]
  cases hc : (isFillOf (pre'.getLastD 0#64) bit
      && decide (fillWords (pre'.getLastD 0#64) + n / 63 ≤ maxFillWords))
  rotate_left
  · simp only [if_true]
    rw [Bool.and_eq_true, isFillOf, Bool.and_eq_true, beq_iff_eq, decide_eq_true_eq] at hc
    obtain ⟨⟨c1, c2⟩, c3⟩ := hc
    have hpre : pre' = pre'.dropLast ++ [pre'.getLastD 0#64] := by
      have e : pre'.getLastD 0#64 = pre'.getLast h2 := by
        rw [List.getLastD_eq_getLast?, List.getLast?_eq_some_getLast h2]; rfl
      rw [e, List.dropLast_concat_getLast]
    rw [hl, ← h3]
    generalize hq : pre'.getLastD 0#64 = q at *
    generalize pre'.dropLast = r at *
    subst hpre
    rw [setBack_concat, List.flatMap_append, List.flatMap_append]
    simp only [List.flatMap_cons, List.flatMap_nil, List.append_nil, List.append_assoc, Nat.zero_mul,
      List.replicate_zero]
    rw [wahBits_makeFill _ c3, wahBits, c1, c2, if_pos rfl, List.replicate_append_replicate,
      Nat.add_mul]
  · simp only [Bool.false_eq_true, if_false]
    rw [h3, hl]

theorem appendBits_wah {s : WahBitmap} {l : List Bool} (h : WahRep s l) (bit : Bool) (n : Nat) :
    ∃ s', s.appendBits bit n = some s' ∧ WahRep s' (l ++ List.replicate n bit) := by
  rw [WahBitmap.appendBits]
  split
  · next hn => subst hn; exact ⟨s, rfl, by simpa using h⟩
  · next hn0 =>
    obtain ⟨s', pre, act, hp, hb, hn, hlen, ha, hl⟩ := prepare_rep h
    rw [hp]
    simp only [Option.bind_some, literalSize]
    obtain ⟨k, hk⟩ : ∃ k, k = min (63 - s'.numLast) n := ⟨_, rfl⟩
    simp only [← hk]
    rw [if_neg (show ¬ ¬ k > 0 by omega)]
    -- the active word after the injection
    obtain ⟨act', hact', hb'⟩ : ∃ act',
        (∀ i, act'.getLsbD i = if i < s'.numLast then act.getLsbD i
          else (decide (i < s'.numLast + k) && bit))
        ∧ (if bit = true then EwahBitmap.setBack s'.blocks (· ||| (Word.lsbFill k <<< s'.numLast))
            else s'.blocks) = pre ++ [act'] := by
      cases bit
      · refine ⟨act, ?_, by simp [hb]⟩
        intro i
        split
        · rfl
        · rw [ha i (by omega)]; simp
      · refine ⟨act ||| (Word.lsbFill k <<< s'.numLast), ?_, by rw [if_pos rfl, hb, setBack_concat]⟩
        intro i
        rw [BitVec.getLsbD_or, BitVec.getLsbD_shiftLeft, getLsbD_lsbFill (by omega)]
        by_cases h1 : i < s'.numLast
        · simp [h1]
        · rw [ha i (by omega), if_neg h1]
          by_cases h2 : i < s'.numLast + k
          · have e1 : i - s'.numLast < k := by omega
            have e2 : i < 64 := by omega
            simp [h1, h2, e1, e2]
          · have e1 : ¬ i - s'.numLast < k := by omega
            simp [h2, e1]
    rw [hb']
    have hl' : l ++ List.replicate k bit = pre.flatMap wahBits ++ wbits (s'.numLast + k) act' := by
      rw [hl, List.append_assoc]
      congr 1
      rw [← wbits_fillWord (show k ≤ 64 by omega)]
      apply wbits_append
      · intro i hi
        rw [hact' i, if_pos hi]
      · intro i hi
        rw [hact', if_neg (by omega), fillWord_getLsbD bit (by omega)]
        have : s'.numLast + i < s'.numLast + k := by omega
        simp [this]
    have hz : ∀ i, s'.numLast + k ≤ i → act'.getLsbD i = false := by
      intro i hi
      rw [hact', if_neg (by omega)]
      have : ¬ i < s'.numLast + k := by omega
      simp [this]
    split
    · next hle =>
      have : k = n := by omega
      subst this
      exact ⟨_, rfl, by simp [hlen], Or.inr ⟨pre, act', rfl, by simp only; omega, hz, hl'⟩⟩
    · next hle =>
      have hfull : s'.numLast + k = 63 := by omega
      obtain ⟨s2, e1, e2⟩ := appendFills_wah (s := ⟨pre ++ [act'], s'.numLast + k, s'.numBits + k⟩)
        (l := l ++ List.replicate k bit) rfl hfull (by rw [← hfull]; exact hz) (by simp [hlen])
        (by rw [hl', hfull]) bit (n - k)
      refine ⟨s2, e1, ?_⟩
      rw [List.append_assoc, List.replicate_append_replicate, show k + (n - k) = n by omega] at e2
      exact e2

theorem appendBlock_wah {s : WahBitmap} {l : List Bool} (h : WahRep s l) (value : Word) {n : Nat}
    (hn1 : 1 ≤ n) (hn2 : n ≤ 64) :
    ∃ s', s.appendBlock value n = some s' ∧ WahRep s' (l ++ wbits n value) := by
  rw [WahBitmap.appendBlock, if_neg (by omega)]
  obtain ⟨s', pre, act, hp, hb, hn, hlen, ha, hl⟩ := prepare_rep h
  rw [hp]
  simp only [Option.bind_some, literalSize]
  obtain ⟨k, hk⟩ : ∃ k, k = min (63 - s'.numLast) n := ⟨_, rfl⟩
  simp only [← hk]
  rw [if_neg (show ¬ ¬ k > 0 by omega), hb, setBack_concat]
  generalize hact : act ||| ((value &&& Word.lsbFill k) <<< s'.numLast) = act'
  have hact' : ∀ i, act'.getLsbD i = if i < s'.numLast then act.getLsbD i
      else (decide (i < s'.numLast + k) && value.getLsbD (i - s'.numLast)) := by
    intro i
    rw [← hact, BitVec.getLsbD_or, BitVec.getLsbD_shiftLeft, BitVec.getLsbD_and,
      getLsbD_lsbFill (by omega)]
    by_cases h1 : i < s'.numLast
    · simp [h1]
    · rw [ha i (by omega), if_neg h1]
      by_cases h2 : i < s'.numLast + k
      · have e1 : i - s'.numLast < k := by omega
        have e2 : i < 64 := by omega
        simp [h1, h2, e1, e2]
      · have e1 : ¬ i - s'.numLast < k := by omega
        simp [h2, e1]
  have hl' : l ++ wbits k value = pre.flatMap wahBits ++ wbits (s'.numLast + k) act' := by
    rw [hl, List.append_assoc]
    congr 1
    apply wbits_append
    · intro i hi
      rw [hact' i, if_pos hi]
    · intro i hi
      rw [hact', if_neg (by omega)]
      have : s'.numLast + i < s'.numLast + k := by omega
      simp only [this, decide_true, Bool.true_and]
      congr 1
      omega
  have hz : ∀ i, s'.numLast + k ≤ i → act'.getLsbD i = false := by
    intro i hi
    rw [hact', if_neg (by omega)]
    have : ¬ i < s'.numLast + k := by omega
    simp [this]
  split
  · next hle =>
    have : k = n := by omega
    subst this
    exact ⟨_, rfl, by simp [hlen], Or.inr ⟨pre, act', rfl, by simp only; omega, hz, hl'⟩⟩
  · next hle =>
    have hfull : s'.numLast + k = 63 := by omega
    obtain ⟨pre', h1, h2, h3⟩ := merge_rep
      (s := ⟨pre ++ [act'], s'.numLast + k, s'.numBits + k⟩) rfl hfull (by rw [← hfull]; exact hz)
    rw [h1]
    simp only [Option.bind_some, setBack_concat]
    refine ⟨_, rfl, by simp [hlen]; omega, Or.inr ⟨pre', _, rfl, by simp only; omega, ?_, ?_⟩⟩
    · intro i hi
      simp only at hi
      rw [BitVec.getLsbD_and, getLsbD_lsbMask]
      have : ¬ i < n - k := by omega
      simp [this]
    · rw [h3, ← hfull, ← hl', List.append_assoc]
      congr 1
      have e : n = k + (n - k) := by omega
      conv => lhs; rw [e]
      symm
      apply wbits_append
      · intro i hi; rfl
      · intro i hi
        simp only at hi
        rw [BitVec.getLsbD_and, getLsbD_lsbMask, BitVec.getLsbD_ushiftRight]
        have : i < 64 := by omega
        simp [hi, this]

theorem wahBits_flip (b : Word) :
    wahBits (b ^^^ ((if isFill b then Word.msb1 else Word.all) >>> 1)) = (wahBits b).map (!·) := by
  cases hf : isFill b
  · rw [isFill_eq] at hf
    have h2 : (b ^^^ (Word.all >>> 1)).getLsbD 63 = false := by
      rw [BitVec.getLsbD_xor, hf, BitVec.getLsbD_ushiftRight, getLsbD_all]; decide
    simp only [Bool.false_eq_true, if_false]
    rw [wahBits, wahBits, isFill_eq, isFill_eq, h2, hf]
    simp only [Bool.false_eq_true, if_false]
    symm
    apply list_ext_wbits (by simp)
    intro i hi
    rw [List.getElem?_map, wbits_getElem?, if_pos hi, BitVec.getLsbD_xor, BitVec.getLsbD_ushiftRight,
      getLsbD_all]
    have : 1 + i < 64 := by omega
    simp [this]
  · have hb := hf
    rw [isFill_eq] at hb
    have e0 : ∀ i, (b ^^^ (Word.msb1 >>> 1)).getLsbD i = (b.getLsbD i ^^ decide (i = 62)) := by
      intro i
      have := getLsbD_fillMask i
      rw [fillMask] at this
      rw [BitVec.getLsbD_xor, this]
    simp only [if_true]
    have e1 : isFill (b ^^^ (Word.msb1 >>> 1)) = true := by rw [isFill_eq, e0, hb]; rfl
    have e2 : fillType (b ^^^ (Word.msb1 >>> 1)) = !fillType b := by
      rw [fillType_eq, fillType_eq, e0]; simp
    have e3 : fillWords (b ^^^ (Word.msb1 >>> 1)) = fillWords b := by
      rw [fillWords, fillWords]
      congr 1
      apply BitVec.eq_of_getLsbD_eq
      intro i hi
      rw [BitVec.getLsbD_and, BitVec.getLsbD_and, e0, getLsbD_all2]
      by_cases h : i < 62
      · have : i ≠ 62 := by omega
        simp [this]
      · simp [h]
    rw [wahBits, wahBits, e1, e2, e3, hf]
    simp

theorem flip_wah {s : WahBitmap} {l : List Bool} (h : WahRep s l) :
    ∃ s', s.flip = some s' ∧ WahRep s' (l.map (!·)) := by
  obtain ⟨hlen, h⟩ := h
  rw [WahBitmap.flip]
  rcases h with ⟨hb, hn, hl⟩ | ⟨pre, act, hb, hn, ha, hl⟩
  · rw [if_pos hb]
    exact ⟨s, rfl, by simp [hlen], Or.inl ⟨hb, hn, by simp [hl]⟩⟩
  · rw [if_neg (by simp [hb]), hb]
    simp only [List.map_append, List.map_cons, List.map_nil, setBack_concat]
    have hf : isFill act = false := by rw [isFill_eq]; exact ha 63 hn
    rw [hf]
    simp only [Bool.false_eq_true, if_false, literalSize]
    have hbit : ∀ i, (act ^^^ (Word.all >>> 1) ^^^ (Word.lsbMask (63 - s.numLast) <<< s.numLast)).getLsbD i
        = if i < s.numLast then !act.getLsbD i else false := by
      intro i
      rw [BitVec.getLsbD_xor, BitVec.getLsbD_xor, BitVec.getLsbD_ushiftRight, getLsbD_all,
        BitVec.getLsbD_shiftLeft, getLsbD_lsbMask]
      by_cases h1 : i < s.numLast
      · have e : 1 + i < 64 := by omega
        simp [h1, e]
      · rw [ha i (by omega), if_neg h1]
        by_cases h2 : i < 63
        · have e1 : 1 + i < 64 := by omega
          have e2 : i < 64 := by omega
          have e3 : i - s.numLast < 63 - s.numLast := by omega
          have e4 : i - s.numLast < 64 := by omega
          simp [h1, e1, e2, e3, e4]
        · have e1 : ¬ 1 + i < 64 := by omega
          have e3 : ¬ i - s.numLast < 63 - s.numLast := by omega
          simp [e1, e3]
    refine ⟨_, rfl, by simp [hlen], Or.inr ⟨_, _, rfl, hn, ?_, ?_⟩⟩
    · intro i hi
      simp only at hi
      rw [hbit, if_neg (by omega)]
    · rw [hl, List.map_append]
      congr 1
      · rw [List.map_flatMap, List.flatMap_map]
        congr 1
        funext b
        exact (wahBits_flip b).symm
      · apply list_ext_wbits (by simp)
        intro i hi
        rw [List.getElem?_map, wbits_getElem?, if_pos hi, hbit, if_pos hi]
        rfl

theorem step_wah {s : WahBitmap} {l : List Bool} (h : WahRep s l) (op : Op) (hv : op.valid) :
    ∃ s', s.step op = some s' ∧ WahRep s' (op.apply l) := by
  cases op with
  | bit b => exact appendBit_wah h b
  | bits b n => exact appendBits_wah h b n
  | block v n => exact appendBlock_wah h v hv.1 hv.2
  | flip => exact flip_wah h

theorem run_wah {ops : List Op} (hv : ∀ op ∈ ops, op.valid) :
    ∃ s, WahBitmap.run ops = some s ∧ WahRep s (history ops) := by
  have : ∀ (ops : List Op) (s : WahBitmap) (l : List Bool), (∀ op ∈ ops, op.valid) → WahRep s l →
      ∃ s', ops.foldlM WahBitmap.step s = some s' ∧ WahRep s' (ops.foldl Op.apply l) := by
    intro ops
    induction ops with
    | nil => exact fun s l _ h => ⟨s, rfl, h⟩
    | cons op ops ih =>
      intro s l hv h
      obtain ⟨s', h1, h2⟩ := step_wah h op (hv op (by simp))
      obtain ⟨s2, h3, h4⟩ := ih s' _ (fun o ho => hv o (by simp [ho])) h2
      exact ⟨s2, by rw [List.foldlM_cons, h1]; exact h3, h4⟩
  exact this ops {} [] hv ⟨rfl, Or.inl ⟨rfl, rfl, rfl⟩⟩

/-! ## Iteration -/

theorem mergeFills_spec (value : Bool) : ∀ (bs : List Word) (n : Nat),
    List.replicate (WahBitmap.mergeFills value bs n).2 value
        ++ (WahBitmap.mergeFills value bs n).1.flatMap wahBits
      = List.replicate n value ++ bs.flatMap wahBits
  | [], n => by simp [WahBitmap.mergeFills]
  | b :: bs, n => by
    rw [WahBitmap.mergeFills]
    split
    · next h =>
      rw [isFillOf, Bool.and_eq_true, beq_iff_eq] at h
      rw [mergeFills_spec value bs, List.flatMap_cons, ← List.append_assoc, wahBits, h.1, h.2,
        if_pos rfl, List.replicate_append_replicate]
    · rfl

theorem mergeFills_last (value : Bool) {act : Word} (ha : isFill act = false) :
    ∀ (bs : List Word) (n : Nat), ∃ bs', (WahBitmap.mergeFills value (bs ++ [act]) n).1 = bs' ++ [act]
      ∧ List.replicate (WahBitmap.mergeFills value (bs ++ [act]) n).2 value ++ bs'.flatMap wahBits
          = List.replicate n value ++ bs.flatMap wahBits
  | [], n => by
    refine ⟨[], ?_, ?_⟩ <;> simp [WahBitmap.mergeFills, isFillOf, ha]
  | b :: bs, n => by
    rw [List.cons_append, WahBitmap.mergeFills]
    split
    · next h =>
      obtain ⟨bs', h1, h2⟩ := mergeFills_last value ha bs (n + fillWords b * literalSize)
      refine ⟨bs', h1, ?_⟩
      rw [isFillOf, Bool.and_eq_true, beq_iff_eq] at h
      rw [h2, List.flatMap_cons, ← List.append_assoc, wahBits, h.1, h.2, if_pos rfl,
        List.replicate_append_replicate]
    · exact ⟨b :: bs, rfl, rfl⟩

theorem runs_wah {act : Word} {k : Nat} (ha : isFill act = false) (hk : k ≤ 64) (pre : List Word) :
    concat (WahBitmap.runs k (pre ++ [act])) = pre.flatMap wahBits ++ wbits k act := by
  generalize hm : pre.length = m
  induction m using Nat.strongRecOn generalizing pre with
  | ind m ih =>
    match pre, hm with
    | [], _ =>
      rw [List.nil_append, WahBitmap.runs, ha]
      simp [concat, toList_mk' hk]
    | b :: pre, hm =>
      rw [List.cons_append, WahBitmap.runs]
      split
      · next hb =>
        obtain ⟨bs', h1, h2⟩ := mergeFills_last (fillType b) ha pre (fillWords b * literalSize)
        have hlen := WahBitmap.mergeFills_length (fillType b) (pre ++ [act]) (fillWords b * literalSize)
        simp only [h1, concat, List.flatMap_cons] at hlen ⊢
        simp only [List.length_append, List.length_cons, List.length_nil] at hlen hm
        have := ih bs'.length (by omega) bs' rfl
        simp only [concat] at this
        rw [this, toList_run (w := if fillType b = true then Word.all else Word.none) (fillType b) rfl,
          ← List.append_assoc, h2, wahBits, hb]
        simp
      · next hb =>
        rw [if_pos (by simp)]
        have := ih pre.length (by simp only [List.length_cons] at hm; omega) pre rfl
        simp only [concat, List.flatMap_cons] at this ⊢
        rw [this, toList_mk' (show literalSize ≤ 64 by decide), wahBits, if_neg hb, List.append_assoc]

theorem bitRange_wah {s : WahBitmap} {l : List Bool} (h : WahRep s l) :
    concat s.bitRange = l := by
  obtain ⟨hlen, h⟩ := h
  rw [WahBitmap.bitRange]
  rcases h with ⟨hb, hn, hl⟩ | ⟨pre, act, hb, hn, ha, hl⟩
  · rw [hb, WahBitmap.runs, hl]; rfl
  · rw [hb, runs_wah (by rw [isFill_eq]; exact ha 63 hn) (by omega), hl]

end Verif.Bitmap
