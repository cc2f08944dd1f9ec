import Verif.Crc.Model
import Verif.Crc.Spec
/-!
# The checksum is CRC-32 (C164)
-/
namespace Verif.Crc

/-! ## Lemmas -/

/-- The register without input. -/
def shift (x : Word) : Word := (x >>> 1) ^^^ (if x.getLsbD 0 then Spec.polynomial else 0#32)

theorem poly_eq : Spec.polynomial = 0xedb88320#32 := by decide

theorem shift_xor (x y : Word) : shift (x ^^^ y) = shift x ^^^ shift y := by
  simp only [shift, BitVec.ushiftRight_xor_distrib, BitVec.getLsbD_xor]
  have h1 : ∀ a b p : Word, (a ^^^ b) ^^^ p = a ^^^ (b ^^^ p) := fun a b p => BitVec.xor_assoc a b p
  have h2 : ∀ a b : Word, a ^^^ b = b ^^^ a := BitVec.xor_comm
  cases x.getLsbD 0 <;> cases y.getLsbD 0
  · simp
  · simp [h1]
  · simp only [Bool.bne_false, if_true, Bool.false_eq_true, if_false, BitVec.xor_zero]
    rw [h1, h2 (y >>> 1), ← h1]
  · simp only [bne_self_eq_false, Bool.false_eq_true, if_false, if_true, BitVec.xor_zero]
    rw [h1, h2 Spec.polynomial, h1, BitVec.xor_self, BitVec.xor_zero]

def shift8 (x : Word) : Word := shift (shift (shift (shift (shift (shift (shift (shift x)))))))

theorem shift8_xor (x y : Word) : shift8 (x ^^^ y) = shift8 x ^^^ shift8 y := by simp only [shift8, shift_xor]

theorem shift_even (x : Word) (h : x.getLsbD 0 = false) : shift x = x >>> 1 := by
  unfold shift
  rw [h]
  simp

theorem shift8_high (x : Word) (h : ∀ i, i < 8 → x.getLsbD i = false) : shift8 x = x >>> 8 := by
  have e : ∀ k, k < 8 → shift (x >>> k) = x >>> (k + 1) := by
    intro k hk
    rw [shift_even _ (by simpa using h k hk), ← BitVec.shiftRight_add]
  have e0 : x = x >>> 0 := by simp
  unfold shift8
  rw [e0, e 0, e 1, e 2, e 3, e 4, e 5, e 6, e 7] <;> simp

theorem shift_inj {x y : Word} (h : shift x = shift y) : x = y := by
  have hb : ∀ z : Word, (shift z).getLsbD 31 = z.getLsbD 0 := by
    intro z
    unfold shift
    cases hz : z.getLsbD 0
    · simp
    · simp [poly_eq]
  have h0 : x.getLsbD 0 = y.getLsbD 0 := by rw [← hb x, ← hb y, h]
  have hs : x >>> 1 = y >>> 1 := by
    unfold shift at h
    rw [h0] at h
    have := congrArg (· ^^^ (if y.getLsbD 0 = true then Spec.polynomial else 0#32)) h
    simpa [BitVec.xor_assoc] using this
  apply BitVec.eq_of_getLsbD_eq
  intro i hi
  cases i with
  | zero => exact h0
  | succ i =>
    have := congrArg (fun z : Word => z.getLsbD i) hs
    simpa [Nat.add_comm] using this

theorem shift8_inj {x y : Word} (h : shift8 x = shift8 y) : x = y := by
  unfold shift8 at h
  exact shift_inj (shift_inj (shift_inj (shift_inj (shift_inj (shift_inj (shift_inj (shift_inj h)))))))

theorem bit_eq (x : Word) (b : Bool) : Spec.bit x b = shift (x ^^^ (if b then 1#32 else 0#32)) := by
  unfold Spec.bit shift
  have h1 : (1#32 : Word) >>> 1 = 0#32 := by decide
  have h2 : (1#32 : Word).getLsbD 0 = true := by decide
  have h3 : (0#32 : Word).getLsbD 0 = false := by decide
  simp only [BitVec.ushiftRight_xor_distrib, BitVec.getLsbD_xor]
  cases b <;> cases x.getLsbD 0 <;> simp only [if_true, if_false, h1, h2, h3, Bool.false_eq_true, BitVec.xor_zero, Bool.bne_false,
    Bool.bne_true, bne_self_eq_false, BitVec.zero_ushiftRight, Bool.not_true, Bool.not_false]

/-- Bit `k` of a byte. -/
def at' (b : Byte) (k : Nat) : Word := if b.getLsbD k then 1#32 else 0#32

/-- Eight bits are a byte. -/
theorem byte_eq (x : Word) (b : Byte) : (Spec.bits b).foldl Spec.bit x = shift8 (x ^^^ widen b) := by
  have hw : widen b = at' b 0 ^^^ (at' b 1 <<< 1) ^^^ (at' b 2 <<< 2) ^^^ (at' b 3 <<< 3) ^^^ (at' b 4 <<< 4) ^^^ (at' b 5 <<< 5) ^^^
      (at' b 6 <<< 6) ^^^ (at' b 7 <<< 7) := by
    revert b
    decide +kernel
  have hs : ∀ k, k < 8 → ∀ j, shift (at' b k <<< (j + 1)) = at' b k <<< j ∨ 31 ≤ j := by
    intro k _ j
    by_cases hj : 31 ≤ j
    · exact .inr hj
    · left
      unfold at'
      cases b.getLsbD k
      · simp [shift]
      · rw [if_pos rfl, shift_even _ (by simp)]
        apply BitVec.eq_of_getLsbD_eq
        intro i hi
        simp only [BitVec.getLsbD_ushiftRight, BitVec.getLsbD_shiftLeft]
        have e : 1 + i - (j + 1) = i - j := by omega
        rw [e]
        by_cases h1 : 1 + i < 32
        · have h2 : (1 + i < j + 1) ↔ i < j := by omega
          simp only [h1, hi, h2]
        · have h3 : (1#32 : Word).getLsbD (i - j) = false := by
            have : i - j ≠ 0 := by omega
            simp [BitVec.getLsbD_one, this]
          simp only [h3, Bool.and_false]
  have hs' : ∀ k, k < 8 → ∀ j, j < 8 → shift (at' b k <<< (j + 1)) = at' b k <<< j := by
    intro k hk j hj
    rcases hs k hk j with h | h
    · exact h
    · omega
  have hb : Spec.bits b = [b.getLsbD 0, b.getLsbD 1, b.getLsbD 2, b.getLsbD 3, b.getLsbD 4, b.getLsbD 5, b.getLsbD 6, b.getLsbD 7] := by
    simp [Spec.bits, List.range_succ]
  rw [hb]
  have hb' : ∀ (x : Word) k, Spec.bit x (b.getLsbD k) = shift x ^^^ shift (at' b k) := by
    intro x k
    rw [bit_eq, shift_xor]
    rfl
  simp only [List.foldl_cons, List.foldl_nil, hb', shift8, hw, shift_xor]
  have hz : ∀ k, at' b k <<< 0 = at' b k := by simp
  simp only [hs' 1 (by omega) 0 (by omega), hs' 2 (by omega) 1 (by omega), hs' 2 (by omega) 0 (by omega),
    hs' 3 (by omega) 2 (by omega), hs' 3 (by omega) 1 (by omega), hs' 3 (by omega) 0 (by omega),
    hs' 4 (by omega) 3 (by omega), hs' 4 (by omega) 2 (by omega), hs' 4 (by omega) 1 (by omega), hs' 4 (by omega) 0 (by omega),
    hs' 5 (by omega) 4 (by omega), hs' 5 (by omega) 3 (by omega), hs' 5 (by omega) 2 (by omega), hs' 5 (by omega) 1 (by omega), hs' 5 (by omega) 0 (by omega),
    hs' 6 (by omega) 5 (by omega), hs' 6 (by omega) 4 (by omega), hs' 6 (by omega) 3 (by omega), hs' 6 (by omega) 2 (by omega), hs' 6 (by omega) 1 (by omega), hs' 6 (by omega) 0 (by omega),
    hs' 7 (by omega) 6 (by omega), hs' 7 (by omega) 5 (by omega), hs' 7 (by omega) 4 (by omega), hs' 7 (by omega) 3 (by omega), hs' 7 (by omega) 2 (by omega), hs' 7 (by omega) 1 (by omega), hs' 7 (by omega) 0 (by omega), hz]
  simp only [BitVec.xor_assoc]

/-- Each entry of the table is the register after eight shifts. -/
theorem table_eq (b : Byte) : table[b.toNat]?.getD 0#32 = shift8 (widen b) := by
  revert b
  decide +kernel

theorem low_high (x : Word) : x = widen (x.truncate 8) ^^^ ((x >>> 8) <<< 8) := by
  apply BitVec.eq_of_getLsbD_eq
  intro i hi
  simp only [widen, BitVec.getLsbD_xor, BitVec.truncate_eq_setWidth, BitVec.getLsbD_setWidth, BitVec.getLsbD_shiftLeft, BitVec.getLsbD_ushiftRight, hi, decide_true, Bool.true_and]
  by_cases h : i < 8
  · simp [h]
  · have : 8 + (i - 8) = i := by omega
    simp [h, this]

theorem do1_eq (x : Word) (b : Byte) : do1 x b = shift8 (x ^^^ widen b) := by
  unfold do1
  have e1 : ((x ^^^ widen b) &&& 0xff#32).toNat = ((x ^^^ widen b).truncate 8).toNat := by
    rw [BitVec.toNat_and, BitVec.truncate_eq_setWidth, BitVec.toNat_setWidth]
    exact Nat.and_two_pow_sub_one_eq_mod _ 8
  rw [e1, table_eq]
  have e2 : shift8 (((x ^^^ widen b) >>> 8) <<< 8) = x >>> 8 := by
    rw [shift8_high]
    · apply BitVec.eq_of_getLsbD_eq
      intro i hi
      simp [widen]
      by_cases h : 8 + i < 32
      · simp [h]
      · have : x.getLsbD (8 + i) = false := BitVec.getLsbD_of_ge _ _ (by omega)
        simp [this]
    · intro i hi
      simp [hi]
  have e3 := shift8_xor (widen ((x ^^^ widen b).truncate 8)) (((x ^^^ widen b) >>> 8) <<< 8)
  rw [← low_high, e2] at e3
  exact e3.symm

theorem loop_eq : ∀ (bytes : List Byte) (x : Word), loop x bytes = bytes.foldl do1 x
  | a :: b :: c :: d :: e :: f :: g :: h :: rest, x => by
    rw [loop, loop_eq rest]
    rfl
  | [], _ => rfl
  | [_], _ => rfl
  | [_, _], _ => rfl
  | [_, _, _], _ => rfl
  | [_, _, _, _], _ => rfl
  | [_, _, _, _, _], _ => rfl
  | [_, _, _, _, _, _], _ => rfl
  | [_, _, _, _, _, _, _], _ => rfl

theorem divide_eq : ∀ (bytes : List Byte) (x : Word), bytes.foldl do1 x = Spec.divide x bytes
  | [], _ => rfl
  | b :: bytes, x => by
    rw [List.foldl_cons, divide_eq bytes, do1_eq, ← byte_eq]
    simp [Spec.divide, List.foldl_append]

theorem not_eq_xor (x : Word) : x ^^^ 0xffffffff#32 = ~~~ x := by
  have : (0xffffffff#32 : Word) = BitVec.allOnes 32 := by decide
  rw [this, BitVec.xor_allOnes]

theorem update_eq (digest : Word) (bytes : List Byte) (h : bytes.length < 2 ^ 31) :
    update digest bytes = some (~~~ Spec.divide (~~~ digest) bytes) := by
  unfold update
  rw [if_pos (by omega), loop_eq, divide_eq, not_eq_xor, not_eq_xor]

theorem updates_eq : ∀ (pieces : List (List Byte)) (digest : Word), (∀ p ∈ pieces, p.length < 2 ^ 31) →
    updates digest pieces = some (~~~ Spec.divide (~~~ digest) pieces.flatten)
  | [], digest, _ => by simp [updates, Spec.divide]
  | p :: pieces, digest, h => by
    rw [updates, update_eq _ _ (h p (by simp))]
    show updates _ pieces = _
    rw [updates_eq pieces _ (fun q hq => h q (by simp [hq])), BitVec.not_not]
    simp [Spec.divide, List.foldl_append]

theorem foldl_inj : ∀ (bytes : List Byte) {x y : Word}, bytes.foldl do1 x = bytes.foldl do1 y → x = y
  | [], _, _, h => h
  | b :: bytes, x, y, h => by
    have := foldl_inj bytes h
    rw [do1_eq, do1_eq] at this
    have := congrArg (· ^^^ widen b) (shift8_inj this)
    simpa [BitVec.xor_assoc] using this

theorem widen_high (b : Byte) (k : Nat) (h : k + 16 ≤ 32) : shift8 (widen b <<< (k + 8)) = widen b <<< k := by
  rw [shift8_high]
  · apply BitVec.eq_of_getLsbD_eq
    intro i hi
    simp [widen]
    have e : 8 + i - (k + 8) = i - k := by omega
    rw [e]
    by_cases h1 : i < k
    · simp [h1]; omega
    · simp only [h1, decide_false]
      by_cases h2 : 8 + i < 32
      · have : ¬ (8 + i < k + 8) := by omega
        simp [h2, this, hi]
      · have : b.getLsbD (i - k) = false := BitVec.getLsbD_of_ge _ _ (by omega)
        simp [this]
  · intro i hi
    simp
    omega

/-- Four bytes in one word. -/
def word (a b c d : Byte) : Word := widen a ^^^ widen b <<< 8 ^^^ widen c <<< 16 ^^^ widen d <<< 24

theorem word_inj {a b c d a' b' c' d' : Byte} (h : word a b c d = word a' b' c' d') : a = a' ∧ b = b' ∧ c = c' ∧ d = d' := by
  have hg : ∀ (a b c d : Byte) (i : Nat), i < 8 → (word a b c d).getLsbD i = a.getLsbD i ∧ (word a b c d).getLsbD (i + 8) = b.getLsbD i ∧
      (word a b c d).getLsbD (i + 16) = c.getLsbD i ∧ (word a b c d).getLsbD (i + 24) = d.getLsbD i := by
    intro a b c d i hi
    have hge : ∀ (z : Byte) n, 8 ≤ n → z.getLsbD n = false := fun z n hn => BitVec.getLsbD_of_ge _ _ hn
    simp only [word, widen, BitVec.getLsbD_xor, BitVec.truncate_eq_setWidth, BitVec.getLsbD_setWidth, BitVec.getLsbD_shiftLeft]
    refine ⟨?_, ?_, ?_, ?_⟩
    · have h1 : i < 32 := by omega
      have h2 : i < 16 := by omega
      have h3 : i < 24 := by omega
      simp [h1, h2, h3, hi]
    · have h1 : i + 8 < 32 := by omega
      have h2 : i + 8 < 16 := by omega
      have h3 : i + 8 < 24 := by omega
      have h4 : i < 32 := by omega
      simp [h1, h2, h3, h4, hge a (i + 8) (by omega)]
    · have h1 : i + 16 < 32 := by omega
      have h2 : i + 16 - 8 = i + 8 := by omega
      have h3 : i + 16 < 24 := by omega
      have h4 : i < 32 := by omega
      have h5 : i + 8 < 32 := by omega
      simp [h1, h2, h3, h4, h5, hge a (i + 16) (by omega), hge b (i + 8) (by omega)]
    · have h1 : i + 24 < 32 := by omega
      have h2 : i + 24 - 8 = i + 16 := by omega
      have h3 : i + 24 - 16 = i + 8 := by omega
      have h4 : i < 32 := by omega
      have h5 : i + 8 < 32 := by omega
      have h6 : i + 16 < 32 := by omega
      simp [h1, h2, h3, h4, h5, h6, hge a (i + 24) (by omega), hge b (i + 16) (by omega), hge c (i + 8) (by omega)]
  refine ⟨?_, ?_, ?_, ?_⟩ <;> apply BitVec.eq_of_getLsbD_eq <;> intro i hi
  · rw [← (hg a b c d i hi).1, h, (hg a' b' c' d' i hi).1]
  · rw [← (hg a b c d i hi).2.1, h, (hg a' b' c' d' i hi).2.1]
  · rw [← (hg a b c d i hi).2.2.1, h, (hg a' b' c' d' i hi).2.2.1]
  · rw [← (hg a b c d i hi).2.2.2, h, (hg a' b' c' d' i hi).2.2.2]

theorem four_eq (x : Word) (a b c d : Byte) : [a, b, c, d].foldl do1 x = shift8 (shift8 (shift8 (shift8 (x ^^^ word a b c d)))) := by
  simp only [List.foldl_cons, List.foldl_nil, do1_eq, word, shift8_xor]
  have h1 := widen_high b 0 (by omega)
  have h2 := widen_high c 0 (by omega)
  have h3 := widen_high c 8 (by omega)
  have h4 := widen_high d 0 (by omega)
  have h5 := widen_high d 8 (by omega)
  have h6 := widen_high d 16 (by omega)
  simp only [Nat.zero_add, BitVec.shiftLeft_zero, Nat.reduceAdd] at h1 h2 h3 h4 h5 h6
  rw [h1, h3, h2, h6, h5, h4]
  simp only [BitVec.xor_assoc]

/-! ## C164 -/

/-- The checksum of a message of less than two gibibytes is its CRC-32. -/
theorem C164_standard (message : List (BitVec 8)) (h : message.length < 2 ^ 31) : update 0#32 message = some (Spec.crc32 message) :=
  update_eq _ _ h

/-- It does not matter in which pieces the message comes. -/
theorem C164_pieces (pieces : List (List (BitVec 8))) (h : ∀ p ∈ pieces, p.length < 2 ^ 31) :
    updates 0#32 pieces = some (Spec.crc32 pieces.flatten) :=
  updates_eq pieces _ h

/-- A change that is confined to four bytes in a row is always noticed, wherever it is, whatever the bytes around it are and with
whatever checksum the computation starts. -/
theorem C164_burst (seed : BitVec 32) (before after : List (BitVec 8)) (a b c d a' b' c' d' : BitVec 8)
    (hlen : before.length + 4 + after.length < 2 ^ 31) (hne : [a, b, c, d] ≠ [a', b', c', d']) :
    update seed (before ++ [a, b, c, d] ++ after) ≠ update seed (before ++ [a', b', c', d'] ++ after) := by
  intro h
  rw [update_eq _ _ (by simp; omega), update_eq _ _ (by simp; omega)] at h
  injection h with h
  have h := congrArg (~~~ ·) h
  simp only [BitVec.not_not] at h
  rw [← divide_eq, ← divide_eq, List.foldl_append, List.foldl_append, List.foldl_append, List.foldl_append] at h
  have h := foldl_inj after h
  rw [four_eq, four_eq] at h
  have h := shift8_inj (shift8_inj (shift8_inj (shift8_inj h)))
  generalize List.foldl do1 (~~~seed) before = x at h
  have h := congrArg (x ^^^ ·) h
  simp only [← BitVec.xor_assoc, BitVec.xor_self, BitVec.zero_xor] at h
  obtain ⟨rfl, rfl, rfl, rfl⟩ := word_inj h
  exact hne rfl

/-- A change of a single byte is noticed too. -/
theorem C164_byte (seed : BitVec 32) (before after : List (BitVec 8)) (a a' : BitVec 8) (hlen : before.length + 1 + after.length < 2 ^ 31) (hne : a ≠ a') :
    update seed (before ++ a :: after) ≠ update seed (before ++ a' :: after) := by
  intro h
  rw [update_eq _ _ (by simp; omega), update_eq _ _ (by simp; omega)] at h
  injection h with h
  have h := congrArg (~~~ ·) h
  simp only [BitVec.not_not] at h
  rw [← divide_eq, ← divide_eq, List.foldl_append, List.foldl_append, List.foldl_cons, List.foldl_cons] at h
  have h := foldl_inj after h
  rw [do1_eq, do1_eq] at h
  have h := shift8_inj h
  generalize List.foldl do1 (~~~seed) before = x at h
  have h := congrArg (x ^^^ ·) h
  simp only [← BitVec.xor_assoc, BitVec.xor_self, BitVec.zero_xor] at h
  apply hne
  have h := congrArg (BitVec.setWidth 8) h
  simpa [widen] using h

/-- The checksum of "123456789" is the one that the catalogues of checksums give: 0xcbf43926. -/
example : update 0#32 [0x31#8, 0x32#8, 0x33#8, 0x34#8, 0x35#8, 0x36#8, 0x37#8, 0x38#8, 0x39#8] = some 0xcbf43926#32 := by decide +kernel

/-- In the tests of the code: "foo", and its characters one by one. -/
example : update 0#32 [0x66#8, 0x6f#8, 0x6f#8] = some 2356372769#32 ∧ updates 0#32 [[0x66#8], [0x6f#8], [0x6f#8]] = some 2356372769#32 := by decide +kernel

end Verif.Crc
