import Verif.Bitmap.Null
import Verif.Bitmap.EwahOps

/-!
# Null bitmap: representation invariant
-/

namespace Verif.Bitmap

open Spec

/-- The full blocks are the leading words of the content; the last block holds the rest in its low
`k` bits, `1 ≤ k ≤ 64`. -/
def NullRep (s : NullBitmap) (l : List Bool) : Prop :=
  s.numBits = l.length ∧
  ((s.blocks = [] ∧ l = []) ∨
   ∃ pre last k, s.blocks = pre ++ [last] ∧ 1 ≤ k ∧ k ≤ 64 ∧ l.length = 64 * pre.length + k
      ∧ l = pre.flatMap (wbits 64) ++ wbits k last)

theorem NullRep.mk_of {pre : List Word} {last : Word} {k n : Nat} {l : List Bool} (hk1 : 1 ≤ k)
    (hk2 : k ≤ 64) (hl : l = pre.flatMap (wbits 64) ++ wbits k last) (hn : n = l.length) :
    NullRep ⟨pre ++ [last], n⟩ l :=
  ⟨hn, Or.inr ⟨pre, last, k, rfl, hk1, hk2, by rw [hl, List.length_append, flatMap_wbits_length, wbits_length], hl⟩⟩

/-- Extending the last, partial block in place. -/
theorem NullRep.extend {pre : List Word} {last last' : Word} {k j : Nat} {l : List Bool} {v : Word}
    (hl : l = pre.flatMap (wbits 64) ++ wbits k last)
    (hlow : ∀ i, i < k → last'.getLsbD i = last.getLsbD i)
    (hhigh : ∀ i, i < j → last'.getLsbD (k + i) = v.getLsbD i) :
    l ++ wbits j v = pre.flatMap (wbits 64) ++ wbits (k + j) last' := by
  rw [hl, List.append_assoc]
  congr 1
  exact wbits_append hlow hhigh

theorem wbits_fill_bit {n : Nat} (h : n ≤ 64) (x : Bool) :
    wbits n (if x then Word.all else Word.none) = List.replicate n x := wbits_fillWord h x

theorem getLsbD_all_shl (p i : Nat) : (Word.all <<< p).getLsbD i = (decide (i < 64) && decide (p ≤ i)) := by
  rw [BitVec.getLsbD_shiftLeft, getLsbD_all]
  by_cases h1 : i < 64 <;> by_cases h2 : i < p <;> simp [h1, h2] <;> omega

theorem appendBit_null {s : NullBitmap} {l : List Bool} (h : NullRep s l) (x : Bool) :
    ∃ s', s.appendBit x = some s' ∧ NullRep s' (l ++ [x]) := by
  obtain ⟨hlen, h⟩ := h
  have e1 : [x] = wbits 1 (if x then Word.all else Word.none) := by
    rw [wbits_fill_bit (by omega)]; rfl
  refine ⟨_, rfl, ?_⟩
  rcases h with ⟨hb, hl⟩ | ⟨pre, last, k, hb, hk1, hk2, hpl, hl⟩
  · have : s.partialBits = 0 := by rw [NullBitmap.partialBits, hlen, hl]; rfl
    rw [if_pos this, hb]
    exact NullRep.mk_of (k := 1) (by omega) (by omega) (by rw [hl, e1]; simp) (by simp [hlen])
  · by_cases hk : k = 64
    · have : s.partialBits = 0 := by rw [NullBitmap.partialBits, hlen]; omega
      rw [if_pos this, hb]
      subst hk
      exact NullRep.mk_of (k := 1) (by omega) (by omega) (by rw [hl, e1]; simp) (by simp [hlen])
    · have hp : s.partialBits = k := by rw [NullBitmap.partialBits, hlen]; omega
      rw [hp, if_neg (by omega), hb, setBack_concat, setBack_concat]
      cases x
      · rw [if_neg (by simp)]
        refine NullRep.mk_of (k := k + 1) (by omega) (by omega) ?_ (by simp [hlen])
        rw [e1]
        apply NullRep.extend hl
        · intro i hi
          rw [BitVec.getLsbD_and, BitVec.getLsbD_not, getLsbD_all_shl]
          have : ¬ k ≤ i := by omega
          have : i < 64 := by omega
          simp [*]
        · intro i hi
          rw [BitVec.getLsbD_and, BitVec.getLsbD_not, getLsbD_all_shl]
          have : k + i < 64 := by omega
          simp [this, Word.none]
      · rw [if_pos rfl]
        refine NullRep.mk_of (k := k + 1) (by omega) (by omega) ?_ (by simp [hlen])
        rw [e1]
        apply NullRep.extend hl
        · intro i hi
          rw [BitVec.getLsbD_or, getLsbD_all_shl]
          have : ¬ k ≤ i := by omega
          simp [*]
        · intro i hi
          rw [BitVec.getLsbD_or, getLsbD_all_shl]
          have : k + i < 64 := by omega
          have : i < 64 := by omega
          simp [*]

/-- Appending whole words of one kind after complete content. -/
theorem replicate_words (n : Nat) (hn : 1 ≤ n) (x : Bool) :
    ∃ j k, 1 ≤ k ∧ k ≤ 64 ∧ n = 64 * j + k
      ∧ List.replicate n x
        = (List.replicate j (if x then Word.all else Word.none)).flatMap (wbits 64)
          ++ wbits k (if x then Word.all else Word.none) := by
  refine ⟨(n - 1) / 64, n - 64 * ((n - 1) / 64), by omega, by omega, by omega, ?_⟩
  rw [wbits_fill_bit (by omega)]
  have : (List.replicate ((n - 1) / 64) (if x then Word.all else Word.none)).flatMap (wbits 64)
      = List.replicate (64 * ((n - 1) / 64)) x := by
    have := flatMap_wbits_fill ((n - 1) / 64) x
    simpa [fillWord, Nat.mul_comm] using this
  rw [this, List.replicate_append_replicate]
  congr 1
  omega

theorem appendBits_null {s : NullBitmap} {l : List Bool} (h : NullRep s l) (x : Bool) (n : Nat) :
    ∃ s', s.appendBits x n = some s' ∧ NullRep s' (l ++ List.replicate n x) := by
  have h0 := h
  obtain ⟨hlen, h⟩ := h
  refine ⟨_, rfl, ?_⟩
  rw [NullBitmap.resize]
  by_cases hn : n = 0
  · subst hn
    rw [if_pos (by omega)]
    simp only [List.replicate_zero, List.append_nil, Nat.add_zero]
    have : (s.blocks.take (NullBitmap.bitsToBlocks s.numBits)
        ++ List.replicate (NullBitmap.bitsToBlocks s.numBits - s.blocks.length) 0#64) = s.blocks := by
      have hbl : NullBitmap.bitsToBlocks s.numBits = s.blocks.length := by
        rw [NullBitmap.bitsToBlocks]
        rcases h with ⟨hb, hl⟩ | ⟨pre, last, k, hb, hk1, hk2, hpl, hl⟩
        · rw [if_pos (by rw [hlen, hl]; rfl), hb]; rfl
        · rw [if_neg (by omega), hb]
          simp only [List.length_append, List.length_cons, List.length_nil]
          omega
      rw [hbl]; simp
    rw [this]
    exact h0
  · rw [if_neg (by omega)]
    -- append complete words behind complete content
    have whole : ∀ (bs : List Word) (l' : List Bool) (m : Nat), 1 ≤ m →
        l' = bs.flatMap (wbits 64) → s.numBits + n = l'.length + m →
        l ++ List.replicate n x = l' ++ List.replicate m x →
        NullRep ⟨bs.take (NullBitmap.bitsToBlocks (s.numBits + n))
          ++ List.replicate (NullBitmap.bitsToBlocks (s.numBits + n) - bs.length)
            (if x then Word.all else Word.none), s.numBits + n⟩ (l ++ List.replicate n x) := by
      intro bs l' m hm hl' hlen' heq
      obtain ⟨j, k, hk1, hk2, hmj, hrep⟩ := replicate_words m hm x
      have hbl : bs.flatMap (wbits 64) = l' := hl'.symm
      have hl64 : l'.length = 64 * bs.length := by rw [hl', flatMap_wbits_length]
      have hb2 : NullBitmap.bitsToBlocks (s.numBits + n) = bs.length + (j + 1) := by
        rw [NullBitmap.bitsToBlocks, if_neg (by omega)]
        omega
      rw [hb2, List.take_of_length_le (by omega), Nat.add_sub_cancel_left, List.replicate_succ',
        ← List.append_assoc]
      refine NullRep.mk_of hk1 hk2 ?_ (by simp [hlen])
      rw [heq, hrep, List.flatMap_append, hbl, List.append_assoc]
    rcases h with ⟨hb, hl⟩ | ⟨pre, last, k, hb, hk1, hk2, hpl, hl⟩
    · have hp : s.partialBits = 0 := by rw [NullBitmap.partialBits, hlen, hl]; rfl
      simp only [hp, Nat.lt_irrefl, gt_iff_lt, if_false, false_and]
      exact whole s.blocks [] n (by omega) (by simp [hb]) (by rw [hlen, hl]) (by rw [hl])
    · by_cases hk : k = 64
      · have hp : s.partialBits = 0 := by rw [NullBitmap.partialBits, hlen]; omega
        simp only [hp, Nat.lt_irrefl, gt_iff_lt, if_false, false_and]
        subst hk
        exact whole s.blocks l n (by omega) (by simp [hb, hl]) (by rw [hlen]) rfl
      · have hp : s.partialBits = k := by rw [NullBitmap.partialBits, hlen]; omega
        simp only [hp]
        have hkpos : k > 0 := hk1
        simp only [hkpos, if_true, true_and]
        rw [hb, setBack_concat]
        generalize hq : (if x = true then last ||| Word.all <<< k else last &&& ~~~(Word.all <<< k)) = last'
        have hlow : ∀ i, i < k → last'.getLsbD i = last.getLsbD i := by
          intro i hi
          have h1 : ¬ k ≤ i := by omega
          have h2 : i < 64 := by omega
          rw [← hq]
          cases x
          · rw [if_neg (by simp), BitVec.getLsbD_and, BitVec.getLsbD_not, getLsbD_all_shl]
            simp [h1, h2]
          · rw [if_pos rfl, BitVec.getLsbD_or, getLsbD_all_shl]
            simp [h1]
        have hhigh : ∀ i, k + i < 64 → last'.getLsbD (k + i)
            = (if x then Word.all else Word.none).getLsbD i := by
          intro i hi
          have h2 : i < 64 := by omega
          rw [← hq]
          cases x
          · rw [if_neg (by simp), BitVec.getLsbD_and, BitVec.getLsbD_not, getLsbD_all_shl]
            simp [hi, Word.none]
          · rw [if_pos rfl, BitVec.getLsbD_or, getLsbD_all_shl]
            simp [h2, hi]
        by_cases hfit : s.numBits + n - s.numBits ≤ 64 - k
        · rw [if_pos hfit]
          refine NullRep.mk_of (k := k + n) (by omega) (by omega) ?_ (by simp [hlen])
          rw [← wbits_fill_bit (show n ≤ 64 by omega)]
          apply NullRep.extend hl hlow
          intro i hi
          exact hhigh i (by omega)
        · rw [if_neg hfit]
          refine whole (pre ++ [last']) (l ++ List.replicate (64 - k) x) (n - (64 - k)) (by omega) ?_ ?_ ?_
          · rw [← wbits_fill_bit (show 64 - k ≤ 64 by omega),
              NullRep.extend hl hlow (fun i hi => hhigh i (by omega)),
              show k + (64 - k) = 64 by omega]
            simp
          · rw [hlen]; simp; omega
          · rw [List.append_assoc, List.replicate_append_replicate]
            congr 2
            omega

theorem appendBlock_null {s : NullBitmap} {l : List Bool} (h : NullRep s l) (v : Word) {n : Nat}
    (hn1 : 1 ≤ n) (hn2 : n ≤ 64) :
    ∃ s', s.appendBlock v n = some s' ∧ NullRep s' (l ++ wbits n v) := by
  obtain ⟨hlen, h⟩ := h
  rw [NullBitmap.appendBlock, if_neg (by omega)]
  refine ⟨_, rfl, ?_⟩
  rcases h with ⟨hb, hl⟩ | ⟨pre, last, k, hb, hk1, hk2, hpl, hl⟩
  · have : s.partialBits = 0 := by rw [NullBitmap.partialBits, hlen, hl]; rfl
    simp only [this, if_true, hb]
    exact NullRep.mk_of (pre := []) hn1 hn2 (by rw [hl]; simp) (by simp [hlen])
  · by_cases hk : k = 64
    · have : s.partialBits = 0 := by rw [NullBitmap.partialBits, hlen]; omega
      simp only [this, if_true, hb]
      subst hk
      exact NullRep.mk_of hn1 hn2 (by rw [hl]; simp) (by simp [hlen])
    · have hp : s.partialBits = k := by rw [NullBitmap.partialBits, hlen]; omega
      have hk0 : ¬ k = 0 := by omega
      simp only [hp, hk0, if_false, hb, setBack_concat]
      generalize hq : (last &&& Word.lsbMask k) ||| (v <<< k) = last'
      have hlow : ∀ i, i < k → last'.getLsbD i = last.getLsbD i := by
        intro i hi
        have h2 : i < 64 := by omega
        rw [← hq, BitVec.getLsbD_or, BitVec.getLsbD_and, getLsbD_lsbMask, BitVec.getLsbD_shiftLeft]
        simp [hi, h2]
      have hhigh : ∀ i, k + i < 64 → last'.getLsbD (k + i) = v.getLsbD i := by
        intro i hi
        rw [← hq, BitVec.getLsbD_or, BitVec.getLsbD_and, getLsbD_lsbMask, BitVec.getLsbD_shiftLeft]
        have h2 : ¬ k + i < k := by omega
        simp [hi, h2]
      by_cases hfit : n > 64 - k
      · rw [if_pos hfit]
        refine NullRep.mk_of (k := n - (64 - k)) (by omega) (by omega) ?_ (by simp [hlen])
        have e : wbits n v = wbits (64 - k) v ++ wbits (n - (64 - k)) (v >>> (64 - k)) := by
          conv => lhs; rw [show n = (64 - k) + (n - (64 - k)) by omega]
          symm
          apply wbits_append
          · intro i hi; rfl
          · intro i hi
            rw [BitVec.getLsbD_ushiftRight]
        rw [e, ← List.append_assoc, NullRep.extend hl hlow (fun i hi => hhigh i (by omega)),
          show k + (64 - k) = 64 by omega]
        simp
      · rw [if_neg hfit]
        refine NullRep.mk_of (k := k + n) (by omega) (by omega) ?_ (by simp [hlen])
        exact NullRep.extend hl hlow fun i hi => hhigh i (by omega)

theorem wbits_not {n : Nat} (h : n ≤ 64) (w : Word) : wbits n (~~~w) = (wbits n w).map (!·) := by
  symm
  apply list_ext_wbits (by simp)
  intro i hi
  rw [List.getElem?_map, wbits_getElem?, if_pos hi, BitVec.getLsbD_not]
  have : i < 64 := by omega
  simp [this]

theorem flip_null {s : NullBitmap} {l : List Bool} (h : NullRep s l) :
    ∃ s', s.flip = some s' ∧ NullRep s' (l.map (!·)) := by
  obtain ⟨hlen, h⟩ := h
  refine ⟨_, rfl, ?_⟩
  rcases h with ⟨hb, hl⟩ | ⟨pre, last, k, hb, hk1, hk2, hpl, hl⟩
  · exact ⟨by simp [hlen], Or.inl ⟨by simp [hb], by simp [hl]⟩⟩
  · rw [hb, List.map_append]
    refine NullRep.mk_of hk1 hk2 ?_ (by simp [hlen])
    rw [hl, List.map_append, wbits_not hk2]
    congr 1
    rw [List.map_flatMap, List.flatMap_map]
    congr 1
    funext w
    exact (wbits_not (by omega) w).symm

theorem run_null {ops : List Op} (hv : ∀ op ∈ ops, op.valid) :
    ∃ s, NullBitmap.run ops = some s ∧ NullRep s (history ops) := by
  have : ∀ (ops : List Op) (s : NullBitmap) (l : List Bool), (∀ op ∈ ops, op.valid) → NullRep s l →
      ∃ s', ops.foldlM NullBitmap.step s = some s' ∧ NullRep s' (ops.foldl Op.apply l) := by
    intro ops
    induction ops with
    | nil => exact fun s l _ h => ⟨s, rfl, h⟩
    | cons op ops ih =>
      intro s l hv h
      have hop := hv op (by simp)
      have : ∃ s', s.step op = some s' ∧ NullRep s' (op.apply l) := by
        cases op with
        | bit b => exact appendBit_null h b
        | bits b n => exact appendBits_null h b n
        | block v n => exact appendBlock_null h v hop.1 hop.2
        | flip => exact flip_null h
      obtain ⟨s', h1, h2⟩ := this
      obtain ⟨s2, h3, h4⟩ := ih s' _ (fun o ho => hv o (by simp [ho])) h2
      exact ⟨s2, by rw [List.foldlM_cons, h1]; exact h3, h4⟩
  exact this ops {} [] hv ⟨rfl, Or.inl ⟨rfl, rfl⟩⟩

/-! ## Iteration -/

/-- The run swallowed the last, partial block `last` although its bits are those of `data`. -/
def Swallow (data last : Word) (part : Nat) : Prop :=
  0 < part ∧ (last &&& Word.mask part) = (data &&& Word.mask part)

theorem scanRun_spec {part : Nat} {t : Bool} {last : Word} (hpart : part < 64) :
    ∀ (pre : List Word) (n : Nat),
      let k := if part = 0 then 64 else part
      let out := NullBitmap.scanRun part (fillWord t) (pre ++ [last]) n
      (∃ pre', out.1 = pre' ++ [last]
        ∧ List.replicate out.2 t ++ pre'.flatMap (wbits 64)
          = List.replicate n t ++ pre.flatMap (wbits 64))
      ∨ (out.1 = [] ∧ out.2 = n + 64 * pre.length + k ∧ pre = List.replicate pre.length (fillWord t)
        ∧ (part = 0 → last = fillWord t)
        ∧ (0 < part → (last &&& Word.mask part) = (fillWord t &&& Word.mask part)))
  | [], n => by
    by_cases hp : part = 0
    · subst hp
      by_cases he : last = fillWord t
      · refine Or.inr ?_
        simp [NullBitmap.scanRun, he]
      · refine Or.inl ⟨[], ?_⟩
        simp [NullBitmap.scanRun, he]
    · have hp' : part > 0 := by omega
      by_cases he : (last &&& Word.mask part) = (fillWord t &&& Word.mask part)
      · refine Or.inr ?_
        simp [NullBitmap.scanRun, he, hp, hp']
      · refine Or.inl ⟨[], ?_⟩
        simp [NullBitmap.scanRun, he, hp']
  | b :: pre, n => by
    have e : ∃ r rs, pre ++ [last] = r :: rs := by
      cases pre with
      | nil => exact ⟨last, [], rfl⟩
      | cons c cs => exact ⟨c, cs ++ [last], rfl⟩
    obtain ⟨r, rs, e⟩ := e
    rw [List.cons_append, e]
    simp only [NullBitmap.scanRun]
    split
    · next hb =>
      rw [← e]
      rcases scanRun_spec hpart pre (n + 64) with ⟨pre', h1, h2⟩ | ⟨h1, h2, h3, h4⟩
      · refine Or.inl ⟨pre', h1, ?_⟩
        rw [h2, hb, List.flatMap_cons, ← List.append_assoc, wbits_fillWord (by omega),
          List.replicate_append_replicate]
      · refine Or.inr ⟨h1, ?_, ?_, h4⟩
        · rw [h2]; simp only [List.length_cons]; omega
        · rw [List.length_cons, List.replicate_succ, ← h3, hb]
    · rw [← e]
      exact Or.inl ⟨b :: pre, rfl, rfl⟩

/-- What the iteration yields: either everything, or everything up to the last complete word and
then, instead of the partial word, copies of the value of the homogeneous word before it. -/
theorem runs_null {part : Nat} {last : Word} (hpart : part < 64) (pre : List Word) :
    let k := if part = 0 then 64 else part
    concat (NullBitmap.runs part (pre ++ [last])) = pre.flatMap (wbits 64) ++ wbits k last
    ∨ (0 < part ∧ ∃ pre' t, pre = pre' ++ [fillWord t]
        ∧ concat (NullBitmap.runs part (pre ++ [last]))
          = pre.flatMap (wbits 64) ++ List.replicate part t) := by
  intro k
  generalize hm : pre.length = m
  induction m using Nat.strongRecOn generalizing pre with
  | ind m ih =>
    match pre, hm with
    | [], _ =>
      left
      rw [List.nil_append, NullBitmap.runs]
      simp only [concat, List.flatMap_cons, List.flatMap_nil, List.append_nil, List.nil_append]
      rw [toList_mk' (by split <;> omega)]
    | b :: pre, hm =>
      have e : ∃ r rs, pre ++ [last] = r :: rs := by
        cases pre with
        | nil => exact ⟨last, [], rfl⟩
        | cons c cs => exact ⟨c, cs ++ [last], rfl⟩
      obtain ⟨r, rs, e⟩ := e
      simp only [List.length_cons] at hm
      cases hb : Word.allOrNone b
      · have hrun : concat (NullBitmap.runs part (b :: pre ++ [last]))
            = wbits 64 b ++ concat (NullBitmap.runs part (pre ++ [last])) := by
          rw [List.cons_append, e, NullBitmap.runs, hb, ← e]
          simp only [Bool.not_false, if_true, concat, List.flatMap_cons]
          rw [toList_mk' (by omega)]
        rw [hrun]
        rcases ih pre.length (by omega) pre rfl with h | ⟨h0, pre', t, h1, h2⟩
        · left
          rw [h, List.flatMap_cons, List.append_assoc]
        · right
          refine ⟨h0, b :: pre', t, by rw [h1]; rfl, ?_⟩
          rw [h2, List.flatMap_cons, List.append_assoc]
      · have hf := allOrNone_fill hb
        generalize (b != 0#64) = t at hf
        subst hf
        have hrun : concat (NullBitmap.runs part (fillWord t :: pre ++ [last]))
            = List.replicate (NullBitmap.scanRun part (fillWord t) (pre ++ [last]) 64).2 t
              ++ concat (NullBitmap.runs part (NullBitmap.scanRun part (fillWord t) (pre ++ [last]) 64).1) := by
          rw [List.cons_append, e, NullBitmap.runs, hb, ← e]
          simp only [Bool.not_true, Bool.false_eq_true, if_false, concat, List.flatMap_cons]
          rw [toList_run t rfl]
        rw [hrun]
        have hlen := NullBitmap.scanRun_length part (fillWord t) (pre ++ [last]) 64
        rcases scanRun_spec (t := t) (last := last) hpart pre 64 with ⟨pre', h1, h2⟩ | ⟨h1, h2, h3, h4, h5⟩
        · rw [h1] at hlen ⊢
          simp only [List.length_append, List.length_cons, List.length_nil] at hlen
          have hcat : List.replicate (NullBitmap.scanRun part (fillWord t) (pre ++ [last]) 64).2 t
              ++ pre'.flatMap (wbits 64) = (fillWord t :: pre).flatMap (wbits 64) := by
            rw [h2, List.flatMap_cons, wbits_fillWord (by omega)]
          rcases ih pre'.length (by omega) pre' rfl with h | ⟨h0, pre'', t', hp, hq⟩
          · left
            rw [h, ← List.append_assoc, hcat]
          · right
            refine ⟨h0, ?_⟩
            -- the last complete word is the last one of `pre'`
            have hsuf : ∃ front, fillWord t :: pre = front ++ pre' := by
              have := scanRun_suffix part (fillWord t) (pre ++ [last]) 64
              obtain ⟨front, hfront⟩ := this
              rw [h1] at hfront
              have : pre = front ++ pre' := by
                have := congrArg List.dropLast hfront
                simpa [← List.append_assoc] using this
              exact ⟨fillWord t :: front, by rw [this]; rfl⟩
            obtain ⟨front, hfront⟩ := hsuf
            refine ⟨front ++ pre'', t', by rw [hfront, hp, List.append_assoc], ?_⟩
            rw [hq, ← List.append_assoc, hcat]
        · rw [h1, h2]
          have hall : List.replicate (64 + 64 * pre.length) t = (fillWord t :: pre).flatMap (wbits 64) := by
            rw [h3, List.length_replicate, ← List.replicate_succ, flatMap_wbits_fill]
            congr 1
            omega
          have hnil : concat (NullBitmap.runs part []) = [] := by rw [NullBitmap.runs]; rfl
          rw [hnil, List.append_nil, ← List.replicate_append_replicate, hall]
          by_cases hp : part = 0
          · left
            rw [h4 hp, wbits_fillWord (by simp only [k]; split <;> omega)]
          · right
            have hk : k = part := if_neg hp
            refine ⟨by omega, List.replicate pre.length (fillWord t), t, ?_, ?_⟩
            · rw [← List.replicate_succ', List.replicate_succ, ← h3]
            · congr 2
where
  scanRun_suffix (part : Nat) (data : Word) : ∀ (bs : List Word) (n : Nat),
      ∃ front, bs = front ++ (NullBitmap.scanRun part data bs n).1
    | [], _ => ⟨[], by simp [NullBitmap.scanRun]⟩
    | [x], n => by
      rw [NullBitmap.scanRun]
      split
      · split
        · exact ⟨[x], rfl⟩
        · exact ⟨[], rfl⟩
      · split
        · exact ⟨[x], rfl⟩
        · exact ⟨[], rfl⟩
    | b :: r :: rs, n => by
      rw [NullBitmap.scanRun]
      split
      · obtain ⟨front, h⟩ := scanRun_suffix part data (r :: rs) (n + 64)
        exact ⟨b :: front, by rw [List.cons_append, ← h]⟩
      · exact ⟨[], rfl⟩

end Verif.Bitmap
