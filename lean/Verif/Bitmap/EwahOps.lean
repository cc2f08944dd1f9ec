import Verif.Bitmap.EwahLemmas

/-!
# EWAH: the operations refine lists of booleans
-/

namespace Verif.Bitmap

open Ewah Spec

/-- The booleans of full words `ws` and a last word of `p` bits. -/
def content (ws : List Word) (last : Word) (p : Nat) : List Bool :=
  ws.flatMap (wbits 64) ++ wbits p last

theorem flatMap_wbits_length (ws : List Word) : (ws.flatMap (wbits 64)).length = 64 * ws.length := by
  induction ws with
  | nil => rfl
  | cons w ws ih => simp only [List.flatMap_cons, List.length_append, ih, wbits_length, List.length_cons]; omega

theorem content_length (ws : List Word) (last : Word) (p : Nat) :
    (content ws last p).length = 64 * ws.length + p := by
  rw [content, List.length_append, flatMap_wbits_length, wbits_length]

/-- A bitmap represents a list of booleans. -/
def Represents (s : EwahBitmap) (l : List Bool) : Prop :=
  (s = {} ∧ l = []) ∨ ∃ ws last p, Rep s ws last p ∧ l = content ws last p

theorem Rep.blocks_ne {s : EwahBitmap} {ws : List Word} {last : Word} {p : Nat} (h : Rep s ws last p) :
    s.blocks ≠ [] := by rw [h.1]; simp

theorem Rep.mod {s : EwahBitmap} {ws : List Word} {last : Word} {p : Nat} (h : Rep s ws last p) :
    s.numBits % 64 = if p = 64 then 0 else p := by
  obtain ⟨-, -, h1, h2, h3, -⟩ := h
  rw [h1]; split <;> omega

theorem Rep.integrate {s : EwahBitmap} {ws : List Word} {last : Word} (h : Rep s ws last 64) :
    ∃ s', s.integrateLastBlock = some s' ∧ RepM s' (ws ++ [last]) :=
  integrate_rep h.1 h.2.1 (by rw [h.2.2.1]; omega)

theorem repM_empty : RepM { blocks := [0#64] } [] := ⟨rfl, rfl, rfl⟩

theorem setBack_concat (bs : List Word) (w : Word) (f : Word → Word) :
    EwahBitmap.setBack (bs ++ [w]) f = bs ++ [f w] := by
  rw [EwahBitmap.setBack, List.dropLast_concat, getLastD_append_singleton]

/-- Writing `k` more bits into the last word. -/
theorem Rep.extend {s : EwahBitmap} {ws : List Word} {last : Word} {p : Nat} (h : Rep s ws last p)
    {k : Nat} (hk : p + k ≤ 64) {w : Word} (hw : ∀ i, k ≤ i → w.getLsbD i = false) :
    Rep { s with blocks := EwahBitmap.setBack s.blocks (· ||| (w <<< p)), numBits := s.numBits + k }
        ws (last ||| (w <<< p)) (p + k)
      ∧ content ws last p ++ wbits k w = content ws (last ||| (w <<< p)) (p + k) := by
  obtain ⟨h1, h2, h3, h4, h5, h6⟩ := h
  refine ⟨⟨?_, h2, ?_, by omega, hk, ?_⟩, ?_⟩
  · simp only
    rw [h1, setBack_concat]
  · simp only; omega
  · intro i hi
    rw [BitVec.getLsbD_or, h6 i (by omega), BitVec.getLsbD_shiftLeft, hw (i - p) (by omega)]
    simp
  · rw [content, content, List.append_assoc]
    congr 1
    apply wbits_append
    · intro i hi
      rw [BitVec.getLsbD_or, BitVec.getLsbD_shiftLeft]
      have : i < p := hi
      simp [this]
    · intro i hi
      rw [BitVec.getLsbD_or, h6 (p + i) (by omega), BitVec.getLsbD_shiftLeft]
      have h7 : p + i < 64 := by omega
      simp [h7]

theorem Rep.extend_false {s : EwahBitmap} {ws : List Word} {last : Word} {p : Nat} (h : Rep s ws last p)
    {k : Nat} (hk : p + k ≤ 64) :
    Rep { s with numBits := s.numBits + k } ws last (p + k)
      ∧ content ws last p ++ List.replicate k false = content ws last (p + k) := by
  have hh := h
  obtain ⟨h1, h2, h3, h4, h5, h6⟩ := h
  have h8 := (hh.extend hk (w := Word.none) (by simp)).2
  have e1 : last ||| (Word.none <<< p) = last := by
    apply BitVec.eq_of_getLsbD_eq
    intro i hi
    rw [BitVec.getLsbD_or, BitVec.getLsbD_shiftLeft]; simp only [getLsbD_none]; simp
  rw [e1] at h8
  refine ⟨⟨h1, h2, by simp only; omega, by omega, hk, fun i hi => h6 i (by omega)⟩, ?_⟩
  rw [← h8]
  congr 1
  exact (wbits_fillWord (by omega) false).symm

theorem content_snoc_full (ws : List Word) (last : Word) :
    content ws last 64 = (ws ++ [last]).flatMap (wbits 64) := by
  simp [content]

theorem wbits_lsbFill {p : Nat} (hp : p ≤ 64) (bit : Bool) :
    wbits p (if bit then Word.lsbFill p else Word.none) = List.replicate p bit := by
  rw [← wbits_fillWord hp]
  apply wbits_congr
  intro i hi
  cases bit
  · simp [fillWord]
  · simp only [if_true, fillWord]
    rw [getLsbD_lsbFill hp, getLsbD_all]
    simp; omega

theorem flatMap_wbits_fill (c : Nat) (bit : Bool) :
    (List.replicate c (fillWord bit)).flatMap (wbits 64) = List.replicate (64 * c) bit := by
  induction c with
  | zero => rfl
  | succ c ih =>
    rw [List.replicate_succ, List.flatMap_cons, ih, wbits_fillWord (by omega), List.replicate_append_replicate]
    congr 1; omega

theorem appendAligned_rep {s : EwahBitmap} {ws : List Word} (h : RepM s ws) (bit : Bool) {n : Nat}
    (hn : 1 ≤ n) :
    ∃ s', s.appendAligned bit n = some s'
      ∧ Represents s' (ws.flatMap (wbits 64) ++ List.replicate n bit) := by
  rw [EwahBitmap.appendAligned]
  split
  · next hle =>
    refine ⟨_, rfl, Or.inr ⟨ws, _, n, h.push hn hle ?_, ?_⟩⟩
    · intro i hi
      cases bit
      · simp
      · rw [if_pos rfl, getLsbD_lsbFill hle]; simp; omega
    · rw [content, wbits_lsbFill hle]
  · next hgt =>
    obtain ⟨s', ws', p, h1, h2, h3, h4⟩ := appendClean_rep h bit (n := n) (by omega)
    refine ⟨s', h1, Or.inr ⟨ws', _, p, h2, ?_⟩⟩
    have hp : p ≤ 64 := h2.2.2.2.2.1
    rw [content, wbits_lsbFill hp, h3, List.flatMap_append, flatMap_wbits_fill, List.append_assoc,
      List.replicate_append_replicate]
    congr 2
    rw [h4]; split <;> omega

theorem appendBits_rep {s : EwahBitmap} {l : List Bool} (h : Represents s l) (bit : Bool) (n : Nat) :
    ∃ s', s.appendBits bit n = some s' ∧ Represents s' (l ++ List.replicate n bit) := by
  rw [EwahBitmap.appendBits]
  split
  · next h0 => subst h0; exact ⟨s, rfl, by simpa using h⟩
  · next h0 =>
    rcases h with ⟨rfl, rfl⟩ | ⟨ws, last, p, hr, rfl⟩
    · rw [if_pos rfl]
      exact appendAligned_rep repM_empty bit (by omega)
    · rw [if_neg hr.blocks_ne]
      have hmod := hr.mod
      have hp1 := hr.2.2.2.1
      have hp2 := hr.2.2.2.2.1
      by_cases hp : p = 64
      · subst hp
        simp only [if_true] at hmod
        rw [hmod]
        simp only [Nat.lt_irrefl, if_false, Nat.sub_zero, gt_iff_lt]
        rw [if_neg h0]
        obtain ⟨s', hs', hr'⟩ := hr.integrate
        rw [hs']
        have := appendAligned_rep hr' bit (n := n) (by omega)
        rw [content_snoc_full]
        exact this
      · rw [if_neg hp] at hmod
        rw [hmod]
        have hpos : p > 0 := hp1
        simp only [if_pos hpos]
        -- the state after filling the last word
        have hfill : Rep { s with
              blocks := if bit then EwahBitmap.setBack s.blocks (· ||| (Word.lsbMask (min n (64 - p)) <<< p)) else s.blocks
              numBits := s.numBits + min n (64 - p) } ws
              (if bit then last ||| (Word.lsbMask (min n (64 - p)) <<< p) else last) (p + min n (64 - p))
            ∧ content ws last p ++ List.replicate (min n (64 - p)) bit
              = content ws (if bit then last ||| (Word.lsbMask (min n (64 - p)) <<< p) else last) (p + min n (64 - p)) := by
          cases bit
          · simp only [Bool.false_eq_true, if_false]
            exact hr.extend_false (by omega)
          · simp only [if_true]
            have hx := hr.extend (k := min n (64 - p)) (by omega) (w := Word.lsbMask (min n (64 - p)))
              (by intro i hi; rw [getLsbD_lsbMask]; simp; omega)
            refine ⟨hx.1, ?_⟩
            rw [← hx.2]
            congr 1
            rw [← wbits_fillWord (by omega) true]
            apply wbits_congr
            intro i hi
            rw [fillWord_getLsbD _ (by omega), getLsbD_lsbMask]
            simp; omega
        obtain ⟨hf1, hf2⟩ := hfill
        split
        · next hz =>
          refine ⟨_, rfl, Or.inr ⟨_, _, _, hf1, ?_⟩⟩
          rw [← hf2]
          congr 2; omega
        · next hz =>
          have hm : min n (64 - p) = 64 - p := by omega
          rw [hm] at hf1 hf2 ⊢
          rw [show p + (64 - p) = 64 by omega] at hf1 hf2
          obtain ⟨s', hs', hr'⟩ := hf1.integrate
          rw [hs']
          have := appendAligned_rep hr' bit (n := n - (64 - p)) (by omega)
          rw [show n = (64 - p) + (n - (64 - p)) by omega, ← List.replicate_append_replicate, ← List.append_assoc,
            hf2, content_snoc_full, show (64 - p) + (n - (64 - p)) - (64 - p) = n - (64 - p) by omega]
          exact this

theorem appendBit_rep {s : EwahBitmap} {l : List Bool} (h : Represents s l) (bit : Bool) :
    ∃ s', s.appendBit bit = some s' ∧ Represents s' (l ++ [bit]) := by
  -- writing one bit at position `p` of the last word
  have hput : ∀ {s : EwahBitmap} {ws : List Word} {last : Word} {p : Nat},
      s.blocks = (Enc.ofWords ws).blocks ++ [last] → s.lastMarker = (Enc.ofWords ws).markerPos →
      s.numBits = 64 * ws.length + p → p < 64 → (∀ i, p ≤ i → last.getLsbD i = false) →
      Represents { s with
        blocks := if bit then EwahBitmap.setBack s.blocks (· ||| (Word.lsb1 <<< p)) else s.blocks
        numBits := s.numBits + 1 } (content ws last p ++ [bit]) := by
    intro s ws last p h1 h2 h3 h4 h5
    refine Or.inr ⟨ws, if bit then last ||| (Word.lsb1 <<< p) else last, p + 1, ⟨?_, h2, by simp only; omega, by omega, by omega, ?_⟩, ?_⟩
    · simp only
      cases bit
      · simp [h1]
      · simp only [if_true]; rw [h1, setBack_concat]
    · intro i hi
      cases bit
      · exact h5 i (by omega)
      · simp only [if_true]
        have := getLsbD_mask p i
        rw [Word.mask] at this
        rw [BitVec.getLsbD_or, h5 i (by omega), this]
        simp; omega
    · rw [content, content, List.append_assoc]
      congr 1
      have : [bit] = wbits 1 (fillWord bit) := by rw [wbits_fillWord (by omega)]; rfl
      rw [this]
      apply wbits_append
      · intro i hi
        cases bit
        · rfl
        · simp only [if_true]
          have := getLsbD_mask p i
          rw [Word.mask] at this
          rw [BitVec.getLsbD_or, this]
          have : i ≠ p := by omega
          simp [this]
      · intro i hi
        have hi0 : i = 0 := by omega
        subst hi0
        rw [fillWord_getLsbD _ (by omega), Nat.add_zero]
        cases bit
        · exact h5 p (by omega)
        · simp only [if_true]
          have := getLsbD_mask p p
          rw [Word.mask] at this
          rw [BitVec.getLsbD_or, this]
          simp [h4]
  rw [EwahBitmap.appendBit]
  rcases h with ⟨rfl, rfl⟩ | ⟨ws, last, p, hr, rfl⟩
  · exact ⟨_, rfl, hput (s := { blocks := [0#64, Word.none] }) (ws := []) (last := Word.none) (p := 0)
      rfl rfl rfl (by omega) (by simp)⟩
  · have hmod := hr.mod
    have hp1 := hr.2.2.2.1
    have hp2 := hr.2.2.2.2.1
    simp only [if_neg hr.blocks_ne]
    by_cases hp : p = 64
    · subst hp
      simp only [if_true] at hmod
      rw [hmod]
      obtain ⟨s', hs', hr'⟩ := hr.integrate
      simp only [hs', if_true, Option.bind_eq_bind, Option.bind_some]
      refine ⟨_, rfl, ?_⟩
      rw [content_snoc_full]
      have := hput (s := { s' with blocks := s'.blocks ++ [Word.none] }) (ws := ws ++ [last]) (last := Word.none) (p := 0)
        (by simp only; rw [hr'.1]) hr'.2.1 hr'.2.2 (by omega) (by simp)
      simpa [content] using this
    · rw [if_neg hp] at hmod
      rw [hmod]
      have hp0 : p ≠ 0 := by omega
      simp only [if_neg hp0, Option.bind_eq_bind, Option.bind_some]
      exact ⟨_, rfl, hput hr.1 hr.2.1 hr.2.2.1 (by omega) hr.2.2.2.2.2⟩

theorem appendBlock_rep {s : EwahBitmap} {l : List Bool} (h : Represents s l) (value : Word) {n : Nat}
    (hn1 : 1 ≤ n) (hn2 : n ≤ 64) :
    ∃ s', s.appendBlock value n = some s' ∧ Represents s' (l ++ wbits n value) := by
  have hmask : ∀ {k : Nat}, k ≤ 64 → ∀ {v : Word} i, k ≤ i → (v &&& Word.lsbFill k).getLsbD i = false := by
    intro k hk v i hi
    rw [BitVec.getLsbD_and, getLsbD_lsbFill hk]; simp; omega
  have hwb : ∀ {k : Nat}, k ≤ 64 → ∀ (v : Word), wbits k (v &&& Word.lsbFill k) = wbits k v := by
    intro k hk v
    apply wbits_congr
    intro i hi
    rw [BitVec.getLsbD_and, getLsbD_lsbFill hk]; simp; omega
  have hpush : ∀ {s : EwahBitmap} {ws : List Word}, RepM s ws →
      Represents { s with blocks := s.blocks ++ [value &&& Word.lsbFill n], numBits := s.numBits + n }
        (ws.flatMap (wbits 64) ++ wbits n value) := by
    intro s ws hr
    refine Or.inr ⟨ws, _, n, hr.push hn1 hn2 (hmask hn2), ?_⟩
    rw [content, hwb hn2]
  rw [EwahBitmap.appendBlock, if_neg (by omega)]
  rcases h with ⟨rfl, rfl⟩ | ⟨ws, last, p, hr, rfl⟩
  · exact ⟨_, rfl, hpush repM_empty⟩
  · have hmod := hr.mod
    have hp1 := hr.2.2.2.1
    have hp2 := hr.2.2.2.2.1
    rw [if_neg hr.blocks_ne]
    by_cases hp : p = 64
    · subst hp
      simp only [if_true] at hmod
      rw [if_pos hmod]
      obtain ⟨s', hs', hr'⟩ := hr.integrate
      have hm' : s'.numBits % 64 = 0 := by rw [hr'.2.2]; omega
      simp only [hs', Option.bind_eq_bind, Option.bind_some, hm', if_true]
      rw [content_snoc_full]
      exact ⟨_, rfl, hpush hr'⟩
    · rw [if_neg hp] at hmod
      rw [if_neg (by omega)]
      have hp0 : p ≠ 0 := by omega
      simp only [Option.bind_eq_bind, Option.bind_some, hmod, if_neg hp0]
      split
      · next hle =>
        have hx := hr.extend (k := n) (by omega) (w := value &&& Word.lsbFill n) (hmask hn2)
        refine ⟨_, rfl, Or.inr ⟨_, _, _, hx.1, ?_⟩⟩
        rw [← hx.2, hwb hn2]
      · next hgt =>
        have hx := hr.extend (k := 64 - p) (by omega) (w := value &&& Word.lsbFill (64 - p)) (hmask (by omega))
        rw [show p + (64 - p) = 64 by omega] at hx
        obtain ⟨s', hs', hr'⟩ := hx.1.integrate
        rw [hs']
        refine ⟨_, rfl, ?_⟩
        have hpush2 := hr'.push (w := (value >>> (64 - p)) &&& Word.lsbFill (n - (64 - p))) (p := n - (64 - p))
          (by omega) (by omega) (hmask (by omega))
        refine Or.inr ⟨_, _, _, hpush2, ?_⟩
        have hsplit : wbits n value = wbits (64 - p) value ++ wbits (n - (64 - p)) (value >>> (64 - p)) := by
          have := wbits_append (n := 64 - p) (m := n - (64 - p)) (v := value) (w := value >>> (64 - p)) (u := value)
            (fun _ _ => rfl) (fun i hi => by rw [BitVec.getLsbD_ushiftRight])
          rw [this]; congr 1; omega
        have hfull := hx.2
        rw [hwb (by omega)] at hfull
        rw [hsplit, ← List.append_assoc, hfull, content_snoc_full, content, hwb (by omega)]

/-! ## flip -/

def Group.flip (g : Group) : Group :=
  ⟨if g.clean > 0 then !g.type else g.type, g.clean, g.dirty.map (~~~·)⟩

def Enc.flip (e : Enc) : Enc := ⟨e.cur.flip, e.prev.map Group.flip⟩

theorem allOrNone_not (w : Word) : Word.allOrNone (~~~w) = Word.allOrNone w := by
  rw [Bool.eq_iff_iff, allOrNone_iff, allOrNone_iff]
  constructor
  · rintro (h | h)
    · right; rw [← BitVec.not_not (b := w), h]; decide
    · left; rw [← BitVec.not_not (b := w), h]; decide
  · rintro (h | h)
    · right; rw [h]; decide
    · left; rw [h]; decide

theorem not_ne_zero {w : Word} (h : Word.allOrNone w = true) : (~~~w != 0#64) = !(w != 0#64) := by
  rcases (allOrNone_iff w).1 h with h | h <;> subst h <;> decide

theorem Enc.flip_snoc {e : Enc} (w : Word) : e.flip.snoc (~~~w) = (e.snoc w).flip := by
  rw [Enc.snoc, Enc.snoc, allOrNone_not]
  have hd : e.flip.cur.dirty = [] ↔ e.cur.dirty = [] := by simp [Enc.flip, Group.flip]
  have hl : e.flip.cur.dirty.length = e.cur.dirty.length := by simp [Enc.flip, Group.flip]
  have hc : e.flip.cur.clean = e.cur.clean := rfl
  rw [hl, hc]
  simp only [hd]
  split
  · next hw =>
    rw [not_ne_zero hw]
    split
    · simp [Enc.flip, Group.flip]
    · next h1 =>
      have ht : (e.cur.dirty = [] ∧ (!(w != 0#64)) = e.flip.cur.type ∧ e.cur.clean ≠ cleanMax)
          ↔ (e.cur.dirty = [] ∧ (w != 0#64) = e.cur.type ∧ e.cur.clean ≠ cleanMax) := by
        constructor
        · rintro ⟨a, b, c⟩
          have : e.cur.clean > 0 := by
            exact Nat.pos_of_ne_zero fun h => h1 ⟨a, h⟩
          simp only [Enc.flip, Group.flip, if_pos this] at b
          exact ⟨a, by simpa using b, c⟩
        · rintro ⟨a, b, c⟩
          have : e.cur.clean > 0 := by
            exact Nat.pos_of_ne_zero fun h => h1 ⟨a, h⟩
          refine ⟨a, ?_, c⟩
          simp only [Enc.flip, Group.flip, if_pos this]
          rw [b]
      simp only [ht]
      split
      · next h2 =>
        have : e.cur.clean > 0 := by
          exact Nat.pos_of_ne_zero fun h => h1 ⟨h2.1, h⟩
        simp [Enc.flip, Group.flip, this]
      · simp [Enc.flip, Group.flip]
  · split
    · simp [Enc.flip, Group.flip]
    · simp [Enc.flip, Group.flip]

theorem Enc.ofWords_flip (ws : List Word) : Enc.ofWords (ws.map (~~~·)) = (Enc.ofWords ws).flip := by
  have : ∀ (ws : List Word) (e : Enc), (ws.map (~~~·)).foldl Enc.snoc e.flip = (ws.foldl Enc.snoc e).flip := by
    intro ws
    induction ws with
    | nil => exact fun _ => rfl
    | cons w ws ih => intro e; rw [List.map_cons, List.foldl_cons, List.foldl_cons, Enc.flip_snoc, ih]
  exact this ws {}

theorem flipGo_dirty : ∀ (ds rest : List Word) (i nm : Nat), i + ds.length = nm →
    EwahBitmap.flipGo i nm (ds ++ rest) = ds.map (~~~·) ++ EwahBitmap.flipGo nm nm rest
  | [], rest, i, nm, h => by simp at h; simp [h]
  | d :: ds, rest, i, nm, h => by
    simp only [List.length_cons] at h
    rw [List.cons_append, EwahBitmap.flipGo, if_neg (by omega), flipGo_dirty ds rest (i + 1) nm (by omega)]
    rfl

theorem flipGo_group {g : Group} (hg : g.Ok) (rest : List Word) (i : Nat) :
    EwahBitmap.flipGo i i (g.blocks ++ rest)
      = g.flip.blocks ++ EwahBitmap.flipGo (i + g.blocks.length) (i + g.blocks.length) rest := by
  obtain ⟨h1, h2, -⟩ := hg
  rw [Group.blocks, List.cons_append, EwahBitmap.flipGo, if_pos rfl]
  have hm : g.marker = mkMarker g.type g.clean g.dirty.length := rfl
  simp only [hm, numClean_mk h1 h2]
  have hnew : (if g.clean > 0 then mkMarker g.type g.clean g.dirty.length ^^^ Word.msb1
      else mkMarker g.type g.clean g.dirty.length) = g.flip.marker := by
    simp only [Group.flip, Group.marker, List.length_map]
    split
    · rw [xor_msb1_mk h1 h2]
    · rfl
  have hdirty : numDirty g.flip.marker = g.dirty.length := by
    simp only [Group.flip, Group.marker, List.length_map]
    exact numDirty_mk h1 h2
  rw [hnew, hdirty, flipGo_dirty _ _ _ _ (by omega)]
  rw [Group.blocks]
  simp only [List.length_cons, List.cons_append]
  rfl

theorem flipGo_groups : ∀ {gs : List Group}, (∀ g ∈ gs, g.Ok) → ∀ i,
    EwahBitmap.flipGo i i (gs.flatMap Group.blocks) = (gs.map Group.flip).flatMap Group.blocks
  | [], _, i => rfl
  | g :: gs, h, i => by
    rw [List.flatMap_cons, flipGo_group (h g (by simp)),
      flipGo_groups (fun g' hg' => h g' (by simp [hg']))]
    simp

theorem flip_rep {s : EwahBitmap} {l : List Bool} (h : Represents s l) :
    ∃ s', s.flip = some s' ∧ Represents s' (l.map (!·)) := by
  rw [EwahBitmap.flip]
  rcases h with ⟨rfl, rfl⟩ | ⟨ws, last, p, hr, rfl⟩
  · exact ⟨_, rfl, Or.inl ⟨rfl, rfl⟩⟩
  · rw [if_neg hr.blocks_ne]
    have hmod := hr.mod
    obtain ⟨h1, h2, h3, h4, h5, h6⟩ := hr
    have hlen : s.blocks.length ≥ 2 := by
      have := Enc.blocks_length (Enc.ofWords ws)
      rw [h1, List.length_append, List.length_singleton]; omega
    rw [if_neg (by omega), h1, List.dropLast_concat, getLastD_append_singleton]
    have hok := Enc.ofWords_ok ws
    have hgo : EwahBitmap.flipGo 0 0 (Enc.ofWords ws).blocks = (Enc.ofWords (ws.map (~~~·))).blocks := by
      rw [Enc.blocks_eq_groups, flipGo_groups, Enc.ofWords_flip, Enc.blocks_eq_groups]
      · simp [Enc.groups, Enc.flip]
      · intro g hg
        rcases List.mem_append.1 hg with hg | hg
        · exact hok.2 g hg
        · rw [List.mem_singleton.1 hg]; exact hok.1
    have hpos : (Enc.ofWords (ws.map (~~~·))).markerPos = (Enc.ofWords ws).markerPos := by
      rw [Enc.ofWords_flip, Enc.markerPos, Enc.markerPos, Enc.flip]
      generalize (Enc.ofWords ws).prev = gs
      induction gs with
      | nil => rfl
      | cons g gs ih =>
        simp only [List.map_cons, List.flatMap_cons, List.length_append, ih]
        simp [Group.blocks, Group.flip]
    rw [hgo]
    refine ⟨_, rfl, Or.inr ⟨ws.map (~~~·), _, p, ⟨rfl, ?_, ?_, h4, h5, ?_⟩, ?_⟩⟩
    · rw [hpos]; exact h2
    · simp only [List.length_map]; exact h3
    · intro i hi
      by_cases hp : p = 64
      · rw [getLsbD_ge (by omega)]
      · rw [if_neg hp] at hmod
        rw [hmod, if_pos (by omega), BitVec.getLsbD_and, getLsbD_lsbMask]
        simp; omega
    · rw [content, content, List.map_append]
      congr 1
      · clear h1 h2 h3 hmod hlen hok hgo hpos
        induction ws with
        | nil => rfl
        | cons w ws ih =>
          rw [List.flatMap_cons, List.map_append, ih, List.map_cons, List.flatMap_cons]
          congr 1
          simp only [wbits, List.map_map]
          apply List.map_congr_left
          intro i hi
          have hi := List.mem_range.1 hi
          simp only [Function.comp]
          rw [BitVec.getLsbD_not]; simp [hi]
      · simp only [wbits, List.map_map]
        apply List.map_congr_left
        intro i hi
        have hi := List.mem_range.1 hi
        have hi2 : i < 64 := by omega
        simp only [Function.comp]
        split
        · next hpp =>
          by_cases hp : p = 64
          · rw [if_pos hp] at hmod; omega
          · rw [if_neg hp] at hmod
            rw [hmod, BitVec.getLsbD_and, getLsbD_lsbMask, BitVec.getLsbD_not]
            simp [hi, hi2]
        · rw [BitVec.getLsbD_not]; simp [hi2]

/-! ## The range -/

theorem toList_small {b : Bits} (h : b.size ≤ 64) : b.toList = wbits b.size b.data := by
  rw [Bits.toList, wbits]
  apply List.map_congr_left
  intro i _
  have : b.isRun = false := by simp [Bits.isRun]; omega
  rw [Bits.get, this, if_neg (by simp), and_mask_ne_zero]

theorem toList_mk' {w : Word} {n : Nat} (h : n ≤ 64) : (Bits.mk' w n).toList = wbits n w := by
  rw [toList_small h, Bits.mk']
  apply wbits_congr
  intro i hi
  simp only
  split
  · have hi : i < n := hi
    rw [BitVec.getLsbD_and, getLsbD_lsbMask]; simp; omega
  · rfl

theorem toList_run {w : Word} {n : Nat} (t : Bool) (hw : w = fillWord t) : (Bits.mk' w n).toList = List.replicate n t := by
  subst hw
  by_cases h : n ≤ 64
  · rw [toList_mk' h, wbits_fillWord h]
  · have h2 : ¬ n < 64 := by omega
    rw [Bits.toList, Bits.mk', if_neg h2]
    apply List.ext_getElem?
    intro i
    rw [List.getElem?_map, List.getElem?_replicate]
    split
    · next hi =>
      rw [List.getElem?_range hi]
      have : Bits.isRun ⟨fillWord t, n⟩ = true := by simp [Bits.isRun]; omega
      simp only [Option.map_some, Bits.get, this, if_true, fillWord_ne_zero]
    · next hi => rw [List.getElem?_eq_none (by simpa using hi)]; rfl

/-- The blocks from some position of an encoding on: dirty words, groups, the last word. -/
theorem merge_spec (t : Bool) : ∀ (gs : List Group), (∀ g ∈ gs, g.Ok) → ∀ (ds : List Word) (last : Word) (len : Nat),
    ∃ (gs' : List Group) (ds' : List Word), (EwahBitmap.merge (fillWord t) (ds ++ gs.flatMap Group.blocks ++ [last]) len ds.length).1
        = ds' ++ gs'.flatMap Group.blocks ++ [last]
      ∧ (EwahBitmap.merge (fillWord t) (ds ++ gs.flatMap Group.blocks ++ [last]) len ds.length).2.2 = ds'.length
      ∧ (∀ g ∈ gs', g.Ok)
      ∧ List.replicate (EwahBitmap.merge (fillWord t) (ds ++ gs.flatMap Group.blocks ++ [last]) len ds.length).2.1 t
          ++ (ds' ++ gs'.flatMap Group.words).flatMap (wbits 64)
        = List.replicate len t ++ (ds ++ gs.flatMap Group.words).flatMap (wbits 64)
  | gs, hok, d :: ds, last, len => by
    refine ⟨gs, d :: ds, ?_⟩
    have : EwahBitmap.merge (fillWord t) (d :: ds ++ gs.flatMap Group.blocks ++ [last]) len (d :: ds).length
        = (d :: ds ++ gs.flatMap Group.blocks ++ [last], len, (d :: ds).length) := by
      simp only [List.length_cons]
      rw [EwahBitmap.merge]
      intro _ h; omega
    rw [this]
    exact ⟨rfl, rfl, hok, rfl⟩
  | [], hok, [], last, len => by
    refine ⟨[], [], ?_⟩
    simp [EwahBitmap.merge]
  | g :: gs, hok, [], last, len => by
    have hg := hok g (by simp)
    have hne : ∃ r rs, g.dirty ++ (gs.flatMap Group.blocks ++ [last]) = r :: rs := by
      cases h : g.dirty ++ (gs.flatMap Group.blocks ++ [last]) with
      | nil => simp at h
      | cons r rs => exact ⟨r, rs, rfl⟩
    obtain ⟨r, rs, hrs⟩ := hne
    have hlist : ([] ++ (g :: gs).flatMap Group.blocks ++ [last]) = g.marker :: r :: rs := by
      rw [List.flatMap_cons, Group.blocks, List.nil_append, List.cons_append, List.cons_append, List.append_assoc, hrs]
    have hm : g.marker = mkMarker g.type g.clean g.dirty.length := rfl
    by_cases hty : g.type = t
    · -- merged
      obtain ⟨gs', ds', h1, h2, h3, h4⟩ :=
        merge_spec t gs (fun g' hg' => hok g' (by simp [hg'])) g.dirty last (len + g.clean * 64)
      have hstep : EwahBitmap.merge (fillWord t) ([] ++ (g :: gs).flatMap Group.blocks ++ [last]) len ([] : List Word).length
          = EwahBitmap.merge (fillWord t) (g.dirty ++ gs.flatMap Group.blocks ++ [last]) (len + g.clean * 64) g.dirty.length := by
        rw [hlist]
        simp only [List.length_nil]
        rw [EwahBitmap.merge, hm, markerType_mk hg.1 hg.2.1, numClean_mk hg.1 hg.2.1, numDirty_mk hg.1 hg.2.1,
          List.append_assoc, hrs, if_neg]
        rw [hty]
        have := fillWord_ne_zero t
        cases t <;> simp_all
      rw [hstep]
      refine ⟨gs', ds', h1, h2, h3, ?_⟩
      rw [h4, List.nil_append, List.flatMap_cons, List.flatMap_append, Group.words, List.flatMap_append,
        List.flatMap_append, flatMap_wbits_fill, hty, ← List.replicate_append_replicate]
      simp only [List.append_assoc]
      rw [Nat.mul_comm]
    · -- not compatible
      have hstep : EwahBitmap.merge (fillWord t) ([] ++ (g :: gs).flatMap Group.blocks ++ [last]) len ([] : List Word).length
          = ([] ++ (g :: gs).flatMap Group.blocks ++ [last], len, 0) := by
        rw [hlist]
        simp only [List.length_nil]
        rw [EwahBitmap.merge, hm, markerType_mk hg.1 hg.2.1, if_pos]
        have := fillWord_ne_zero t
        have h2 : g.type = !t := by cases h : g.type <;> cases h' : t <;> simp_all
        rw [h2]
        cases t <;> simp_all
      rw [hstep]
      exact ⟨g :: gs, [], rfl, rfl, hok, rfl⟩

/-- Every sequence of a range is valid: non-empty, a single word or a homogeneous run, with unused
bits cleared. -/
def Bits.Valid (b : Bits) : Prop :=
  1 ≤ b.size ∧ (64 < b.size → b.data = Word.none ∨ b.data = Word.all)
    ∧ (∀ i, b.size ≤ i → b.size ≤ 64 → b.data.getLsbD i = false)

theorem Bits.valid_mk' {w : Word} {n : Nat} (h1 : 1 ≤ n) (h2 : 64 < n → w = Word.none ∨ w = Word.all) :
    (Bits.mk' w n).Valid := by
  refine ⟨h1, ?_, ?_⟩
  · intro h
    have h : 64 < n := h
    rw [Bits.mk']
    simp only [if_neg (show ¬ n < 64 by omega)]
    exact h2 h
  · intro i hi h
    have hi : n ≤ i := hi
    rw [Bits.mk']
    simp only
    split
    · rw [BitVec.getLsbD_and, getLsbD_lsbMask]; simp; omega
    · rw [getLsbD_ge (by omega)]

theorem fillWord_cases (t : Bool) : fillWord t = Word.none ∨ fillWord t = Word.all := by
  cases t <;> simp [fillWord]

theorem merge_len_le (data : Word) : ∀ (rest : List Word) (len nd : Nat),
    len ≤ (EwahBitmap.merge data rest len nd).2.1
  | [], _, _ => by simp [EwahBitmap.merge]
  | [_], _, _ => by simp [EwahBitmap.merge]
  | m :: r :: rs, len, 0 => by
    rw [EwahBitmap.merge]
    split
    · simp
    · have := merge_len_le data (r :: rs) (len + numClean m * 64) (Ewah.numDirty m)
      omega
  | m :: r :: rs, len, nd + 1 => by simp [EwahBitmap.merge]

theorem runs_spec (size p : Nat) (last : Word) (hp1 : 1 ≤ p) (hp2 : p ≤ 64)
    (hp : (if size % 64 = 0 then 64 else size % 64) = p) :
    ∀ (n : Nat) (gs : List Group) (ds : List Word), (ds ++ gs.flatMap Group.blocks ++ [last]).length = n → (∀ g ∈ gs, g.Ok) →
    concat (EwahBitmap.runs size (ds ++ gs.flatMap Group.blocks ++ [last]) ds.length)
        = (ds ++ gs.flatMap Group.words).flatMap (wbits 64) ++ wbits p last
      ∧ ∀ b ∈ EwahBitmap.runs size (ds ++ gs.flatMap Group.blocks ++ [last]) ds.length, b.Valid := by
  intro n
  induction n using Nat.strongRecOn with
  | _ n ih =>
    intro gs ds hn hok
    cases ds with
    | cons d ds =>
      have hne : ∃ r rs, ds ++ gs.flatMap Group.blocks ++ [last] = r :: rs := by
        cases h : ds ++ gs.flatMap Group.blocks ++ [last] with
        | nil => simp at h
        | cons r rs => exact ⟨r, rs, rfl⟩
      obtain ⟨r, rs, hrs⟩ := hne
      have hi := ih _ (by rw [← hn]; simp) gs ds rfl hok
      rw [hrs] at hi
      rw [List.cons_append, List.cons_append, hrs, List.length_cons, EwahBitmap.runs]
      refine ⟨?_, ?_⟩
      · rw [concat, List.flatMap_cons, toList_mk' (Nat.le_refl _)]
        rw [concat] at hi
        rw [hi.1]
        simp
      · intro b hb
        rcases List.mem_cons.1 hb with hb | hb
        · subst hb; exact Bits.valid_mk' (by omega) (by omega)
        · exact hi.2 b hb
    | nil =>
      cases gs with
      | nil =>
        simp only [List.flatMap_nil, List.nil_append]
        rw [EwahBitmap.runs, hp]
        refine ⟨?_, ?_⟩
        · simp [concat, toList_mk' hp2]
        · intro b hb
          rw [List.mem_singleton.1 hb]
          exact Bits.valid_mk' hp1 (by omega)
      | cons g gs =>
        have hg := hok g (by simp)
        have hok' : ∀ g' ∈ gs, g'.Ok := fun g' hg' => hok g' (by simp [hg'])
        have hne : ∃ r rs, g.dirty ++ (gs.flatMap Group.blocks ++ [last]) = r :: rs := by
          cases h : g.dirty ++ (gs.flatMap Group.blocks ++ [last]) with
          | nil => simp at h
          | cons r rs => exact ⟨r, rs, rfl⟩
        obtain ⟨r, rs, hrs⟩ := hne
        have hlist : ([] ++ (g :: gs).flatMap Group.blocks ++ [last]) = g.marker :: r :: rs := by
          rw [List.flatMap_cons, Group.blocks, List.nil_append, List.cons_append, List.cons_append, List.append_assoc, hrs]
        have hm : g.marker = mkMarker g.type g.clean g.dirty.length := rfl
        have hwords : (([] : List Word) ++ (g :: gs).flatMap Group.words).flatMap (wbits 64)
            = List.replicate (g.clean * 64) g.type ++ (g.dirty ++ gs.flatMap Group.words).flatMap (wbits 64) := by
          rw [List.nil_append, List.flatMap_cons, Group.words, List.flatMap_append, List.flatMap_append,
            flatMap_wbits_fill, Nat.mul_comm, List.flatMap_append, List.append_assoc]
        have hlen2 : (g.dirty ++ gs.flatMap Group.blocks ++ [last]).length < n := by
          rw [← hn, hlist, List.append_assoc, hrs]; simp
        rw [hwords]
        rw [hlist]
        simp only [List.length_nil]
        rw [EwahBitmap.runs, hm, numClean_mk hg.1 hg.2.1, numDirty_mk hg.1 hg.2.1, markerType_mk hg.1 hg.2.1]
        have hrs' : r :: rs = g.dirty ++ gs.flatMap Group.blocks ++ [last] := by rw [List.append_assoc, hrs]
        rw [hrs']
        split
        · next hz =>
          rw [hz, Nat.zero_mul, List.replicate_zero, List.nil_append]
          exact ih _ hlen2 gs g.dirty rfl hok'
        · next hz =>
          have hfw : (if g.type then Word.all else Word.none) = fillWord g.type := rfl
          simp only [hfw]
          obtain ⟨gs', ds', h1, h2, h3, h4⟩ := merge_spec g.type gs hok' g.dirty last (g.clean * 64)
          have hml := EwahBitmap.merge_length (fillWord g.type) (g.dirty ++ gs.flatMap Group.blocks ++ [last]) (g.clean * 64) g.dirty.length
          have hll := merge_len_le (fillWord g.type) (g.dirty ++ gs.flatMap Group.blocks ++ [last]) (g.clean * 64) g.dirty.length
          rw [h1] at hml ⊢
          rw [h2]
          have hi := ih _ (by omega) gs' ds' rfl h3
          refine ⟨?_, ?_⟩
          · rw [concat, List.flatMap_cons, toList_run g.type rfl]
            rw [concat] at hi
            rw [hi.1, ← List.append_assoc, h4]
          · intro b hb
            rcases List.mem_cons.1 hb with hb | hb
            · subst hb
              exact Bits.valid_mk' (by omega) (fun _ => fillWord_cases _)
            · exact hi.2 b hb

theorem bitRange_spec {s : EwahBitmap} {l : List Bool} (h : Represents s l) :
    concat s.bitRange = l ∧ s.numBits = l.length ∧ ∀ b ∈ s.bitRange, b.Valid := by
  rcases h with ⟨rfl, rfl⟩ | ⟨ws, last, p, hr, rfl⟩
  · exact ⟨rfl, rfl, by intro b hb; simp [EwahBitmap.bitRange] at hb⟩
  · have hmod := hr.mod
    obtain ⟨h1, h2, h3, h4, h5, h6⟩ := hr
    have hok := Enc.ofWords_ok ws
    have hw := Enc.ofWords_words ws
    have hgs : ∀ g ∈ (Enc.ofWords ws).groups, g.Ok := by
      intro g hg
      rcases List.mem_append.1 hg with hg | hg
      · exact hok.2 g hg
      · rw [List.mem_singleton.1 hg]; exact hok.1
    have hwg : (Enc.ofWords ws).groups.flatMap Group.words = ws := by
      simpa [Enc.groups, Enc.words] using hw
    have := runs_spec s.numBits p last h4 h5 (by rw [hmod]; split <;> split <;> omega) _
      (Enc.ofWords ws).groups [] rfl hgs
    rw [EwahBitmap.bitRange, if_neg (by omega), h1, Enc.blocks_eq_groups]
    rw [hwg] at this
    refine ⟨this.1, ?_, this.2⟩
    rw [content_length, h3]

/-! ## Histories -/

theorem step_rep {s : EwahBitmap} {l : List Bool} (h : Represents s l) {op : Op} (hv : op.valid) :
    ∃ s', s.step op = some s' ∧ Represents s' (op.apply l) := by
  cases op with
  | bit b => exact appendBit_rep h b
  | bits b n => exact appendBits_rep h b n
  | block v n => exact appendBlock_rep h v hv.1 hv.2
  | flip => exact flip_rep h

theorem foldlM_rep : ∀ {ops : List Op}, (∀ op ∈ ops, op.valid) → ∀ {s : EwahBitmap} {l : List Bool},
    Represents s l → ∃ s', ops.foldlM EwahBitmap.step s = some s' ∧ Represents s' (ops.foldl Op.apply l)
  | [], _, s, l, h => ⟨s, rfl, h⟩
  | op :: ops, hv, s, l, h => by
    obtain ⟨s1, h1, h2⟩ := step_rep h (hv op (by simp))
    obtain ⟨s2, h3, h4⟩ := foldlM_rep (ops := ops) (fun o ho => hv o (by simp [ho])) h2
    refine ⟨s2, ?_, h4⟩
    rw [List.foldlM_cons, h1]
    exact h3

theorem run_rep {ops : List Op} (hv : ∀ op ∈ ops, op.valid) :
    ∃ s, EwahBitmap.run ops = some s ∧ Represents s (history ops) :=
  foldlM_rep hv (Or.inl ⟨rfl, rfl⟩)

/-! ## Canonicity -/

theorem flatMap_wbits_inj : ∀ {ws ws' : List Word}, ws.length = ws'.length → ∀ {xs ys : List Bool},
    ws.flatMap (wbits 64) ++ xs = ws'.flatMap (wbits 64) ++ ys → ws = ws' ∧ xs = ys
  | [], [], _, _, _, h => ⟨rfl, h⟩
  | [], _ :: _, h, _, _, _ => by simp at h
  | _ :: _, [], h, _, _, _ => by simp at h
  | w :: ws, w' :: ws', hl, xs, ys, h => by
    simp only [List.flatMap_cons, List.append_assoc] at h
    obtain ⟨h1, h2⟩ := List.append_inj h (by simp)
    obtain ⟨h3, h4⟩ := flatMap_wbits_inj (by simpa using hl) h2
    refine ⟨?_, h4⟩
    rw [h3]
    congr 1
    exact BitVec.eq_of_getLsbD_eq fun i hi => wbits_inj h1 i hi

theorem represents_unique {s s' : EwahBitmap} {l : List Bool} (h : Represents s l) (h' : Represents s' l) :
    s = s' := by
  rcases h with ⟨rfl, rfl⟩ | ⟨ws, last, p, hr, rfl⟩
  · rcases h' with ⟨rfl, -⟩ | ⟨ws', last', p', hr', hc⟩
    · rfl
    · have := congrArg List.length hc
      rw [content_length] at this
      have := hr'.2.2.2.1
      simp at *; omega
  · rcases h' with ⟨rfl, hc⟩ | ⟨ws', last', p', hr', hc⟩
    · have := congrArg List.length hc
      rw [content_length] at this
      have := hr.2.2.2.1
      simp at *; omega
    · have hlen := congrArg List.length hc
      rw [content_length, content_length] at hlen
      have a1 := hr.2.2.2.1
      have a2 := hr.2.2.2.2.1
      have b1 := hr'.2.2.2.1
      have b2 := hr'.2.2.2.2.1
      have hpp : p = p' := by omega
      have hww : ws.length = ws'.length := by omega
      subst hpp
      obtain ⟨h1, h2⟩ := flatMap_wbits_inj hww hc
      subst h1
      have h3 : last = last' := by
        apply BitVec.eq_of_getLsbD_eq
        intro i hi
        by_cases hip : i < p
        · exact wbits_inj h2 i hip
        · rw [hr.2.2.2.2.2 i (by omega), hr'.2.2.2.2.2 i (by omega)]
      subst h3
      cases s; cases s'
      obtain ⟨c1, c2, c3, -⟩ := hr
      obtain ⟨d1, d2, d3, -⟩ := hr'
      simp_all

end Verif.Bitmap
