import Verif.Bitmap.EwahProps
/-!
# C01: the counter of the loop in `flip`

`Ewah.lean` has a natural number for the counter of the loop in `flip`; here it has 32 bits, as in the code.
-/
namespace Verif.Bitmap
open Spec Ewah

/-- The loop of ewah_bitmap.cpp:155-164, with the counter `i` as an `unsigned`.  `none`: it has not ended after `fuel` iterations. -/
def flipLoop : (fuel i nextMarker : Nat) → List Word → Option (List Word)
  | 0, _, _, _ => none
  | fuel + 1, i, nextMarker, blocks =>
    if i < blocks.length - 1 then
      let block := blocks.getD i 0#64
      if i = nextMarker then
        let block' := if numClean block > 0 then block ^^^ Word.msb1 else block
        flipLoop fuel ((i + 1) % 2 ^ 32) (nextMarker + (numDirty block' + 1)) (blocks.set i block')
      else flipLoop fuel ((i + 1) % 2 ^ 32) nextMarker (blocks.set i (~~~block))
    else some blocks

/-- ewah_bitmap.cpp:150-172 `flip`. -/
def flip32 (fuel : Nat) (s : EwahBitmap) : Option EwahBitmap :=
  if s.blocks = [] then some s
  else if ¬ (s.blocks.length ≥ 2) then none
  else do
    let blocks ← flipLoop fuel 0 0 s.blocks
    let last := ~~~(blocks.getLastD 0#64)
    let part := s.numBits % 64
    let last := if part > 0 then last &&& Word.lsbMask part else last
    some { s with blocks := blocks.dropLast ++ [last] }

/-- A call, with the loop as it is. -/
def step32 (fuel : Nat) (s : EwahBitmap) : Op → Option EwahBitmap
  | .flip => flip32 fuel s
  | op => s.step op

/-- A history of calls. -/
def run32 (fuel : Nat) (ops : List Op) : Option EwahBitmap := ops.foldlM (step32 fuel) {}

theorem flipLoop_eq (last : Word) : ∀ (rest done : List Word) (next fuel : Nat), done.length + rest.length < 2 ^ 32 → rest.length < fuel →
    flipLoop fuel done.length next (done ++ rest ++ [last]) = some (done ++ EwahBitmap.flipGo done.length next rest ++ [last])
  | [], done, next, fuel + 1, _, _ => by
    rw [flipLoop, if_neg (by simp), EwahBitmap.flipGo]
  | x :: rest, done, next, fuel + 1, hl, hf => by
    have hlen : (done.length + 1) % 2 ^ 32 = done.length + 1 := Nat.mod_eq_of_lt (by simp at hl; omega)
    have hget : (done ++ x :: rest ++ [last]).getD done.length 0#64 = x := by simp [List.getD]
    have hset : ∀ y, (done ++ x :: rest ++ [last]).set done.length y = (done ++ [y]) ++ rest ++ [last] := by intro y; simp
    have ih := fun y next => flipLoop_eq last rest (done ++ [y]) next fuel (by simp at hl ⊢; omega) (by simp at hf; omega)
    simp only [List.length_append, List.length_cons, List.length_nil, Nat.zero_add] at ih
    rw [flipLoop, if_pos (by simp), EwahBitmap.flipGo]
    dsimp only
    rw [hget, hlen]
    split
    · rw [hset, ih]; simp
    · rw [hset, ih]; simp

theorem flip32_eq {s : EwahBitmap} {fuel : Nat} (h : s.blocks.length ≤ 2 ^ 32) (hf : 2 ^ 32 ≤ fuel) : flip32 fuel s = s.flip := by
  unfold flip32 EwahBitmap.flip
  by_cases h0 : s.blocks = []
  · rw [if_pos h0, if_pos h0]
  · rw [if_neg h0, if_neg h0]
    by_cases h2 : s.blocks.length ≥ 2
    · rw [if_neg (by simpa using h2), if_neg (by simpa using h2)]
      have e : s.blocks = [] ++ s.blocks.dropLast ++ [s.blocks.getLast h0] := by simp [List.dropLast_concat_getLast]
      have hd : s.blocks.dropLast.length = s.blocks.length - 1 := List.length_dropLast
      have := flipLoop_eq (s.blocks.getLast h0) s.blocks.dropLast [] 0 fuel (by rw [hd]; simp; omega) (by omega)
      rw [← e] at this
      simp only [List.length_nil, List.nil_append] at this
      rw [this]
      have e1 : s.blocks.getLast? = some (s.blocks.getLast h0) := List.getLast?_eq_some_getLast h0
      simp [e1]
    · rw [if_pos (by simpa using h2), if_pos (by simpa using h2)]

theorem snoc_blocks_le (e : Enc) (w : Word) : (e.snoc w).blocks.length ≤ e.blocks.length + 2 := by
  unfold Enc.snoc
  split
  · split
    · simp [Enc.blocks, Group.blocks]; omega
    · split
      · simp [Enc.blocks, Group.blocks]
      · simp [Enc.blocks, Group.blocks]; omega
  · split
    · simp [Enc.blocks, Group.blocks]; omega
    · simp [Enc.blocks, Group.blocks]; omega

theorem foldl_blocks_le : ∀ (ws : List Word) (e : Enc), (ws.foldl Enc.snoc e).blocks.length ≤ e.blocks.length + 2 * ws.length
  | [], e => by simp
  | w :: ws, e => by
    have h1 := foldl_blocks_le ws (e.snoc w)
    have h2 := snoc_blocks_le e w
    rw [List.foldl_cons, List.length_cons]
    omega

theorem blocks_small {s : EwahBitmap} {l : List Bool} (h : Represents s l) (hl : l.length ≤ 2 ^ 36) : s.blocks.length ≤ 2 ^ 32 := by
  rcases h with ⟨rfl, rfl⟩ | ⟨ws, last, p, hr, rfl⟩
  · simp
  · rw [content_length] at hl
    have h1 := foldl_blocks_le ws {}
    have h3 : (Enc.blocks {}).length = 1 := rfl
    rw [hr.1, List.length_append, Enc.ofWords]
    simp only [List.length_cons, List.length_nil]
    omega

theorem apply_length (l : List Bool) (op : Op) : l.length ≤ (Op.apply l op).length := by
  cases op <;> simp [Op.apply]

theorem history_length : ∀ (ops : List Op) (l : List Bool), l.length ≤ (ops.foldl Op.apply l).length
  | [], _ => Nat.le_refl _
  | op :: ops, l => Nat.le_trans (apply_length l op) (history_length ops _)

theorem run32_rep {fuel : Nat} (hf : 2 ^ 32 ≤ fuel) : ∀ {ops : List Op}, (∀ op ∈ ops, op.valid) → ∀ {s : EwahBitmap} {l : List Bool}, Represents s l →
    (ops.foldl Op.apply l).length ≤ 2 ^ 36 → ops.foldlM (step32 fuel) s = ops.foldlM EwahBitmap.step s
  | [], _, _, _, _, _ => rfl
  | op :: ops, hv, s, l, hr, hl => by
    obtain ⟨s', h1, h2⟩ := step_rep hr (hv op List.mem_cons_self)
    have hll : l.length ≤ 2 ^ 36 := Nat.le_trans (history_length (op :: ops) l) hl
    have e : step32 fuel s op = s.step op := by
      cases op with
      | flip => exact flip32_eq (blocks_small hr hll) hf
      | _ => rfl
    rw [List.foldlM_cons, List.foldlM_cons, e, h1]
    exact run32_rep hf (fun o ho => hv o (List.mem_cons_of_mem _ ho)) h2 hl

/-- **C01 (partial).**  With the counter of 32 bits, the history of up to 2^36 bits gives the bits of the list, and every loop ends.  Missing: bitmaps of 2^32 and more
blocks, for which `flip` does not end. -/
theorem C01_counter_partial (ops : List Op) (hv : ∀ op ∈ ops, op.valid) (hl : (history ops).length ≤ 2 ^ 36) (fuel : Nat) (hf : 2 ^ 32 ≤ fuel) :
    ∃ bm, run32 fuel ops = some bm ∧ concat bm.bitRange = history ops ∧ bm.size = (history ops).length := by
  obtain ⟨bm, h1, h2⟩ := C01_ewah_faithful ops hv
  exact ⟨bm, (run32_rep hf hv (.inl ⟨rfl, rfl⟩) hl).trans h1, h2⟩

theorem flipLoop_none : ∀ (fuel i next : Nat) (blocks : List Word), 2 ^ 32 ≤ blocks.length - 1 → i < 2 ^ 32 → flipLoop fuel i next blocks = none
  | 0, _, _, _, _, _ => rfl
  | fuel + 1, i, next, blocks, hb, hi => by
    rw [flipLoop, if_pos (by omega)]
    dsimp only
    split
    · exact flipLoop_none fuel _ _ _ (by rw [List.length_set]; exact hb) (Nat.mod_lt _ (by decide))
    · exact flipLoop_none fuel _ _ _ (by rw [List.length_set]; exact hb) (Nat.mod_lt _ (by decide))

theorem snoc_blocks_ge {e : Enc} {w : Word} (h : Word.allOrNone w = false) : e.blocks.length + 1 ≤ (e.snoc w).blocks.length := by
  unfold Enc.snoc
  rw [if_neg (by simp [h])]
  split
  · simp [Enc.blocks, Group.blocks]; omega
  · simp [Enc.blocks, Group.blocks]; omega

theorem ofWords_ge : ∀ n, n + 1 ≤ (Enc.ofWords (List.replicate n 1#64)).blocks.length
  | 0 => by decide
  | n + 1 => by
    rw [List.replicate_succ', Enc.ofWords_snoc]
    have := ofWords_ge n
    have := snoc_blocks_ge (e := Enc.ofWords (List.replicate n 1#64)) (w := 1#64) (by decide)
    omega

theorem ones_rep : ∀ n, ∃ s, EwahBitmap.run (List.replicate (n + 1) (.block 1#64 64)) = some s ∧ Rep s (List.replicate n 1#64) 1#64 64
  | 0 => ⟨_, rfl, by
      have := repM_empty.push (w := 1#64) (p := 64) (by decide) (by decide) (fun i hi => BitVec.getLsbD_of_ge _ _ hi)
      exact this⟩
  | n + 1 => by
    obtain ⟨s, h1, h2⟩ := ones_rep n
    obtain ⟨s', hs', hr'⟩ := h2.integrate
    have hm := h2.mod
    simp only [if_true] at hm
    have hm' : s'.numBits % 64 = 0 := by rw [hr'.2.2]; omega
    have hp := hr'.push (w := 1#64) (p := 64) (by decide) (by decide) (fun i hi => BitVec.getLsbD_of_ge _ _ hi)
    rw [← List.replicate_succ'] at hp
    refine ⟨_, ?_, hp⟩
    unfold EwahBitmap.run at h1 ⊢
    rw [List.replicate_succ', List.foldlM_append, h1]
    have e : s.step (.block 1#64 64) = some { s' with blocks := s'.blocks ++ [1#64], numBits := s'.numBits + 64 } := by
      rw [EwahBitmap.step, EwahBitmap.appendBlock, if_neg (by decide), if_neg h2.blocks_ne, if_pos hm]
      simp only [hs', Option.bind_eq_bind, Option.bind_some, hm', if_true]
      rw [show (1#64 &&& Word.lsbFill 64) = 1#64 by decide]
    simp [e]

/-- **C01 (refuted).**  There is a history of appends after which `flip` never ends. -/
theorem C01_flip_refuted : ∃ (ops : List Op) (bm : EwahBitmap), (∀ op ∈ ops, op.valid) ∧ EwahBitmap.run ops = some bm ∧ ∀ fuel, flip32 fuel bm = none := by
  obtain ⟨s, h1, h2⟩ := ones_rep (2 ^ 32)
  refine ⟨_, s, ?_, h1, fun fuel => ?_⟩
  · intro op hop
    rw [(List.mem_replicate.mp hop).2]
    exact ⟨by decide, by decide⟩
  · have hge := ofWords_ge (2 ^ 32)
    have hl : s.blocks.length = (Enc.ofWords (List.replicate (2 ^ 32) 1#64)).blocks.length + 1 := by
      rw [h2.1, List.length_append, List.length_singleton]
    unfold flip32
    rw [if_neg h2.blocks_ne, if_neg (by omega), flipLoop_none fuel 0 0 s.blocks (by omega) (by decide)]
    rfl

/-- The loop on a small bitmap: one clean run, a dirty block and a partial one. -/
example : (run32 100 [.bits true 200, .block 0xA5#64 8, .flip, .bits false 129, .bit true]).map (fun bm => (bm.blocks.length, bm.size)) = some (4, 338) := by
  decide +kernel

end Verif.Bitmap
