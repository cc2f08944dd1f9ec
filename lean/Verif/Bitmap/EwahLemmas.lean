import Verif.Bitmap.WordLemmas
import Verif.Bitmap.Spec

/-!
# EWAH: representation invariant

The blocks of a bitmap are the canonical encoding of its full words, followed by the last word.
-/

namespace Verif.Bitmap

open Ewah Spec

/-- A marker together with the words it describes. -/
structure Group where
  type : Bool := false
  clean : Nat := 0
  dirty : List Word := []

namespace Group

def marker (g : Group) : Word := mkMarker g.type g.clean g.dirty.length
def blocks (g : Group) : List Word := g.marker :: g.dirty
def words (g : Group) : List Word := List.replicate g.clean (fillWord g.type) ++ g.dirty

/-- Counters fit in their fields and an empty run has type 0. -/
def Ok (g : Group) : Prop :=
  g.clean ≤ cleanMax ∧ g.dirty.length ≤ dirtyMax ∧ (g.clean = 0 → g.type = false)

theorem Ok.initial : Ok {} := ⟨by simp, by simp, fun _ => rfl⟩

end Group

/-- The current group and the completed ones. -/
structure Enc where
  cur : Group := {}
  prev : List Group := []

namespace Enc

/-- All groups in order. -/
def groups (e : Enc) : List Group := e.prev ++ [e.cur]
def blocks (e : Enc) : List Word := e.prev.flatMap Group.blocks ++ e.cur.blocks
def words (e : Enc) : List Word := e.prev.flatMap Group.words ++ e.cur.words
def markerPos (e : Enc) : Nat := (e.prev.flatMap Group.blocks).length

def Ok (e : Enc) : Prop := e.cur.Ok ∧ ∀ g ∈ e.prev, g.Ok

/-- Append one full word. -/
def snoc (e : Enc) (w : Word) : Enc :=
  if Word.allOrNone w then
    if e.cur.dirty = [] ∧ e.cur.clean = 0 then ⟨⟨w != 0#64, 1, []⟩, e.prev⟩
    else if e.cur.dirty = [] ∧ (w != 0#64) = e.cur.type ∧ e.cur.clean ≠ cleanMax then
      ⟨⟨e.cur.type, e.cur.clean + 1, e.cur.dirty⟩, e.prev⟩
    else ⟨⟨w != 0#64, 1, []⟩, e.prev ++ [e.cur]⟩
  else if e.cur.dirty.length = dirtyMax then ⟨⟨false, 0, [w]⟩, e.prev ++ [e.cur]⟩
  else ⟨⟨e.cur.type, e.cur.clean, e.cur.dirty ++ [w]⟩, e.prev⟩

/-- The canonical encoding of a list of full words. -/
def ofWords (ws : List Word) : Enc := ws.foldl snoc {}

theorem ofWords_snoc (ws : List Word) (w : Word) : ofWords (ws ++ [w]) = (ofWords ws).snoc w := by
  simp [ofWords]

theorem cleanMax_pos : 1 ≤ cleanMax := by decide
theorem dirtyMax_pos : 1 ≤ dirtyMax := by decide

theorem snoc_ok {e : Enc} (h : e.Ok) (w : Word) : (e.snoc w).Ok := by
  obtain ⟨⟨h1, h2, h3⟩, h4⟩ := h
  have hc := cleanMax_pos
  have hd := dirtyMax_pos
  have h5 : ∀ g ∈ e.prev ++ [e.cur], g.Ok := by
    intro g hg
    rcases List.mem_append.1 hg with hg | hg
    · exact h4 g hg
    · rw [List.mem_singleton.1 hg]; exact ⟨h1, h2, h3⟩
  rw [snoc]
  split
  · split
    · exact ⟨⟨hc, by simp, by simp⟩, h4⟩
    · split
      · next h => exact ⟨⟨by simp only; omega, h2, by simp⟩, h4⟩
      · exact ⟨⟨hc, by simp, by simp⟩, h5⟩
  · split
    · exact ⟨⟨by simp, by simpa using hd, by simp⟩, h5⟩
    · next h =>
      refine ⟨⟨h1, ?_, h3⟩, h4⟩
      simp only [List.length_append, List.length_singleton]
      omega

theorem ofWords_ok (ws : List Word) : (ofWords ws).Ok := by
  have : ∀ (ws : List Word) (e : Enc), e.Ok → (ws.foldl snoc e).Ok := by
    intro ws
    induction ws with
    | nil => exact fun e h => h
    | cons w ws ih => exact fun e h => ih _ (snoc_ok h w)
  exact this ws {} ⟨Group.Ok.initial, by simp⟩

theorem snoc_words (e : Enc) (w : Word) : (e.snoc w).words = e.words ++ [w] := by
  rw [snoc]
  split
  · next hw =>
    have hf := allOrNone_fill hw
    split
    · next h =>
      simp [words, Group.words, h.1, h.2, ← hf]
    · split
      · next h =>
        simp only [words, Group.words, h.1, List.append_nil, List.replicate_succ', List.append_assoc]
        rw [← h.2.1, ← hf]
      · simp [words, Group.words, ← hf]
  · split
    · simp [words, Group.words]
    · simp [words, Group.words]

theorem ofWords_words (ws : List Word) : (ofWords ws).words = ws := by
  have : ∀ (ws : List Word) (e : Enc), (ws.foldl snoc e).words = e.words ++ ws := by
    intro ws
    induction ws with
    | nil => simp
    | cons w ws ih => intro e; rw [List.foldl_cons, ih, snoc_words]; simp
  rw [ofWords, this]
  rfl

theorem blocks_length_pos (e : Enc) : e.markerPos < e.blocks.length := by
  simp [blocks, markerPos, Group.blocks]

theorem blocks_length (e : Enc) : e.blocks.length = e.markerPos + 1 + e.cur.dirty.length := by
  simp [blocks, markerPos, Group.blocks]; omega

end Enc

/-! ## Blocks followed by a last word -/

theorem getLastD_append_singleton (xs : List Word) (w d : Word) : (xs ++ [w]).getLastD d = w := by
  simp

/-- Replacing the marker of the current group. -/
theorem set_marker (e : Enc) (m : Word) (tail : List Word) :
    (e.blocks ++ tail).set e.markerPos m = e.prev.flatMap Group.blocks ++ m :: (e.cur.dirty ++ tail) := by
  rw [Enc.blocks, Group.blocks, Enc.markerPos, List.append_assoc, List.set_append_right _ _ (by simp)]
  simp

theorem get_marker (e : Enc) (tail : List Word) (d : Word) :
    (e.blocks ++ tail).getD e.markerPos d = e.cur.marker := by
  rw [Enc.blocks, Group.blocks, Enc.markerPos, List.append_assoc]
  simp [List.getD]

/-- The state of a bitmap at a word boundary, with no last word: the encoding of its full words. -/
def RepM (s : EwahBitmap) (ws : List Word) : Prop :=
  s.blocks = (Enc.ofWords ws).blocks ∧ s.lastMarker = (Enc.ofWords ws).markerPos
    ∧ s.numBits = 64 * ws.length

/-- The state of a non-empty bitmap: full words `ws` and a last word of `p` bits. -/
def Rep (s : EwahBitmap) (ws : List Word) (last : Word) (p : Nat) : Prop :=
  s.blocks = (Enc.ofWords ws).blocks ++ [last] ∧ s.lastMarker = (Enc.ofWords ws).markerPos
    ∧ s.numBits = 64 * ws.length + p ∧ 1 ≤ p ∧ p ≤ 64 ∧ (∀ i, p ≤ i → last.getLsbD i = false)

theorem RepM.push {s : EwahBitmap} {ws : List Word} (h : RepM s ws) {w : Word} {p : Nat}
    (h1 : 1 ≤ p) (h2 : p ≤ 64) (h3 : ∀ i, p ≤ i → w.getLsbD i = false) :
    Rep { s with blocks := s.blocks ++ [w], numBits := s.numBits + p } ws w p :=
  ⟨by rw [h.1], h.2.1, by simp only; rw [h.2.2], h1, h2, h3⟩

theorem integrate_rep {s : EwahBitmap} {ws : List Word} {last : Word}
    (hb : s.blocks = (Enc.ofWords ws).blocks ++ [last])
    (hm : s.lastMarker = (Enc.ofWords ws).markerPos) (hn : s.numBits = 64 * (ws.length + 1)) :
    ∃ s', s.integrateLastBlock = some s' ∧ RepM s' (ws ++ [last]) := by
  have hok := Enc.ofWords_ok ws
  have hsn := Enc.ofWords_snoc ws last
  generalize Enc.ofWords ws = e at *
  obtain ⟨⟨hc, hd, hz⟩, -⟩ := hok
  have hlen := Enc.blocks_length e
  have hgm := get_marker e [last] 0#64
  have hmk : e.cur.marker = mkMarker e.cur.type e.cur.clean e.cur.dirty.length := rfl
  rw [EwahBitmap.integrateLastBlock]
  have hpre : s.blocks.length ≥ 2 ∧ s.lastMarker < s.blocks.length - 1 ∧ s.numBits % 64 = 0 := by
    rw [hb, hm, hn]
    simp only [List.length_append, List.length_singleton]
    omega
  rw [if_neg (by simpa using hpre)]
  have hafter : s.blocks.length - s.lastMarker - 1 = 1 ↔ e.cur.dirty = [] := by
    rw [hb, hm, List.length_append, hlen, List.length_singleton, ← List.length_eq_zero_iff]
    omega
  simp only [hafter]
  rw [hb, hm, hgm, hmk, numClean_mk hc hd, markerType_mk hc hd, getLastD_append_singleton]
  have hlenR : 64 * (ws.length + 1) = 64 * (ws ++ [last]).length := by simp
  by_cases hw : Word.allOrNone last
  · rw [if_pos hw]
    by_cases h1 : e.cur.dirty = [] ∧ e.cur.clean = 0
    · rw [if_pos h1]
      refine ⟨_, rfl, ?_, ?_, ?_⟩
      · rw [hsn, Enc.snoc, if_pos hw, if_pos h1]
        simp only [h1.1, h1.2]
        rw [set_marker, setMarkerType_mk _ (by simp) (by simp), setNumClean_mk (by simp) (by simp) Enc.cleanMax_pos]
        rw [h1.1]
        simp [Enc.blocks, Group.blocks, Group.marker, List.dropLast_append_of_ne_nil]
      · rw [hsn, Enc.snoc, if_pos hw, if_pos h1]; rfl
      · simp only [hn, hlenR]
    · rw [if_neg h1]
      by_cases h2 : e.cur.dirty = [] ∧ (last != 0#64) = e.cur.type ∧ e.cur.clean ≠ cleanMax
      · rw [if_pos h2]
        refine ⟨_, rfl, ?_, ?_, ?_⟩
        · rw [hsn, Enc.snoc, if_pos hw, if_neg h1, if_pos h2]
          simp only
          rw [set_marker, setNumClean_mk hc hd (by omega)]
          rw [h2.1]
          simp [Enc.blocks, Group.blocks, Group.marker, List.dropLast_append_of_ne_nil, h2.1]
        · rw [hsn, Enc.snoc, if_pos hw, if_neg h1, if_pos h2]; rfl
        · simp only [hn, hlenR]
      · rw [if_neg h2]
        refine ⟨_, rfl, ?_, ?_, ?_⟩
        · rw [hsn, Enc.snoc, if_pos hw, if_neg h1, if_neg h2]
          simp only [EwahBitmap.setBack]
          rw [List.dropLast_concat, ← mkMarker_zero, setMarkerType_mk _ (by simp) (by simp),
            setNumClean_mk (by simp) (by simp) Enc.cleanMax_pos]
          simp [Enc.blocks, Group.blocks, Group.marker]
        · rw [hsn, Enc.snoc, if_pos hw, if_neg h1, if_neg h2]
          simp [Enc.markerPos, Enc.blocks]
        · simp only [hn, hlenR]
  · rw [if_neg hw, EwahBitmap.bumpDirtyCount]
    have hpre2 : s.numBits % 64 = 0 ∧ s.lastMarker < s.blocks.length := by omega
    rw [if_neg (by simpa using hpre2), hb, hm, hgm, hmk]
    simp only [numDirty_mk hc hd]
    by_cases h1 : e.cur.dirty.length = dirtyMax
    · rw [if_pos h1]
      refine ⟨_, rfl, ?_, ?_, ?_⟩
      · rw [hsn, Enc.snoc, if_neg hw, if_pos h1]
        simp only [EwahBitmap.setBack, getLastD_append_singleton]
        rw [List.dropLast_concat, mkMarker_dirty_one]
        simp [Enc.blocks, Group.blocks, Group.marker]
      · rw [hsn, Enc.snoc, if_neg hw, if_pos h1]
        simp [Enc.markerPos, Enc.blocks]
      · simp only [hn, hlenR]
    · rw [if_neg h1]
      refine ⟨_, rfl, ?_, ?_, ?_⟩
      · rw [hsn, Enc.snoc, if_neg hw, if_neg h1]
        simp only
        rw [set_marker, setNumDirty_mk hc hd (by omega)]
        simp [Enc.blocks, Group.blocks, Group.marker]
      · rw [hsn, Enc.snoc, if_neg hw, if_neg h1]; rfl
      · simp only [hn, hlenR]

/-! ## Appending many clean words at once -/

namespace Enc

/-- Only the first marker may be empty. -/
def Fresh (e : Enc) : Prop := e.cur.dirty = [] → e.cur.clean = 0 → e.prev = []

theorem snoc_fresh {e : Enc} (w : Word) (h : e.Fresh) : (e.snoc w).Fresh := by
  rw [snoc]
  split
  · split
    · intro _ h; simp at h
    · split
      · intro _ h; simp at h
      · intro _ h; simp at h
  · split
    · intro h; simp at h
    · intro h; simp at h

theorem ofWords_fresh (ws : List Word) : (ofWords ws).Fresh := by
  have : ∀ (ws : List Word) (e : Enc), e.Fresh → (ws.foldl snoc e).Fresh := by
    intro ws
    induction ws with
    | nil => exact fun e h => h
    | cons w ws ih => exact fun e h => ih _ (snoc_fresh w h)
  exact this ws {} (fun _ _ => rfl)

/-- Append `c` clean words. -/
def addClean (e : Enc) (t : Bool) (c : Nat) : Enc := (List.replicate c (fillWord t)).foldl snoc e

@[simp] theorem addClean_zero (e : Enc) (t : Bool) : e.addClean t 0 = e := rfl

theorem addClean_succ (e : Enc) (t : Bool) (c : Nat) :
    e.addClean t (c + 1) = (e.snoc (fillWord t)).addClean t c := rfl

theorem addClean_add (e : Enc) (t : Bool) (a b : Nat) :
    e.addClean t (a + b) = (e.addClean t a).addClean t b := by
  rw [addClean, ← List.replicate_append_replicate, List.foldl_append]; rfl

theorem ofWords_addClean (ws : List Word) (t : Bool) (c : Nat) :
    ofWords (ws ++ List.replicate c (fillWord t)) = (ofWords ws).addClean t c := by
  rw [ofWords, List.foldl_append]; rfl

/-- The current marker cannot take clean words of type `t`. -/
def Closed (e : Enc) (t : Bool) : Prop :=
  ¬ (e.cur.dirty = [] ∧ e.cur.clean = 0) ∧ ¬ (e.cur.dirty = [] ∧ t = e.cur.type ∧ e.cur.clean ≠ cleanMax)

theorem snoc_clean_fresh {e : Enc} (t : Bool) (h1 : e.cur.dirty = []) (h2 : e.cur.clean = 0) :
    e.snoc (fillWord t) = ⟨⟨t, 1, []⟩, e.prev⟩ := by
  rw [snoc, if_pos (allOrNone_fillWord t), if_pos ⟨h1, h2⟩, fillWord_ne_zero]

theorem snoc_clean_closed {e : Enc} {t : Bool} (h : e.Closed t) :
    e.snoc (fillWord t) = ⟨⟨t, 1, []⟩, e.prev ++ [e.cur]⟩ := by
  rw [snoc, if_pos (allOrNone_fillWord t), if_neg h.1, fillWord_ne_zero, if_neg h.2]

/-- Growing a non-empty run of the right type. -/
theorem addClean_grow (t : Bool) (prev : List Group) : ∀ (c k : Nat), 1 ≤ k → k + c ≤ cleanMax →
    (Enc.mk ⟨t, k, []⟩ prev).addClean t c = ⟨⟨t, k + c, []⟩, prev⟩
  | 0, _, _, _ => rfl
  | c + 1, k, hk, hc => by
    rw [addClean_succ, snoc, if_pos (allOrNone_fillWord t), if_neg (by simp; omega),
      fillWord_ne_zero, if_pos ⟨rfl, rfl, by simp only; omega⟩, addClean_grow t prev c (k + 1) (by omega) (by omega)]
    rw [show k + 1 + c = k + (c + 1) by omega]

theorem addClean_fresh {e : Enc} (t : Bool) (h1 : e.cur.dirty = []) (h2 : e.cur.clean = 0)
    {c : Nat} (hc : 1 ≤ c) (hm : c ≤ cleanMax) : e.addClean t c = ⟨⟨t, c, []⟩, e.prev⟩ := by
  obtain ⟨c, rfl⟩ : ∃ c', c = 1 + c' := ⟨c - 1, by omega⟩
  rw [Nat.add_comm, addClean_succ, snoc_clean_fresh t h1 h2, addClean_grow t _ _ _ (by omega) (by omega), Nat.add_comm]

theorem addClean_closed_one {e : Enc} {t : Bool} (h : e.Closed t) {c : Nat} (hc : 1 ≤ c)
    (hm : c ≤ cleanMax) : e.addClean t c = ⟨⟨t, c, []⟩, e.prev ++ [e.cur]⟩ := by
  obtain ⟨c, rfl⟩ : ∃ c', c = 1 + c' := ⟨c - 1, by omega⟩
  rw [Nat.add_comm, addClean_succ, snoc_clean_closed h, addClean_grow t _ _ _ (by omega) (by omega), Nat.add_comm]

/-- The markers for `c` clean words. -/
def fullMarkers (t : Bool) (c : Nat) : List Group :=
  List.replicate (c / cleanMax) ⟨t, cleanMax, []⟩
    ++ (if c % cleanMax > 0 then [⟨t, c % cleanMax, []⟩] else [])

theorem fullMarkers_small (t : Bool) {c : Nat} (h1 : 1 ≤ c) (h2 : c ≤ cleanMax) :
    fullMarkers t c = [⟨t, c, []⟩] := by
  have hm := cleanMax_pos
  rw [fullMarkers]
  by_cases h : c = cleanMax
  · subst h
    rw [Nat.div_self (by omega), Nat.mod_self]; rfl
  · rw [Nat.div_eq_of_lt (by omega), Nat.mod_eq_of_lt (by omega), if_pos (by omega)]; rfl

theorem fullMarkers_big (t : Bool) {c : Nat} : fullMarkers t (c + cleanMax) = ⟨t, cleanMax, []⟩ :: fullMarkers t c := by
  have hm := cleanMax_pos
  rw [fullMarkers, Nat.add_div_right _ (by omega), Nat.add_mod_right]
  rfl

theorem addClean_closed {t : Bool} (c : Nat) : ∀ {e : Enc}, e.Closed t → 1 ≤ c →
    (e.addClean t c).groups = e.groups ++ fullMarkers t c ∧ (e.addClean t c).cur.dirty = [] := by
  induction c using Nat.strongRecOn with
  | _ c ih =>
    intro e h hc
    have hm := cleanMax_pos
    by_cases hs : c ≤ cleanMax
    · rw [addClean_closed_one h hc hs, fullMarkers_small t hc hs]
      simp [groups]
    · obtain ⟨c', rfl⟩ : ∃ c', c = cleanMax + c' := ⟨c - cleanMax, by omega⟩
      rw [addClean_add, addClean_closed_one h hm (Nat.le_refl _)]
      have := ih c' (by omega) (e := ⟨⟨t, cleanMax, []⟩, e.prev ++ [e.cur]⟩)
        ⟨by simp; omega, by simp⟩ (by omega)
      refine ⟨?_, this.2⟩
      rw [this.1, Nat.add_comm, fullMarkers_big]
      simp [groups]

theorem blocks_eq_groups (e : Enc) : e.blocks = e.groups.flatMap Group.blocks := by
  simp [blocks, groups]

theorem fullMarkers_blocks (t : Bool) (c : Nat) :
    (fullMarkers t c).flatMap Group.blocks
      = List.replicate (c / cleanMax) (mkMarker t cleanMax 0)
        ++ (if c % cleanMax > 0 then [mkMarker t (c % cleanMax) 0] else []) := by
  rw [fullMarkers, List.flatMap_append]
  congr 1
  · generalize c / cleanMax = q
    induction q with
    | zero => rfl
    | succ q ih =>
      rw [List.replicate_succ, List.flatMap_cons, ih]; rfl
  · split <;> rfl

end Enc

theorem appendClean_rep {s : EwahBitmap} {ws : List Word} (h : RepM s ws) (bit : Bool) {n : Nat}
    (hn : 64 < n) :
    ∃ s' ws' p, s.appendClean bit n = some s' ∧ Rep s' ws' (if bit then Word.lsbFill p else Word.none) p
      ∧ ws' = ws ++ List.replicate (n / 64 - (if n % 64 = 0 then 1 else 0)) (fillWord bit)
      ∧ p = (if n % 64 = 0 then 64 else n % 64) := by
  obtain ⟨hb, hl, hnb⟩ := h
  have hp1 : 1 ≤ (if n % 64 = 0 then 64 else n % 64) := by split <;> omega
  have hp2 : (if n % 64 = 0 then 64 else n % 64) ≤ 64 := by split <;> omega
  have hsum : n = 64 * (n / 64 - (if n % 64 = 0 then 1 else 0)) + (if n % 64 = 0 then 64 else n % 64) := by
    split <;> omega
  have hcpos : (if n % 64 = 0 then n / 64 - 1 else n / 64) > 0 := by split <;> omega
  have hceq : (if n % 64 = 0 then n / 64 - 1 else n / 64) = n / 64 - (if n % 64 = 0 then 1 else 0) := by
    split <;> omega
  have hok := Enc.ofWords_ok ws
  have hfr := Enc.ofWords_fresh ws
  have hadd := Enc.ofWords_addClean ws bit (n / 64 - (if n % 64 = 0 then 1 else 0))
  simp only [EwahBitmap.appendClean]
  rw [hceq] at hcpos ⊢
  generalize hc : n / 64 - (if n % 64 = 0 then 1 else 0) = c at *
  generalize hpe : (if n % 64 = 0 then 64 else n % 64) = p at *
  have hlastz : ∀ i, p ≤ i → (if bit then Word.lsbFill p else Word.none).getLsbD i = false := by
    intro i hi
    cases bit
    · simp
    · rw [if_pos rfl, getLsbD_lsbFill hp2]; simp; omega
  have hlastn : s.numBits + n = 64 * (ws ++ List.replicate c (fillWord bit)).length + p := by
    rw [hnb, List.length_append, List.length_replicate]; omega
  generalize Enc.ofWords ws = e at *
  obtain ⟨⟨hcc, hdd, hzz⟩, -⟩ := hok
  have hlen := Enc.blocks_length e
  have hgm := get_marker e [] 0#64
  rw [List.append_nil] at hgm
  have hmk : e.cur.marker = mkMarker e.cur.type e.cur.clean e.cur.dirty.length := rfl
  rw [hb, hl, hgm, hmk, numClean_mk hcc hdd, markerType_mk hcc hdd]
  rw [if_neg (by simp only [Classical.not_not]; exact ⟨by omega, hcpos, by omega⟩)]
  have hset : ∀ m, e.blocks.set e.markerPos m = e.prev.flatMap Group.blocks ++ m :: e.cur.dirty := by
    intro m
    have := set_marker e m []
    simpa using this
  have hlast : e.markerPos = e.blocks.length - 1 ↔ e.cur.dirty = [] := by
    rw [hlen, ← List.length_eq_zero_iff]; omega
  have hrc : (e.markerPos = e.blocks.length - 1 ∧ e.cur.type = bit
      ∨ e.markerPos = 0 ∧ mkMarker e.cur.type e.cur.clean e.cur.dirty.length = 0#64)
      ↔ e.cur.dirty = [] ∧ (e.cur.type = bit ∨ e.cur.clean = 0) := by
    constructor
    · rintro (⟨h1, h2⟩ | ⟨h1, h2⟩)
      · exact ⟨hlast.1 h1, Or.inl h2⟩
      · have := mkMarker_eq_zero hcc hdd h2
        exact ⟨List.length_eq_zero_iff.1 this.2.2, Or.inr this.2.1⟩
    · rintro ⟨h1, h2⟩
      by_cases hz : e.cur.clean = 0
      · right
        refine ⟨?_, ?_⟩
        · rw [Enc.markerPos, hfr h1 hz]; rfl
        · rw [hz, hzz hz, h1]; exact mkMarker_zero
      · rcases h2 with h2 | h2
        · exact Or.inl ⟨hlast.2 h1, h2⟩
        · exact absurd h2 hz
  simp only [hrc]
  have hself : e.blocks.set e.markerPos e.cur.marker = e.blocks := by
    rw [hset]; rfl
  -- the tail of the function, from a closed state
  have htail : ∀ (e' : Enc) (c' : Nat), e'.Closed bit → 1 ≤ c' → e'.addClean bit c' = e.addClean bit c →
      ∀ bs, bs = e'.blocks →
      Rep { blocks := (if c' % cleanMax > 0
                then bs ++ List.replicate (c' / cleanMax) (setMarkerType cleanMask bit)
                  ++ [setMarkerType (setNumClean 0#64 (c' % cleanMax)) bit]
                else bs ++ List.replicate (c' / cleanMax) (setMarkerType cleanMask bit))
              ++ [if bit then Word.lsbFill p else Word.none],
            lastMarker := (if c' % cleanMax > 0
                then bs ++ List.replicate (c' / cleanMax) (setMarkerType cleanMask bit)
                  ++ [setMarkerType (setNumClean 0#64 (c' % cleanMax)) bit]
                else bs ++ List.replicate (c' / cleanMax) (setMarkerType cleanMask bit)).length - 1,
            numBits := s.numBits + n }
        (ws ++ List.replicate c (fillWord bit)) (if bit then Word.lsbFill p else Word.none) p := by
    intro e' c' hcl hc1 heq bs hbs
    obtain ⟨hg, hd⟩ := Enc.addClean_closed c' hcl hc1
    have hblk : (e.addClean bit c).blocks = (if c' % cleanMax > 0
                then bs ++ List.replicate (c' / cleanMax) (setMarkerType cleanMask bit)
                  ++ [setMarkerType (setNumClean 0#64 (c' % cleanMax)) bit]
                else bs ++ List.replicate (c' / cleanMax) (setMarkerType cleanMask bit)) := by
      rw [← heq, Enc.blocks_eq_groups, hg, List.flatMap_append, Enc.fullMarkers_blocks, hbs,
        cleanMask_eq, setMarkerType_mk _ (Nat.le_refl _) (by simp), Enc.blocks_eq_groups]
      split
      · have hlt := Nat.mod_lt c' (show cleanMax > 0 from Enc.cleanMax_pos)
        rw [← mkMarker_zero, setNumClean_mk (by simp) (by simp) (by omega),
          setMarkerType_mk _ (by omega) (by simp), List.append_assoc]
      · rw [List.append_nil]
    refine ⟨?_, ?_, hlastn, hp1, hp2, hlastz⟩
    · simp only
      rw [hadd, hblk]
    · simp only
      rw [hadd, ← hblk, Enc.blocks_length, ← heq, hd]; simp
  by_cases hreuse : e.cur.dirty = [] ∧ (e.cur.type = bit ∨ e.cur.clean = 0)
  · simp only [if_pos hreuse]
    rw [setNumClean_mk hcc hdd (by omega), setMarkerType_mk _ (by omega) hdd]
    obtain ⟨hd0, hty⟩ := hreuse
    -- growing the marker
    have hgrow : ∀ k, 1 ≤ e.cur.clean + k → e.cur.clean + k ≤ cleanMax →
        e.addClean bit k = ⟨⟨bit, e.cur.clean + k, []⟩, e.prev⟩ := by
      intro k hk1 hk2
      by_cases hz : e.cur.clean = 0
      · rw [Enc.addClean_fresh bit hd0 hz (by omega) (by omega), hz, Nat.zero_add]
      · rcases hty with hty | hty
        · have : e = ⟨⟨bit, e.cur.clean, []⟩, e.prev⟩ := by
            rw [← hty, ← hd0]
          have h2 := Enc.addClean_grow bit e.prev k e.cur.clean (by omega) hk2
          rw [← this] at h2
          exact h2
        · exact absurd hty hz
    by_cases hfit : c - min (cleanMax - e.cur.clean) c > 0
    · rw [if_pos hfit]
      have hmin : min (cleanMax - e.cur.clean) c = cleanMax - e.cur.clean := by omega
      rw [hmin] at hfit ⊢
      have hfull := hgrow (cleanMax - e.cur.clean) (by have := Enc.cleanMax_pos; omega) (by omega)
      have hcm : e.cur.clean + (cleanMax - e.cur.clean) = cleanMax := by omega
      rw [hcm] at hfull ⊢
      have hT := htail ⟨⟨bit, cleanMax, []⟩, e.prev⟩ (c - (cleanMax - e.cur.clean))
        ⟨by have := Enc.cleanMax_pos; simp; omega, by simp⟩ (by omega)
        (by rw [← hfull, ← Enc.addClean_add]; congr 1; omega)
        _ rfl
      refine ⟨_, _, _, rfl, ?_, rfl, rfl⟩
      have hbs : (e.blocks.set e.markerPos (mkMarker bit cleanMax e.cur.dirty.length))
          = (Enc.mk ⟨bit, cleanMax, []⟩ e.prev).blocks := by
        rw [hset, hd0]; rfl
      have hif : (if e.markerPos = (e.blocks.set e.markerPos (mkMarker bit cleanMax e.cur.dirty.length)).length - 1
          then (e.blocks.set e.markerPos (mkMarker bit cleanMax e.cur.dirty.length)).set e.markerPos
            (setNumDirty (mkMarker bit cleanMax e.cur.dirty.length) 0)
          else (e.blocks.set e.markerPos (mkMarker bit cleanMax e.cur.dirty.length)))
          = (Enc.mk ⟨bit, cleanMax, []⟩ e.prev).blocks := by
        rw [if_pos (by rw [List.length_set]; exact hlast.2 hd0), setNumDirty_mk (Nat.le_refl _) hdd (by simp),
          List.set_set, hset, hd0]
        rfl
      rw [hif]
      exact hT
    · rw [if_neg hfit]
      have hmin : min (cleanMax - e.cur.clean) c = c := by omega
      rw [hmin]
      refine ⟨_, _, _, rfl, ⟨?_, ?_, hlastn, hp1, hp2, hlastz⟩, rfl, rfl⟩
      · simp only
        rw [hadd, hgrow c (by omega) (by omega), hset, hd0]; rfl
      · simp only
        rw [hadd, hgrow c (by omega) (by omega)]; rfl
  · simp only [if_neg hreuse]
    rw [if_pos hcpos]
    have hcl : e.Closed bit := by
      refine ⟨fun h => hreuse ⟨h.1, Or.inr h.2⟩, fun h => hreuse ⟨h.1, Or.inl h.2.1.symm⟩⟩
    have hif : (if e.markerPos = (e.blocks.set e.markerPos (mkMarker e.cur.type e.cur.clean e.cur.dirty.length)).length - 1
          then (e.blocks.set e.markerPos (mkMarker e.cur.type e.cur.clean e.cur.dirty.length)).set e.markerPos
            (setNumDirty (mkMarker e.cur.type e.cur.clean e.cur.dirty.length) 0)
          else (e.blocks.set e.markerPos (mkMarker e.cur.type e.cur.clean e.cur.dirty.length)))
          = e.blocks := by
      split
      · next hx =>
        rw [List.length_set] at hx
        have hd0 := hlast.1 hx
        rw [setNumDirty_mk hcc hdd (by simp), List.set_set]
        rw [hmk] at hself
        rw [hd0] at hself
        exact hself
      · rw [← hmk, hself]
    refine ⟨_, _, _, rfl, ?_, rfl, rfl⟩
    rw [hif]
    exact htail e c hcl hcpos rfl _ rfl

end Verif.Bitmap
