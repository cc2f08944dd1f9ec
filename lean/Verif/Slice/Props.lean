import Verif.Slice.Lemmas

/-!
# C27, C28, C57: selecting, truncating, splitting and filtering slices

The events of a slice are its rows, paired with their IDs: the offset and its successors.
-/

namespace Verif.Slice

open Verif.Bitmap Verif.Bitmap.Spec

variable {R : Type}

namespace Spec

/-- The rows of a slice with their IDs. -/
def events (s : Slice R) : List (R × Nat) := s.rows.zipIdx s.offset

end Spec

/-- **C27.** For every non-empty slice, whose IDs fit into 64 bits, and every set of IDs: `select` returns non-empty slices
whose events, one slice after the other, are exactly the events of the input whose ID is in the set. -/
theorem C27_select (s : Slice R) (hs : s.rows ≠ []) (hb : s.offset + s.rows.length < 2 ^ 64) (e : Expr) (hv : e.valid) :
    ∃ ids out, e.eval = some ids ∧ select s ids = some out ∧ (∀ t ∈ out, t.rows ≠ []) ∧
      out.flatMap Spec.events = (Spec.events s).filter fun x => e.bits[x.2]? == some true := by
  obtain ⟨ids, h1, h2⟩ := eval_rep hv
  obtain ⟨out, h3, h4, h5⟩ := select_spec s hs hb h2
  exact ⟨ids, out, h1, h3, h5, h4⟩

/-- No ID is returned twice: the events of the result form a sublist of those of the input, whose IDs
ascend. -/
theorem C27_select_ascending (s : Slice R) (hs : s.rows ≠ []) (hb : s.offset + s.rows.length < 2 ^ 64) (e : Expr) (hv : e.valid) :
    ∃ ids out, e.eval = some ids ∧ select s ids = some out ∧
      (out.flatMap Spec.events).Pairwise fun x y => x.2 < y.2 := by
  obtain ⟨ids, out, h1, h2, _, h3⟩ := C27_select s hs hb e hv
  refine ⟨ids, out, h1, h2, ?_⟩
  rw [h3]
  apply List.Pairwise.filter
  have : ((Spec.events s).map (·.2)).Pairwise (· < ·) := by
    have := events_ids s.rows s.offset fun _ => true
    rw [filter_all, filter_all] at this
    rw [Spec.events, this]
    exact List.pairwise_lt_range'
  exact List.pairwise_map.1 this

/-- Rows 3, 4 and 6, 7 of a slice of five starting at 3: two slices. -/
example : let s : Slice Char := ⟨3, ['a', 'b', 'c', 'd', 'e']⟩
    let e := Expr.history [.bits true 5, .bit false, .bits true 100]
    e.valid ∧ s.rows ≠ [] ∧ (do select s (← e.eval)) = some [⟨3, ['a', 'b']⟩, ⟨6, ['d', 'e']⟩] := by
  refine ⟨by simp [Expr.valid, Op.valid], by simp, by decide +kernel⟩

/-- The slice has no IDs (yet), or they fit into 64 bits. -/
def Spec.Fits (s : Slice R) : Prop :=
  (s.offset = invalidId ∧ s.rows.length < 2 ^ 64) ∨ s.offset + s.rows.length < 2 ^ 64

theorem anchor_fits {s : Slice R} (hb : Spec.Fits s) : s.anchor.offset + s.rows.length < 2 ^ 64 := by
  unfold Slice.anchor
  split
  · next h =>
    simp only [Nat.zero_add]
    rcases hb with h' | h' <;> omega
  · next h =>
    rcases hb with h' | h'
    · exact absurd h'.1 h
    · exact h'

theorem anchor_rows (s : Slice R) : s.anchor.rows = s.rows := by
  unfold Slice.anchor; split <;> rfl

theorem restore_anchor (s : Slice R) (rows : List R) (k : Nat) :
    s.restore ⟨s.anchor.offset + k, rows⟩ = ⟨if s.offset = invalidId then invalidId else s.offset + k, rows⟩ := by
  unfold Slice.restore Slice.anchor
  split <;> rfl

/-- **C28.** Truncating to a positive number of rows keeps the first ones, and the offset. -/
theorem C28_truncate (s : Slice R) (hb : Spec.Fits s) (n : Nat) (hn : 0 < n) :
    truncate s n = some ⟨s.offset, s.rows.take n⟩ := by
  rw [truncate, if_neg (by omega)]
  split
  · next h => rw [List.take_of_length_le h]
  · next h =>
    have hf := anchor_fits hb
    have hr := anchor_rows s
    obtain ⟨bm, h1, h2⟩ := select_range s.anchor (a := s.anchor.offset) (b := s.anchor.offset + n) (by omega)
      (Nat.le_refl _) (by rw [hr]; omega) (by rw [hr]; omega) (by rw [hr]; exact hf)
    have := restore_anchor s (s.rows.take n) 0
    rw [Nat.add_zero] at this
    rw [add64_eq (by omega), h1]
    simp only [Option.bind_eq_bind, Option.bind_some, h2, Nat.sub_self, List.drop_zero, Nat.add_sub_cancel_left, hr, this]
    split
    · next hi => rw [hi]
    · rfl

/-- **C28.** Splitting at any point: the first part has that many rows (or all), the parts together
are the input, and the IDs do not change. -/
theorem C28_split (s : Slice R) (hb : Spec.Fits s) (n : Nat) :
    ∃ a b, split s n = some (a, b) ∧ a.rows = s.rows.take n ∧ b.rows = s.rows.drop n ∧
      (s.offset ≠ invalidId → Spec.events a ++ Spec.events b = Spec.events s) ∧
      (s.offset = invalidId → a.offset = invalidId ∧ b.offset = invalidId) := by
  have hev : ∀ (x y : List R) (k : Nat), (x ++ y).zipIdx k = x.zipIdx k ++ y.zipIdx (k + x.length) := by
    intro x y k; rw [List.zipIdx_append]
  rw [split]
  split
  · next h =>
    subst h
    exact ⟨_, _, rfl, by simp, by simp, by simp [Spec.events], fun h => ⟨rfl, h⟩⟩
  · next h0 =>
    split
    · next h =>
      refine ⟨_, _, rfl, by rw [List.take_of_length_le h], by rw [List.drop_eq_nil_of_le h], by simp [Spec.events], fun h => ⟨h, rfl⟩⟩
    · next h =>
      have hf := anchor_fits hb
      have hr := anchor_rows s
      obtain ⟨bm, h1, h2⟩ := select_range s.anchor (a := s.anchor.offset) (b := s.anchor.offset + n) (by omega)
        (Nat.le_refl _) (by rw [hr]; omega) (by rw [hr]; omega) (by rw [hr]; exact hf)
      obtain ⟨bm', h3, h4⟩ := select_range s.anchor (a := s.anchor.offset + n) (b := s.anchor.offset + s.rows.length) (by omega)
        (by omega) (by rw [hr]; omega) (by rw [hr]; omega) (by rw [hr]; exact hf)
      rw [add64_eq (by omega), add64_eq hf, h1, h3]
      have hd : (s.rows.drop n).take (s.anchor.offset + s.rows.length - (s.anchor.offset + n)) = s.rows.drop n := by
        rw [List.take_of_length_le]; rw [List.length_drop]; omega
      simp only [Option.bind_eq_bind, Option.bind_some, h2, h4, Nat.sub_self, List.drop_zero, Nat.add_sub_cancel_left, hr, hd]
      have e0 := restore_anchor s (s.rows.take n) 0
      rw [Nat.add_zero, Nat.add_zero] at e0
      rw [e0, restore_anchor]
      refine ⟨_, _, rfl, rfl, rfl, ?_, ?_⟩
      · intro hi
        rw [if_neg hi, if_neg hi, Spec.events, Spec.events, Spec.events]
        simp only
        have := hev (s.rows.take n) (s.rows.drop n) s.offset
        rw [List.take_append_drop, List.length_take, Nat.min_eq_left (by omega)] at this
        exact this.symm
      · intro hi
        rw [if_pos hi, if_pos hi]
        exact ⟨rfl, rfl⟩

/-- A slice with IDs and one without. -/
example : let s : Slice Char := ⟨10, ['a', 'b', 'c']⟩
    let t : Slice Char := ⟨invalidId, ['a', 'b', 'c']⟩
    Spec.Fits s ∧ Spec.Fits t ∧ split s 1 = some (⟨10, ['a']⟩, ⟨11, ['b', 'c']⟩) ∧ truncate s 2 = some ⟨10, ['a', 'b']⟩
      ∧ truncate t 2 = some ⟨invalidId, ['a', 'b']⟩ := by
  refine ⟨Or.inr (by decide), Or.inl ⟨rfl, by decide⟩, by decide +kernel, by decide +kernel, by decide +kernel⟩

/-! ## Filtering -/

/-- The rows of a slice that a filter should keep: all those that pass the check and, unless the hints
are the empty bitmap, whose ID is among the hints. The rows of a slice without IDs count from zero. -/
def Spec.kept (s : Slice R) (off : Nat) (expr : Option (R → Bool)) (hints : List Bool) : List R :=
  ((s.rows.zipIdx off).filter fun x => (hints == [] || hints[x.2]? == some true) && (expr.getD fun _ => true) x.1).map (·.1)

/-- What `filter` and `count_matching` have in common. -/
theorem selection_spec (s : Slice R) (hs : s.rows ≠ []) {off : Nat} (hb : off + s.rows.length < 2 ^ 64)
    {hints : EwahBitmap} {l : List Bool} (hh : Represents hints l) :
    ∃ ids sel evs lx ls, sliceIds off s.rows.length = some ids ∧ Represents ids lx ∧ lx.count true = s.rows.length ∧
      restrict ids hints = some sel ∧ Represents sel ls ∧
      evs = (s.rows.zipIdx off).filter (fun x => l == [] || l[x.2]? == some true) ∧
      ls.count true = evs.length ∧ members sel = evs.map (·.2) ∧
      ∀ x ∈ evs, off ≤ x.2 ∧ s.rows[x.2 - off]? = some x.1 := by
  have hn : 0 < s.rows.length := by
    cases hr : s.rows with
    | nil => exact absurd hr hs
    | cons _ _ => simp
  obtain ⟨ids, lx, h1, h2, h3⟩ := sliceIds_rep off hn hb
  have hcx := count_window (q := fun _ => true) (l := lx) (off := off) (n := s.rows.length) (by intro i; rw [h3])
  rw [filter_all, List.length_range'] at hcx
  have hevs : ∀ q : Nat → Bool, ∀ x ∈ (s.rows.zipIdx off).filter (fun x => q x.2), off ≤ x.2 ∧ s.rows[x.2 - off]? = some x.1 := by
    intro q x hx
    exact mem_events.1 (show x ∈ (⟨off, s.rows⟩ : Slice R).events from (List.mem_filter.1 hx).1)
  have hsz : hints.size = l.length := (bitRange_spec hh).2.1
  by_cases h0 : hints.size = 0
  · have hl : l = [] := List.eq_nil_of_length_eq_zero (by omega)
    subst hl
    refine ⟨ids, ids, _, lx, lx, h1, h2, hcx, if_pos h0, h2, rfl, ?_, ?_, hevs fun i => (([] : List Bool) == [] || ([] : List Bool)[i]? == some true)⟩
    · simp [hcx, filter_all]
    · have := events_ids s.rows off fun _ => true
      simp only [beq_self_eq_true, Bool.true_or]
      rw [this, members_rep h2, positions_window (q := fun _ => true) (l := lx) (off := off) (n := s.rows.length) (by intro i; rw [h3])]
  · have hl : (l == []) = false := by
      cases l with
      | nil => simp at hsz; omega
      | cons _ _ => rfl
    obtain ⟨sel, g1, g2⟩ := binaryAnd_rep h2 hh
    have g3 : ∀ i : Nat, (pointwise (· && ·) lx l)[i]? = some true ↔ (off ≤ i ∧ i < off + s.rows.length) ∧ (l[i]? == some true) = true := by
      intro i
      rw [pointwise_and_getElem?, h3]
      simp only [and_true, beq_iff_eq]
    have hev := events_ids s.rows off fun i => l[i]? == some true
    refine ⟨ids, sel, _, lx, _, h1, h2, hcx, by rw [restrict, if_neg h0, g1], g2, rfl, ?_, ?_, hevs fun i => (l == [] || l[i]? == some true)⟩
    · rw [count_window g3, ← hev, List.length_map]
      simp only [hl, Bool.false_or]
    · simp only [hl, Bool.false_or]
      rw [hev, members_rep g2, positions_window g3]

theorem kept_eq (s : Slice R) (off : Nat) (expr : Option (R → Bool)) (l : List Bool) :
    Spec.kept s off expr l = (((s.rows.zipIdx off).filter (fun x => l == [] || l[x.2]? == some true)).map (·.1)).filter (expr.getD fun _ => true) := by
  rw [Spec.kept, List.filter_map, List.filter_filter]
  congr 1
  apply List.filter_congr
  intro x _
  rw [Bool.and_comm]
  rfl

theorem zipIdx_fst (rows : List R) (off : Nat) : (rows.zipIdx off).map (·.1) = rows := by
  induction rows generalizing off with
  | nil => rfl
  | cons r rows ih => simp [List.zipIdx_cons, ih]

/-- A filter that keeps as many rows as there are keeps all of them. -/
theorem kept_all {s : Slice R} {off : Nat} {expr : Option (R → Bool)} {l : List Bool}
    (h : (Spec.kept s off expr l).length = s.rows.length) : Spec.kept s off expr l = s.rows := by
  have hsub : (Spec.kept s off expr l).Sublist s.rows := by
    have h1 : ((s.rows.zipIdx off).filter fun x => (l == [] || l[x.2]? == some true) && (expr.getD fun _ => true) x.1).Sublist (s.rows.zipIdx off) :=
      List.filter_sublist
    have := h1.map (·.1)
    rw [zipIdx_fst] at this
    exact this
  exact hsub.eq_of_length h

/-- **C57.** `filter` returns a slice of exactly the rows that pass, in their order, and nothing if
there are none. If all rows pass the slice itself is returned, with its IDs. -/
theorem C57_filter (s : Slice R) (hs : s.rows ≠ []) (hb : Spec.Fits s) (expr : Option (R → Bool)) (e : Expr) (hv : e.valid) :
    ∃ hints out, e.eval = some hints ∧ filter s expr hints = some out ∧
      (out.map (·.rows)).getD [] = Spec.kept s (if s.offset = invalidId then 0 else s.offset) expr e.bits ∧
      (∀ t, out = some t → t.rows ≠ []) ∧ (∀ t, out = some t → t.rows = s.rows → t = s) := by
  obtain ⟨hints, h1, h2⟩ := eval_rep hv
  have hoff : s.anchor.offset = if s.offset = invalidId then 0 else s.offset := by
    unfold Slice.anchor; split <;> rfl
  rw [← hoff]
  have hn : 0 < s.rows.length := by
    cases hr : s.rows with
    | nil => exact absurd hr hs
    | cons _ _ => simp
  obtain ⟨ids, sel, evs, lx, ls, g1, g2, g3, g4, g5, g6, g7, g8, g9⟩ := selection_spec s hs (anchor_fits hb) h2
  refine ⟨hints, ?_⟩
  have hk := kept_eq s s.anchor.offset expr e.bits
  rw [← g6] at hk
  simp only [filter, g1, g4, Option.bind_eq_bind, Option.bind_some, rankAll_rep g5, rankAll_rep g2]
  split
  · next h0 =>
    refine ⟨none, h1, rfl, ?_, by simp, by simp⟩
    rw [hk, List.eq_nil_of_length_eq_zero (by omega : evs.length = 0)]; rfl
  · next h0 =>
    split
    · next h5 =>
      refine ⟨some s, h1, rfl, ?_, by simpa using hs, by simp⟩
      have h6 : expr = none := Option.isNone_iff_eq_none.1 h5.1
      rw [hk, h6]
      simp only [Option.map_some, Option.getD_some, Option.getD_none, filter_all]
      have h7 : evs.length = s.rows.length := by rw [← g7, ← h5.2, g3]
      have h8 : evs = s.rows.zipIdx s.anchor.offset := by
        rw [g6]
        apply (List.filter_sublist).eq_of_length
        rw [← g6, h7, List.length_zipIdx]
      rw [h8, zipIdx_fst]
    · rw [g8, foldlM_filter s s.anchor.offset _ evs [] g9, List.nil_append, ← hk]
      simp only [Option.bind_some]
      split
      · next h6 =>
        refine ⟨none, h1, rfl, ?_, by simp, by simp⟩
        rw [List.eq_nil_of_length_eq_zero h6]; rfl
      · next h6 =>
        split
        · next h7 => exact ⟨some s, h1, rfl, (kept_all h7).symm, by simpa using hs, by simp⟩
        · next h7 =>
          refine ⟨_, h1, rfl, rfl, ?_, ?_⟩
          · intro t ht
            obtain rfl := Option.some.inj ht
            intro h; apply h6; simp only at h; rw [h]; rfl
          · intro t ht hr
            obtain rfl := Option.some.inj ht
            simp only at hr
            rw [hr] at h7
            exact absurd rfl h7

/-- **C57.** `count_matching` counts exactly the rows that pass. -/
theorem C57_count (s : Slice R) (hs : s.rows ≠ []) (hb : s.offset + s.rows.length < 2 ^ 64) (expr : Option (R → Bool)) (e : Expr)
    (hv : e.valid) :
    ∃ hints, e.eval = some hints ∧ countMatching s expr hints = some (Spec.kept s s.offset expr e.bits).length := by
  obtain ⟨hints, h1, h2⟩ := eval_rep hv
  refine ⟨hints, h1, ?_⟩
  obtain ⟨ids, sel, evs, lx, ls, g1, g2, g3, g4, g5, g6, g7, g8, g9⟩ := selection_spec s hs hb h2
  have hk := kept_eq s s.offset expr e.bits
  rw [← g6] at hk
  simp only [countMatching, g1, g4, Option.bind_eq_bind, Option.bind_some, rankAll_rep g5, rankAll_rep g2]
  split
  · next h0 => rw [hk, List.eq_nil_of_length_eq_zero (by omega : evs.length = 0)]; rfl
  · next h0 =>
    split
    · next h5 =>
      have h6 : expr = none := Option.isNone_iff_eq_none.1 h5.1
      rw [hk, h6]
      simp only [Option.getD_none, filter_all, List.length_map]
      rw [← g7, ← h5.2, g3]
    · rw [g8, foldlM_count s _ evs 0 g9, hk, Nat.zero_add]

/-- **C57.** `evaluate` returns the IDs of exactly the rows that pass. -/
theorem C57_evaluate (check : R → Bool) (s : Slice R) :
    ∃ bm, evaluate check s = some bm ∧
      ∀ i, bm.get? i = some true ↔ ∃ r, (r, i) ∈ Spec.events s ∧ check r = true := by
  obtain ⟨b0, h1, h2⟩ := appendBits_rep (s := {}) (l := []) (Or.inl ⟨rfl, rfl⟩) false s.offset
  have hfold : ∀ (rows : List R) (b : EwahBitmap) (l : List Bool), Represents b l →
      ∃ bm, rows.foldlM (fun bm row => EwahBitmap.appendBit bm (check row)) b = some bm ∧ Represents bm (l ++ rows.map check) := by
    intro rows
    induction rows with
    | nil => intro b l h; exact ⟨b, rfl, by simpa using h⟩
    | cons r rows ih =>
      intro b l h
      obtain ⟨b', g1, g2⟩ := appendBit_rep h (check r)
      obtain ⟨bm, g3, g4⟩ := ih b' _ g2
      exact ⟨bm, by rw [List.foldlM_cons, g1]; exact g3, by simpa using g4⟩
  obtain ⟨bm, h3, h4⟩ := hfold s.rows b0 _ h2
  refine ⟨bm, by rw [evaluate, h1]; exact h3, ?_⟩
  intro i
  obtain ⟨r1, r2, r3⟩ := bitRange_spec h4
  rw [EwahBitmap.get?, getGo_spec _ _ _ (Nat.zero_le _), r1, Nat.sub_zero, List.nil_append, List.getElem?_append]
  have hm : ∀ r, (r, i) ∈ Spec.events s ↔ s.offset ≤ i ∧ s.rows[i - s.offset]? = some r := by
    intro r; exact mem_events (s := s) (x := (r, i))
  simp only [hm, List.length_replicate]
  split
  · next hlt =>
    rw [List.getElem?_replicate, if_pos hlt]
    constructor
    · intro h; simp at h
    · rintro ⟨r, ⟨h5, _⟩, _⟩; omega
  · next hlt =>
    rw [List.getElem?_map, Option.map_eq_some_iff]
    constructor
    · rintro ⟨r, h5, h6⟩; exact ⟨r, ⟨by omega, h5⟩, h6⟩
    · rintro ⟨r, ⟨_, h5⟩, h6⟩; exact ⟨r, h5, h6⟩

/-- Filtering by an expression and hints; the hints exclude row 5, the expression `b`. -/
example : let s : Slice Char := ⟨3, ['a', 'b', 'c', 'd']⟩
    let e := Expr.history [.bits true 5, .bit false, .bits true 100]
    e.valid ∧ Spec.Fits s ∧ Spec.kept s 3 (some (· != 'b')) e.bits = ['a', 'd']
      ∧ (do filter s (some (· != 'b')) (← e.eval)) = some (some ⟨invalidId, ['a', 'd']⟩)
      ∧ (do countMatching s (some (· != 'b')) (← e.eval)) = some 2
      ∧ (do filter s none (← (Expr.history []).eval)) = some (some s) := by
  refine ⟨by simp [Expr.valid, Op.valid], Or.inr (by decide), by decide +kernel, by decide +kernel, by decide +kernel, by decide +kernel⟩

end Verif.Slice
