import Verif.Slice.Model
import Verif.Bitmap.SearchProps

namespace Verif.Slice

open Verif.Bitmap Verif.Bitmap.Spec

variable {R : Type}

/-- The rows of a slice with their IDs. -/
def Slice.events (s : Slice R) : List (R × Nat) := s.rows.zipIdx s.offset

/-! ## Bitmaps -/

theorem rankAll_rep {bm : EwahBitmap} {l : List Bool} (h : Represents bm l) : rankAll true bm = l.count true := by
  obtain ⟨r1, r2, r3⟩ := bitRange_spec h
  have hsz : bm.size = l.length := r2
  rw [rankAll]
  split
  · next h0 =>
    have : l = [] := List.eq_nil_of_length_eq_zero (by omega)
    simp [this]
  · next h0 =>
    rw [rank, rankGo_spec true _ r3 _ 0 0 (Nat.zero_le _) (by rw [r1]; omega), r1]
    simp only [Nat.zero_add, Nat.sub_zero]
    rw [List.take_of_length_le (by omega)]

theorem members_rep {bm : EwahBitmap} {l : List Bool} (h : Represents bm l) : members bm = positions true l := by
  obtain ⟨r1, r2, r3⟩ := bitRange_spec h
  have hs := selectRange_at true r3
  have hsz : bm.size = l.length := r2
  rw [r1] at hs
  rw [members, enumerate_spec _ 0 _ hs (by omega), posFrom_zero]

theorem pointwise_and_getElem? (a b : List Bool) (id : Nat) :
    (pointwise (· && ·) a b)[id]? = some true ↔ a[id]? = some true ∧ b[id]? = some true := by
  rw [pointwise, List.getElem?_map]
  by_cases h : id < max a.length b.length
  · rw [List.getElem?_range h]
    simp only [Option.map_some, Option.some.injEq, Bool.and_eq_true, List.getD]
    cases h1 : a[id]? <;> cases h2 : b[id]? <;> simp
  · rw [List.getElem?_eq_none (by simpa using h)]
    simp [List.getElem?_eq_none (l := a) (i := id) (by omega)]

theorem filter_all {α : Type} (l : List α) : l.filter (fun _ => true) = l := by simp

/-- Positions inside a window. -/
theorem positions_window {l : List Bool} {off n : Nat} {q : Nat → Bool}
    (h : ∀ i : Nat, l[i]? = some true ↔ (off ≤ i ∧ i < off + n) ∧ q i = true) :
    positions true l = (List.range' off n).filter q := by
  have h1 : positions true l = (List.range (l.length + (off + n))).filter fun i => l[i]? == some true := by
    rw [positions, List.range_add, List.filter_append]
    have : List.filter (fun i => l[i]? == some true) (List.map (fun x => l.length + x) (List.range (off + n))) = [] := by
      rw [List.filter_eq_nil_iff]
      intro a ha
      obtain ⟨b, _, rfl⟩ := List.mem_map.1 ha
      simp
    rw [this, List.append_nil]
  have h2 : List.range (l.length + (off + n)) = List.range' 0 off ++ (List.range' off n ++ List.range' (off + n) l.length) := by
    have ha := List.range'_append_1 (s := off) (m := n) (n := l.length)
    have hb := List.range'_append_1 (s := 0) (m := off) (n := n + l.length)
    rw [Nat.zero_add] at hb
    rw [ha, hb, List.range_eq_range']
    congr 1; omega
  rw [h1, h2, List.filter_append, List.filter_append]
  have e1 : (List.range' 0 off).filter (fun i => l[i]? == some true) = [] := by
    rw [List.filter_eq_nil_iff]
    intro a ha hc
    rw [List.mem_range'_1] at ha
    have := (h a).1 (by simpa using hc)
    omega
  have e2 : (List.range' (off + n) l.length).filter (fun i => l[i]? == some true) = [] := by
    rw [List.filter_eq_nil_iff]
    intro a ha hc
    rw [List.mem_range'_1] at ha
    have := (h a).1 (by simpa using hc)
    omega
  have e3 : (List.range' off n).filter (fun i => l[i]? == some true) = (List.range' off n).filter q := by
    apply List.filter_congr
    intro a ha
    rw [List.mem_range'_1] at ha
    rw [Bool.eq_iff_iff]
    simp only [beq_iff_eq, h]
    exact ⟨fun x => x.2, fun x => ⟨⟨ha.1, ha.2⟩, x⟩⟩
  rw [e1, e2, e3, List.nil_append, List.append_nil]

/-- The number of ones of a window. -/
theorem count_window {l : List Bool} {off n : Nat} {q : Nat → Bool}
    (h : ∀ i : Nat, l[i]? = some true ↔ (off ≤ i ∧ i < off + n) ∧ q i = true) :
    l.count true = ((List.range' off n).filter q).length := by
  rw [← positions_window h, positions]
  clear h
  induction l with
  | nil => rfl
  | cons b l ih =>
    rw [List.length_cons, List.range_succ_eq_map, List.filter_cons, List.filter_map, List.count_cons, ih]
    have : ((fun i => (b :: l)[i]? == some true) ∘ Nat.succ) = fun i => l[i]? == some true := by
      funext i; simp
    rw [this]
    cases b <;> simp

theorem add64_eq {a b : Nat} (h : a + b < 2 ^ 64) : add64 a b = a + b := Nat.mod_eq_of_lt h

theorem sliceIds_rep (off : Nat) {n : Nat} (hn : 0 < n) (hb : off + n < 2 ^ 64) :
    ∃ bm l, sliceIds off n = some bm ∧ Represents bm l ∧ ∀ i : Nat, l[i]? = some true ↔ (off ≤ i ∧ i < off + n) ∧ true = true := by
  obtain ⟨bm, l, h1, h2, h3⟩ := makeIds_rep [(off, off + n)] (by simp; omega) 0 false
  refine ⟨bm, l, by rw [sliceIds, add64_eq hb, h1], h2, ?_⟩
  intro i
  rw [h3]
  simp

theorem range_rep {a b : Nat} (hab : a < b) :
    ∃ bm l, makeIds [(a, b)] = some bm ∧ Represents bm l ∧ ∀ i : Nat, l[i]? = some true ↔ a ≤ i ∧ i < b := by
  obtain ⟨bm, l, h1, h2, h3⟩ := makeIds_rep [(a, b)] (by simp; omega) 0 false
  exact ⟨bm, l, h1, h2, fun i => by rw [h3]; simp⟩

/-! ## Events -/

theorem events_ids (rows : List R) (off : Nat) (q : Nat → Bool) :
    ((rows.zipIdx off).filter fun x => q x.2).map (·.2) = (List.range' off rows.length).filter q := by
  induction rows generalizing off with
  | nil => rfl
  | cons r rows ih =>
    rw [List.zipIdx_cons, List.length_cons, List.range'_succ, List.filter_cons, List.filter_cons]
    cases hq : q off
    · simpa [hq] using ih (off + 1)
    · simpa [hq] using ih (off + 1)

theorem mem_events {s : Slice R} {x : R × Nat} : x ∈ s.events ↔ s.offset ≤ x.2 ∧ s.rows[x.2 - s.offset]? = some x.1 := by
  obtain ⟨r, i⟩ := x
  rw [Slice.events, List.mk_mem_zipIdx_iff_le_and_getElem?_sub]

theorem window_filter_length (off n : Nat) (q : Nat → Bool) :
    ((List.range' off n).filter q).length = n ↔ ∀ i, off ≤ i → i < off + n → q i = true := by
  constructor
  · intro h i h1 h2
    have := List.length_filter_eq_length_iff.1 (show ((List.range' off n).filter q).length = (List.range' off n).length by rw [h]; simp)
    exact this i (List.mem_range'_1.2 ⟨h1, h2⟩)
  · intro h
    rw [List.length_filter_eq_length_iff.2, List.length_range']
    intro a ha
    rw [List.mem_range'_1] at ha
    exact h a ha.1 ha.2

/-! ## The loop of `select` -/

/-- The events collected so far. -/
def SelState.flat (st : SelState R) : List (R × Nat) :=
  st.result.flatMap Slice.events ++ st.builder.zipIdx st.lastOffset

theorem pushed_flat (st : SelState R) : st.pushed.flatMap Slice.events = st.flat := by
  unfold SelState.pushed SelState.flat
  split
  · next h =>
    have : st.builder = [] := List.eq_nil_of_length_eq_zero h
    rw [this]; simp
  · simp [Slice.events]

theorem foldlM_select (s : Slice R) : ∀ (evs : List (R × Nat)) (st : SelState R), (∀ x ∈ evs, x ∈ s.events) →
    st.expected = st.lastOffset + st.builder.length → (∀ y ∈ st.result, y.rows ≠ []) →
    ∃ st', (evs.map (·.2)).foldlM (selectStep s) st = some st' ∧ st'.flat = st.flat ++ evs ∧
      st'.expected = st'.lastOffset + st'.builder.length ∧ (∀ y ∈ st'.result, y.rows ≠ []) := by
  intro evs
  induction evs with
  | nil =>
    intro st _ h1 h2
    exact ⟨st, rfl, by simp, h1, h2⟩
  | cons x evs ih =>
    intro st hm h1 h2
    obtain ⟨hle, hget⟩ := mem_events.1 (hm x List.mem_cons_self)
    have hstep : selectStep s st x.2 = some (if st.expected ≠ x.2 then ⟨st.pushed, [x.1], x.2, x.2 + 1⟩
        else ⟨st.result, st.builder ++ [x.1], st.lastOffset, st.expected + 1⟩) := by
      rw [selectStep, if_neg (by omega), hget]
      simp only
      split <;> rfl
    rw [List.map_cons, List.foldlM_cons, hstep]
    simp only [Option.bind_eq_bind, Option.bind_some]
    by_cases he : st.expected = x.2
    · rw [if_neg (by simpa using he)]
      obtain ⟨st', g1, g2, g3, g4⟩ := ih ⟨st.result, st.builder ++ [x.1], st.lastOffset, st.expected + 1⟩
        (fun y hy => hm y (List.mem_cons_of_mem _ hy)) (by simp only [List.length_append, List.length_singleton]; omega) h2
      refine ⟨st', g1, ?_, g3, g4⟩
      rw [g2]
      simp only [SelState.flat, List.zipIdx_append, List.append_assoc, List.zipIdx_singleton]
      rw [← h1, he]
      rfl
    · rw [if_pos he]
      obtain ⟨st', g1, g2, g3, g4⟩ := ih ⟨st.pushed, [x.1], x.2, x.2 + 1⟩
        (fun y hy => hm y (List.mem_cons_of_mem _ hy)) (by simp) (by
          intro y hy
          simp only [SelState.pushed] at hy
          split at hy
          · exact h2 y hy
          · next hb =>
            rcases List.mem_append.1 hy with hy | hy
            · exact h2 y hy
            · rw [List.mem_singleton.1 hy]
              intro hnil
              apply hb
              simp only at hnil
              rw [hnil]; rfl)
      refine ⟨st', g1, ?_, g3, g4⟩
      rw [g2]
      simp only [SelState.flat, pushed_flat, List.zipIdx_singleton, List.append_assoc]
      rfl

theorem selectLoop_spec (s : Slice R) (evs : List (R × Nat)) (h : ∀ x ∈ evs, x ∈ s.events) :
    ∃ out, selectLoop s (evs.map (·.2)) = some out ∧ out.flatMap Slice.events = evs ∧ ∀ y ∈ out, y.rows ≠ [] := by
  obtain ⟨st', h1, h2, h3, h4⟩ := foldlM_select s evs ⟨[], [], s.offset, s.offset⟩ h (by simp) (by simp)
  refine ⟨st'.pushed, by rw [selectLoop, h1]; rfl, by rw [pushed_flat, h2]; simp [SelState.flat], ?_⟩
  intro y hy
  simp only [SelState.pushed] at hy
  split at hy
  · exact h4 y hy
  · next hb =>
    rcases List.mem_append.1 hy with hy | hy
    · exact h4 y hy
    · rw [List.mem_singleton.1 hy]
      intro hnil
      apply hb
      simp only at hnil
      rw [hnil]; rfl

/-- Consecutive IDs go to one slice. -/
theorem foldlM_consecutive (s : Slice R) : ∀ (k : Nat) (st : SelState R), s.offset ≤ st.expected →
    st.expected + k ≤ s.offset + s.rows.length →
    (List.range' st.expected k).foldlM (selectStep s) st
      = some ⟨st.result, st.builder ++ (s.rows.drop (st.expected - s.offset)).take k, st.lastOffset, st.expected + k⟩ := by
  intro k
  induction k with
  | zero => intro st _ _; simp
  | succ k ih =>
    intro st h1 h2
    have hlt : st.expected - s.offset < s.rows.length := by omega
    rw [List.range'_succ, List.foldlM_cons, selectStep, if_neg (by omega), List.getElem?_eq_getElem hlt]
    simp only [ne_eq, not_true, if_false, Option.bind_eq_bind, Option.bind_some]
    rw [ih ⟨st.result, st.builder ++ [s.rows[st.expected - s.offset]], st.lastOffset, st.expected + 1⟩ (by simp only; omega) (by simp only; omega)]
    simp only
    congr 2
    · rw [List.append_assoc, List.drop_eq_getElem_cons hlt, List.take_succ_cons, List.singleton_append]
      congr 4
      omega
    · omega

theorem selectLoop_consecutive (s : Slice R) {a k : Nat} (hk : 0 < k) (h1 : s.offset ≤ a) (h2 : a + k ≤ s.offset + s.rows.length) :
    selectLoop s (List.range' a k) = some [⟨a, (s.rows.drop (a - s.offset)).take k⟩] := by
  have hne : ((s.rows.drop (a - s.offset)).take k).length ≠ 0 := by
    rw [List.length_take, List.length_drop]; omega
  by_cases ha : a = s.offset
  · subst ha
    rw [selectLoop, foldlM_consecutive s k ⟨[], [], s.offset, s.offset⟩ (Nat.le_refl _) h2]
    simp only [List.nil_append, Option.map_some, SelState.pushed]
    rw [if_neg hne]
  · obtain ⟨k, rfl⟩ : ∃ j, k = j + 1 := ⟨k - 1, by omega⟩
    have hlt : a - s.offset < s.rows.length := by omega
    rw [selectLoop, List.range'_succ, List.foldlM_cons, selectStep, if_neg (by omega), List.getElem?_eq_getElem hlt]
    simp only
    rw [if_pos (show s.offset ≠ a from fun h => ha h.symm)]
    simp only [Option.bind_eq_bind, Option.bind_some]
    rw [foldlM_consecutive s k ⟨SelState.pushed ⟨[], [], s.offset, s.offset⟩, [s.rows[a - s.offset]], a, a + 1⟩
      (by simp only; omega) (by simp only; omega)]
    have hrw : [s.rows[a - s.offset]] ++ (s.rows.drop (a + 1 - s.offset)).take k = (s.rows.drop (a - s.offset)).take (k + 1) := by
      rw [List.drop_eq_getElem_cons hlt, List.take_succ_cons, List.singleton_append]
      congr 3
      omega
    simp only [Option.map_some, SelState.pushed, List.length_nil, if_true]
    rw [hrw, if_neg hne]
    rfl

/-! ## `select` -/

theorem select_spec (s : Slice R) (hs : s.rows ≠ []) (hb : s.offset + s.rows.length < 2 ^ 64) {selection : EwahBitmap} {l : List Bool} (hsel : Represents selection l) :
    ∃ out, select s selection = some out ∧
      out.flatMap Slice.events = s.events.filter (fun x => l[x.2]? == some true) ∧ ∀ y ∈ out, y.rows ≠ [] := by
  have hn : 0 < s.rows.length := by
    cases hr : s.rows with
    | nil => exact absurd hr hs
    | cons _ _ => simp
  obtain ⟨bm, lx, h1, h2, h3⟩ := sliceIds_rep s.offset hn hb
  obtain ⟨bi, h4, h5⟩ := binaryAnd_rep hsel h2
  have h6 : ∀ i : Nat, (pointwise (· && ·) l lx)[i]? = some true ↔
      (s.offset ≤ i ∧ i < s.offset + s.rows.length) ∧ (l[i]? == some true) = true := by
    intro i
    rw [pointwise_and_getElem?, h3]
    simp only [and_true, beq_iff_eq]
    exact ⟨fun x => ⟨x.2, x.1⟩, fun x => ⟨x.2, x.1⟩⟩
  have hc := count_window h6
  have hcx := count_window (q := fun _ => true) (l := lx) (off := s.offset) (n := s.rows.length) (by intro i; rw [h3])
  have hev : (s.events.filter fun x => l[x.2]? == some true).map (·.2) = (List.range' s.offset s.rows.length).filter fun i => l[i]? == some true :=
    events_ids s.rows s.offset fun i => l[i]? == some true
  simp only [select, h1, h4, Option.bind_eq_bind, Option.bind_some, rankAll_rep h5, rankAll_rep h2]
  split
  · next h0 =>
    refine ⟨[], rfl, ?_, by simp⟩
    rw [hc, ← hev, List.length_map] at h0
    rw [List.eq_nil_of_length_eq_zero h0]; rfl
  · next h0 =>
    split
    · next h7 =>
      refine ⟨[s], rfl, ?_, by simpa using hs⟩
      rw [hcx, hc, filter_all, List.length_range'] at h7
      have hall := (window_filter_length _ _ _).1 h7.symm
      rw [List.filter_eq_self.2]
      · simp
      · rintro ⟨r, i⟩ hx
        obtain ⟨h8, h9⟩ := mem_events.1 hx
        have := (List.getElem?_eq_some_iff.1 h9).1
        exact hall i h8 (by simp only at h8 this ⊢; omega)
    · rw [members_rep h5, positions_window h6, ← hev]
      exact selectLoop_spec s _ (fun x hx => (List.mem_filter.1 hx).1)

/-- Selecting a proper, non-empty range of rows. -/
theorem select_range (s : Slice R) {a b : Nat} (hab : a < b) (h1 : s.offset ≤ a) (h2 : b ≤ s.offset + s.rows.length)
    (hp : b - a < s.rows.length) (hb : s.offset + s.rows.length < 2 ^ 64) :
    ∃ bm, makeIds [(a, b)] = some bm ∧ select s bm = some [⟨a, (s.rows.drop (a - s.offset)).take (b - a)⟩] := by
  obtain ⟨bm, l, g1, g2, g3⟩ := range_rep hab
  refine ⟨bm, g1, ?_⟩
  obtain ⟨bx, lx, e1, e2, e3⟩ := sliceIds_rep s.offset (show 0 < s.rows.length by omega) hb
  obtain ⟨bi, e4, e5⟩ := binaryAnd_rep g2 e2
  have h6 : ∀ i : Nat, (pointwise (· && ·) l lx)[i]? = some true ↔ (a ≤ i ∧ i < a + (b - a)) ∧ (fun _ => true) i = true := by
    intro i
    rw [pointwise_and_getElem?, e3, g3]
    simp only [and_true]
    omega
  have hc := count_window h6
  have hcx := count_window (q := fun _ => true) (l := lx) (off := s.offset) (n := s.rows.length) (by intro i; rw [e3])
  rw [filter_all, List.length_range'] at hc hcx
  simp only [select, e1, e4, Option.bind_eq_bind, Option.bind_some, rankAll_rep e5, rankAll_rep e2]
  rw [hc, hcx, if_neg (by omega), if_neg (by omega), members_rep e5, positions_window h6, filter_all]
  exact selectLoop_consecutive s (by omega) h1 (by omega)

/-! ## `filter` and `count_matching` -/

theorem foldlM_filter (s : Slice R) (off : Nat) (check : R → Bool) : ∀ (evs : List (R × Nat)) (builder : List R),
    (∀ x ∈ evs, off ≤ x.2 ∧ s.rows[x.2 - off]? = some x.1) →
    (evs.map (·.2)).foldlM (filterStep s off check) builder = some (builder ++ (evs.map (·.1)).filter check) := by
  intro evs
  induction evs with
  | nil => intro builder _; simp
  | cons x evs ih =>
    intro builder hm
    obtain ⟨h1, h2⟩ := hm x List.mem_cons_self
    have ih' := fun b => ih b (fun y hy => hm y (List.mem_cons_of_mem _ hy))
    rw [List.map_cons, List.foldlM_cons, filterStep, if_neg (by omega), h2]
    simp only
    split
    · next hc =>
      simp only [Option.bind_eq_bind, Option.bind_some]
      rw [ih', List.map_cons, List.filter_cons, if_pos hc]
      simp
    · next hc =>
      simp only [Option.bind_eq_bind, Option.bind_some]
      rw [ih', List.map_cons, List.filter_cons, if_neg hc]

theorem foldlM_count (s : Slice R) (check : R → Bool) : ∀ (evs : List (R × Nat)) (cnt : Nat),
    (∀ x ∈ evs, s.offset ≤ x.2 ∧ s.rows[x.2 - s.offset]? = some x.1) →
    (evs.map (·.2)).foldlM (countStep s check) cnt = some (cnt + ((evs.map (·.1)).filter check).length) := by
  intro evs
  induction evs with
  | nil => intro cnt _; simp
  | cons x evs ih =>
    intro cnt hm
    obtain ⟨h1, h2⟩ := hm x List.mem_cons_self
    have ih' := fun b => ih b (fun y hy => hm y (List.mem_cons_of_mem _ hy))
    rw [List.map_cons, List.foldlM_cons, countStep, if_neg (by omega), h2]
    simp only [Option.bind_eq_bind, Option.bind_some]
    rw [ih', List.map_cons, List.filter_cons]
    split
    · simp only [List.length_cons]; congr 1; omega
    · congr 1

end Verif.Slice
