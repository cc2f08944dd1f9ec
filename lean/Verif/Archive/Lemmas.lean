import Verif.Archive.Model
import Verif.Slice.Lemmas

/-! # Lemmas on the slices of a segment -/

namespace Verif.Archive

open Verif.Bitmap Verif.Bitmap.Spec Verif.Slice

variable {R : Type}

/-- The events of some slices. -/
def allEvents (slices : List (Slice R)) : List (R × Nat) := slices.flatMap Slice.events

/-- Non-empty slices, in the order of their IDs. -/
structure Good (slices : List (Slice R)) : Prop where
  ne : ∀ s ∈ slices, s.rows ≠ []
  bound : ∀ s ∈ slices, s.offset + s.rows.length < 2 ^ 64
  asc : (allEvents slices).Pairwise fun x y => x.2 < y.2

theorem allEvents_append (a b : List (Slice R)) : allEvents (a ++ b) = allEvents a ++ allEvents b := by
  simp [allEvents]

theorem allEvents_cons (s : Slice R) (b : List (Slice R)) : allEvents (s :: b) = s.events ++ allEvents b := by
  simp [allEvents]

theorem rows_pos {s : Slice R} (h : s.rows ≠ []) : 0 < s.rows.length := List.length_pos_iff.2 h

theorem first_event {s : Slice R} (h : s.rows ≠ []) : ∃ e ∈ s.events, e.2 = s.offset := by
  refine ⟨(s.rows[0]'(rows_pos h), s.offset), mem_events.2 ⟨Nat.le_refl _, ?_⟩, rfl⟩
  simp

theorem event_at {s : Slice R} {i : Nat} (h1 : s.offset ≤ i) (h2 : i < s.offset + s.rows.length) : ∃ e ∈ s.events, e.2 = i := by
  refine ⟨(s.rows[i - s.offset]'(by omega), i), mem_events.2 ⟨h1, ?_⟩, rfl⟩
  simp

theorem event_bounds {s : Slice R} {e : R × Nat} (h : e ∈ s.events) : s.offset ≤ e.2 ∧ e.2 < s.offset + s.rows.length := by
  obtain ⟨h1, h2⟩ := mem_events.1 h
  have := (List.getElem?_eq_some_iff.1 h2).1
  omega

theorem mem_allEvents {slices : List (Slice R)} {e : R × Nat} : e ∈ allEvents slices ↔ ∃ s ∈ slices, e ∈ s.events := by
  simp [allEvents]

theorem good_append {a b : List (Slice R)} :
    Good (a ++ b) ↔ Good a ∧ Good b ∧ ∀ x ∈ allEvents a, ∀ y ∈ allEvents b, x.2 < y.2 := by
  constructor
  · intro h
    have := h.asc
    rw [allEvents_append, List.pairwise_append] at this
    exact ⟨⟨fun s hs => h.ne s (by simp [hs]), fun s hs => h.bound s (by simp [hs]), this.1⟩,
      ⟨fun s hs => h.ne s (by simp [hs]), fun s hs => h.bound s (by simp [hs]), this.2.1⟩, this.2.2⟩
  · rintro ⟨h1, h2, h3⟩
    refine ⟨?_, ?_, ?_⟩
    · intro s hs
      rcases List.mem_append.1 hs with hs | hs
      · exact h1.ne s hs
      · exact h2.ne s hs
    · intro s hs
      rcases List.mem_append.1 hs with hs | hs
      · exact h1.bound s hs
      · exact h2.bound s hs
    · rw [allEvents_append, List.pairwise_append]
      exact ⟨h1.asc, h2.asc, h3⟩

theorem good_nil : Good ([] : List (Slice R)) := ⟨by simp, by simp, by simp [allEvents]⟩

theorem events_asc (s : Slice R) : s.events.Pairwise fun x y => x.2 < y.2 := by
  have : (s.events.map (·.2)).Pairwise (· < ·) := by
    have := events_ids s.rows s.offset fun _ => true
    rw [filter_all, filter_all] at this
    rw [Slice.events, this]
    exact List.pairwise_lt_range'
  exact List.pairwise_map.1 this

theorem good_singleton {s : Slice R} (h1 : s.rows ≠ []) (h2 : s.offset + s.rows.length < 2 ^ 64) : Good [s] :=
  ⟨by simpa using h1, by simpa using h2, by simpa [allEvents] using events_asc s⟩

theorem good_cons {s : Slice R} {b : List (Slice R)} (h : Good (s :: b)) : Good b :=
  (good_append (a := [s]).1 h).2.1

theorem interval_eq {s : Slice R} (h : s.offset + s.rows.length < 2 ^ 64) : interval s = (s.offset, s.offset + s.rows.length) := by
  rw [interval, add64_eq h]

theorem good_ascending {slices : List (Slice R)} (h : Good slices) : Ascending (slices.map interval) := by
  induction slices with
  | nil => trivial
  | cons s slices ih =>
    have hb := interval_eq (h.bound s (by simp))
    cases slices with
    | nil => simp [Ascending, hb]
    | cons t ts =>
      have ih' := ih (good_cons h)
      have hb' := interval_eq (h.bound t (by simp))
      simp only [List.map_cons, Ascending, hb, hb'] at ih' ⊢
      refine ⟨by omega, ?_, ih'⟩
      have hs := rows_pos (h.ne s (by simp))
      obtain ⟨x, hx1, hx2⟩ := event_at (s := s) (i := s.offset + s.rows.length - 1) (by omega) (by omega)
      obtain ⟨y, hy1, hy2⟩ := first_event (h.ne t (by simp))
      have := (good_append (a := [s]).1 h).2.2 x (by simpa [allEvents] using hx1) y (mem_allEvents.2 ⟨t, by simp, hy1⟩)
      omega

/-- Some event has a selected ID. -/
def hits (l : List Bool) (evs : List (R × Nat)) : Bool := evs.any fun e => l[e.2]? == some true

theorem hits_iff {l : List Bool} {evs : List (R × Nat)} : hits l evs = true ↔ ∃ e ∈ evs, l[e.2]? = some true := by
  simp [hits]

theorem hit_interval {s : Slice R} (h : s.offset + s.rows.length < 2 ^ 64) (l : List Bool) :
    hit l (interval s) = hits l s.events := by
  rw [Bool.eq_iff_iff, hit_iff, hits_iff, interval_eq h]
  constructor
  · rintro ⟨i, h1, h2, h3⟩
    obtain ⟨e, he, rfl⟩ := event_at h1 h2
    exact ⟨e, he, h3⟩
  · rintro ⟨e, he, h3⟩
    exact ⟨e.2, (event_bounds he).1, (event_bounds he).2, h3⟩

theorem lookupSlices_spec {slices : List (Slice R)} (h : Good slices) {xs : EwahBitmap} {l : List Bool} (hx : Represents xs l) :
    lookupSlices xs slices = some (slices.filter fun s => hits l s.events) := by
  rw [lookupSlices, selectWith_rep interval hx (good_ascending h), untilFailure_none]
  simp only [Option.map_some, Option.some.injEq]
  apply List.filter_congr
  intro s hs
  exact hit_interval (h.bound s hs) l

theorem idsOf_spec : ∀ (slices : List (Slice R)) (bm : EwahBitmap) (l : List Bool), Represents bm l → Good slices →
    (∀ e ∈ allEvents slices, l.length ≤ e.2) →
    ∃ bm' l', slices.foldlM idsStep bm = some bm' ∧ Represents bm' l' ∧ l.length + slices.length ≤ l'.length ∧
      ∀ i : Nat, l'[i]? = some true ↔ l[i]? = some true ∨ ∃ e ∈ allEvents slices, e.2 = i := by
  intro slices
  induction slices with
  | nil =>
    intro bm l hb _ _
    exact ⟨bm, l, rfl, hb, by simp, by simp [allEvents]⟩
  | cons s slices ih =>
    intro bm l hb h hl
    have hsz : bm.size = l.length := (bitRange_spec hb).2.1
    have hr := rows_pos (h.ne s (by simp))
    obtain ⟨x, hx1, hx2⟩ := first_event (h.ne s (by simp))
    have h0 : l.length ≤ s.offset := by rw [← hx2]; exact hl x (mem_allEvents.2 ⟨s, by simp, hx1⟩)
    obtain ⟨b1, g1, g2⟩ := appendBits_rep hb false (s.offset - bm.size)
    obtain ⟨b2, g3, g4⟩ := appendBits_rep g2 true s.rows.length
    have hlen : (l ++ List.replicate (s.offset - bm.size) false ++ List.replicate s.rows.length true).length = s.offset + s.rows.length := by
      simp; omega
    have hstep : idsStep bm s = some b2 := by
      rw [idsStep, if_neg (by omega), g1, Option.bind_some, g3]
    obtain ⟨bm', l', g5, g6, g7, g8⟩ := ih b2 _ g4 (good_cons h) (by
      intro e he
      rw [hlen]
      obtain ⟨y, hy1, hy2⟩ := event_at (s := s) (i := s.offset + s.rows.length - 1) (by omega) (by omega)
      have := (good_append (a := [s]).1 h).2.2 y (by simpa [allEvents] using hy1) e he
      omega)
    refine ⟨bm', l', ?_, g6, ?_, ?_⟩
    · rw [List.foldlM_cons, hstep]; exact g5
    · rw [hlen] at g7; simp only [List.length_cons]; omega
    · intro i
      rw [g8, allEvents_cons]
      simp only [List.mem_append]
      have h1 : (l ++ List.replicate (s.offset - bm.size) false ++ List.replicate s.rows.length true)[i]? = some true ↔
          l[i]? = some true ∨ (s.offset ≤ i ∧ i < s.offset + s.rows.length) := by
        rw [hsz, List.append_assoc, List.getElem?_append]
        split
        · next hlt => simp; intro h; omega
        · next hge =>
          rw [List.getElem?_append, List.length_replicate]
          split
          · next h2 =>
            rw [List.getElem?_replicate]
            simp only [List.getElem?_eq_none (l := l) (i := i) (by omega)]
            simp; omega
          · next h2 =>
            rw [List.getElem?_replicate]
            simp only [List.getElem?_eq_none (l := l) (i := i) (by omega)]
            simp; omega
      rw [h1]
      constructor
      · rintro ((h | ⟨h, h'⟩) | ⟨e, he, rfl⟩)
        · exact Or.inl h
        · obtain ⟨e, he, rfl⟩ := event_at h h'
          exact Or.inr ⟨e, Or.inl he, rfl⟩
        · exact Or.inr ⟨e, Or.inr he, rfl⟩
      · rintro (h | ⟨e, he | he, rfl⟩)
        · exact Or.inl (Or.inl h)
        · exact Or.inl (Or.inr (event_bounds he))
        · exact Or.inr ⟨e, he, rfl⟩

theorem rowCount_eq (slices : List (Slice R)) : rowCount slices = (allEvents slices).length := by
  induction slices with
  | nil => rfl
  | cons s slices ih =>
    rw [allEvents_cons, List.length_append, ← ih]
    simp [rowCount, Slice.events]

/-- Slices whose events are among those of good slices, in order, are good. -/
theorem good_of_sublist {slices new : List (Slice R)} (h : Good slices) (hn : ∀ s ∈ new, s.rows ≠ [])
    (hs : (allEvents new).Sublist (allEvents slices)) : Good new := by
  refine ⟨hn, ?_, h.asc.sublist hs⟩
  intro s hs'
  have hr := rows_pos (hn s hs')
  obtain ⟨y, hy1, hy2⟩ := event_at (s := s) (i := s.offset + s.rows.length - 1) (by omega) (by omega)
  obtain ⟨t, ht1, ht2⟩ := mem_allEvents.1 (hs.subset (mem_allEvents.2 ⟨s, hs', hy1⟩))
  have := (event_bounds ht2).2
  have := h.bound t ht1
  omega

theorem expand_spec {mask : EwahBitmap} {l : List Bool} (h : Represents mask l) (n : Nat) :
    ∃ m' l', expand mask n = some m' ∧ Represents m' l' ∧ n ≤ l'.length ∧ l.length ≤ l'.length ∧
      ∀ i : Nat, i < l'.length → l'[i]? = some (l.getD i true) := by
  have hsz : mask.size = l.length := (bitRange_spec h).2.1
  rw [expand]
  split
  · next hlt =>
    obtain ⟨m', g1, g2⟩ := appendBits_rep h true (n - mask.size)
    refine ⟨m', _, g1, g2, by simp; omega, by simp, ?_⟩
    intro i hi
    rw [List.getElem?_append]
    split
    · next hl => simp [List.getD, List.getElem?_eq_getElem hl]
    · next hl =>
      rw [List.getElem?_replicate, if_pos (by simp at hi; omega)]
      simp [List.getD, List.getElem?_eq_none (l := l) (i := i) (by omega)]
  · next hge =>
    refine ⟨mask, l, rfl, h, by omega, by omega, ?_⟩
    intro i hi
    simp [List.getD, List.getElem?_eq_getElem hi]

theorem keep_fold (l0 : List Bool) : ∀ (all : List (Slice R)) (mask : EwahBitmap) (lm : List Bool) (acc : List (Slice R)), Good all →
    Represents mask lm → (∀ i : Nat, lm.getD i true = !(l0.getD i false)) → (∀ s ∈ acc, s.rows ≠ []) →
    ∃ mask' new, all.foldlM keepStep (mask, acc) = some (mask', new) ∧
      allEvents new = allEvents acc ++ (allEvents all).filter (fun e => !(l0[e.2]? == some true)) ∧ ∀ s ∈ new, s.rows ≠ [] := by
  intro all
  induction all with
  | nil =>
    intro mask lm acc _ _ _ hacc
    exact ⟨mask, acc, rfl, by simp [allEvents], hacc⟩
  | cons s all ih =>
    intro mask lm acc h hm hlm hacc
    have hb := h.bound s (by simp)
    obtain ⟨m', lm', g1, g2, g3, g4, g5⟩ := expand_spec hm (add64 s.offset s.rows.length)
    rw [add64_eq hb] at g3
    obtain ⟨out, g6, g7, g8⟩ := select_spec s (h.ne s (by simp)) hb g2
    have hlm' : ∀ i : Nat, lm'.getD i true = !(l0.getD i false) := by
      intro i
      by_cases hi : i < lm'.length
      · have := g5 i hi
        simp only [List.getD, this, Option.getD_some]
        exact hlm i
      · have h1 := hlm i
        simp only [List.getD, List.getElem?_eq_none (l := lm) (i := i) (by omega)] at h1
        simp only [List.getD, List.getElem?_eq_none (l := lm') (i := i) (by omega)]
        exact h1
    obtain ⟨mask', new, k1, k2, k3⟩ := ih m' lm' (acc ++ out) (good_cons h) g2 hlm' (by
      intro t ht
      rcases List.mem_append.1 ht with ht | ht
      · exact hacc t ht
      · exact g8 t ht)
    refine ⟨mask', new, ?_, ?_, k3⟩
    · rw [List.foldlM_cons]
      simp only [keepStep, g1, g6, Option.bind_eq_bind, Option.bind_some]
      exact k1
    · rw [k2, allEvents_append, allEvents_cons, List.filter_append, List.append_assoc]
      congr 1
      congr 1
      rw [show allEvents out = out.flatMap Slice.events from rfl, g7]
      apply List.filter_congr
      intro e he
      have h1 := event_bounds he
      have h2 := hlm' e.2
      have h3 := List.getElem?_eq_getElem (l := lm') (i := e.2) (by omega)
      simp only [List.getD, h3, Option.getD_some] at h2
      rw [h3, h2]
      cases hl : l0[e.2]? with
      | none => simp
      | some b => cases b <;> simp

theorem isSubset_events {slices : List (Slice R)} {lx l : List Bool} (h : ∀ i : Nat, lx[i]? = some true ↔ ∃ e ∈ allEvents slices, e.2 = i) :
    (∀ i : Nat, lx[i]? = some true → l[i]? = some true) ↔ (allEvents slices).filter (fun e => !(l[e.2]? == some true)) = [] := by
  rw [List.filter_eq_nil_iff]
  constructor
  · intro h1 e he
    simp [h1 e.2 ((h e.2).2 ⟨e, he, rfl⟩)]
  · intro h1 i hi
    obtain ⟨e, he, rfl⟩ := (h i).1 hi
    simpa using h1 e he

theorem allEvents_ne_nil {slices : List (Slice R)} (h : Good slices) (hn : slices ≠ []) : allEvents slices ≠ [] := by
  cases slices with
  | nil => exact absurd rfl hn
  | cons s t =>
    obtain ⟨e, he, _⟩ := first_event (h.ne s (by simp))
    rw [allEvents_cons]
    intro h0
    simp only [List.append_eq_nil_iff] at h0
    rw [h0.1] at he
    simp at he

/-- Erasing from a segment. -/
theorem shrink_spec {slices : List (Slice R)} (h : Good slices) (hn : slices ≠ []) {xs : EwahBitmap} {l : List Bool} (hx : Represents xs l) :
    ∃ new, shrink xs slices = some (new, (allEvents slices).length - (allEvents new).length) ∧ Good new ∧
      allEvents new = (allEvents slices).filter fun e => !(l[e.2]? == some true) := by
  obtain ⟨ids, lx, g1, g2, g3, g4⟩ := idsOf_spec slices {} [] (Or.inl ⟨rfl, rfl⟩) h (by simp)
  have g4' : ∀ i : Nat, lx[i]? = some true ↔ ∃ e ∈ allEvents slices, e.2 = i := by intro i; rw [g4]; simp
  have hlx : lx ≠ [] := by
    intro h0
    rw [h0] at g3
    have := List.length_pos_iff.2 hn
    simp only [List.length_nil] at g3; omega
  obtain ⟨sub, g5, g6⟩ := isSubset_rep g2 hx (Or.inl hlx)
  rw [isSubset_events g4'] at g6
  simp only [shrink, idsOf, g1, g5, Option.bind_eq_bind, Option.bind_some]
  by_cases hs : sub = true
  · rw [if_pos hs]
    exact ⟨[], by rw [rowCount_eq]; rfl, good_nil, (g6.1 hs).symm⟩
  · rw [if_neg hs]
    have hall : lookupSlices ids slices = some slices := by
      rw [lookupSlices_spec h g2, List.filter_eq_self.2]
      intro s hs
      obtain ⟨e, he, _⟩ := first_event (h.ne s hs)
      exact hits_iff.2 ⟨e, he, (g4' e.2).2 ⟨e, mem_allEvents.2 ⟨s, hs, he⟩, rfl⟩⟩
    obtain ⟨mask, k1, k2⟩ := flip_rep hx
    obtain ⟨mask', new, k3, k4, k5⟩ := keep_fold l slices mask _ [] h k2 (by
      intro i
      simp only [List.getD, List.getElem?_map]
      cases l[i]? <;> simp) (by simp)
    have k4' : allEvents new = (allEvents slices).filter fun e => !(l[e.2]? == some true) := by
      rw [k4]; simp [allEvents]
    have hnew : new ≠ [] := by
      rintro rfl
      apply hs
      rw [g6, ← k4']; rfl
    refine ⟨new, ?_, good_of_sublist h k5 (by rw [k4']; exact List.filter_sublist), k4'⟩
    simp only [keepRest, hall, k1, k3, Option.bind_eq_bind, Option.bind_some]
    rw [if_neg hn, if_neg hnew, rowCount_eq, rowCount_eq, Nat.add_zero]

end Verif.Archive
