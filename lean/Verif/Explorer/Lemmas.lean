import Verif.Explorer.Model
import Verif.Explorer.Spec
import Verif.Slice.Props
/-!
Lemmas about forwarding.
-/
namespace Verif.Explorer
open Verif.Slice Verif.Bitmap Verif.Bitmap.Spec Verif.Explorer.Spec

variable {R : Type}

theorem rep_size {bm : EwahBitmap} {l : List Bool} (h : Represents bm l) : bm.size = l.length := (bitRange_spec h).2.1

/-- The IDs in `unseen` and in the set of returned IDs. -/
structure Unseen (offset : Nat) (ret0 : List Nat) (n : Nat) (ret : List Nat) (u : EwahBitmap) (l : List Bool) : Prop where
  rep : Represents u l
  bits : ∀ id : Nat, l[id]? = some true ↔ (offset ≤ id ∧ id < offset + n) ∧ id ∉ ret0
  ids : ∀ id, id ∈ ret ↔ id ∈ ret0 ∨ (offset ≤ id ∧ id < offset + n)
  last : l = [] ∨ l[l.length - 1]? = some true

theorem tmp_bits (id j : Nat) : (List.replicate id false ++ List.replicate 1 true)[j]? = some true ↔ j = id := by
  rw [List.getElem?_append]
  split
  · next h => simp at h; simp [List.getElem?_replicate, h]; omega
  · next h =>
    simp only [List.length_replicate, Nat.not_lt] at h ⊢
    rw [List.getElem?_replicate]
    split
    · simp; omega
    · simp; omega

theorem unseen_loop (offset : Nat) (ret0 : List Nat) : ∀ n, offset + n < 2 ^ 64 →
    ∃ ret u l, (List.range n).foldlM (unseenStep offset) (ret0, {}) = some (ret, u) ∧ Unseen offset ret0 n ret u l
  | 0, _ => ⟨ret0, {}, [], rfl, .inl ⟨rfl, rfl⟩, by intro id; simp; omega, by intro id; simp; omega, .inl rfl⟩
  | n + 1, hb => by
    obtain ⟨ret, u, l, h1, h2⟩ := unseen_loop offset ret0 n (by omega)
    have ha : add64 offset n = offset + n := Nat.mod_eq_of_lt (by omega)
    rw [List.range_succ, List.foldlM_append, h1]
    simp only [Option.bind_eq_bind, Option.bind_some, List.foldlM_cons, List.foldlM_nil, Option.pure_def, unseenStep, ha]
    by_cases hm : offset + n ∈ ret
    · rw [if_pos hm]
      have hr : offset + n ∈ ret0 := by
        rcases (h2.ids _).mp hm with h | h
        · exact h
        · omega
      refine ⟨ret, u, l, rfl, h2.rep, ?_, ?_, h2.last⟩
      · intro id
        rw [h2.bits]
        constructor
        · rintro ⟨h, h'⟩; exact ⟨by omega, h'⟩
        · rintro ⟨h, h'⟩
          refine ⟨?_, h'⟩
          by_cases e : id = offset + n
          · subst e; exact absurd hr h'
          · omega
      · intro id
        rw [h2.ids]
        constructor
        · rintro (h | h)
          · exact .inl h
          · exact .inr (by omega)
        · rintro (h | h)
          · exact .inl h
          · by_cases e : id = offset + n
            · subst e; exact .inl hr
            · exact .inr (by omega)
    · rw [if_neg hm]
      obtain ⟨t1, e1, r1⟩ := appendBits_rep (s := {}) (l := []) (.inl ⟨rfl, rfl⟩) false (offset + n)
      obtain ⟨t2, e2, r2⟩ := appendBits_rep r1 true 1
      obtain ⟨u', e3, r3⟩ := binaryOr_rep h2.rep r2
      rw [e1]
      simp only [Option.bind_some, e2, e3]
      rw [List.nil_append] at r3
      refine ⟨_, u', _, rfl, r3, ?_, ?_, .inr ?_⟩
      · intro id
        rw [pointwise_or_getElem?, tmp_bits, h2.bits]
        have hr : offset + n ∉ ret0 := fun h => hm ((h2.ids _).mpr (.inl h))
        constructor
        · rintro (⟨h, h'⟩ | rfl)
          · exact ⟨by omega, h'⟩
          · exact ⟨by omega, hr⟩
        · rintro ⟨h, h'⟩
          by_cases e : id = offset + n
          · exact .inr e
          · exact .inl ⟨by omega, h'⟩
      · intro id
        rw [List.mem_cons, h2.ids]
        constructor
        · rintro (rfl | h | h)
          · exact .inr (by omega)
          · exact .inl h
          · exact .inr (by omega)
        · rintro (h | h)
          · exact .inr (.inl h)
          · by_cases e : id = offset + n
            · exact .inl e
            · exact .inr (.inr (by omega))
      · have hl : l.length ≤ offset + n := by
          rcases h2.last with h | h
          · simp [h]
          · have := (h2.bits _).mp h; omega
        rw [pointwise_length, pointwise_or_getElem?, tmp_bits]
        right
        simp; omega

/-! ## Sending -/

theorem events_length (s : Slice R) : s.events.length = s.rows.length := by simp [Slice.events]

theorem events_take (s : Slice R) (n : Nat) : Slice.events ⟨s.offset, s.rows.take n⟩ = s.events.take n := by
  simp only [Slice.events]
  apply List.ext_getElem?
  intro i
  rw [List.getElem?_take]
  by_cases h : i < n
  · rw [if_pos h, List.getElem?_zipIdx, List.getElem?_zipIdx, List.getElem?_take, if_pos h]
  · rw [if_neg h, List.getElem?_zipIdx, List.getElem?_take, if_neg h]; rfl

theorem sendLoop_spec (total : Nat) : ∀ (ss : List (Slice R)) (n : Nat), (∀ s ∈ ss, s.offset + s.rows.length < 2 ^ 64) →
    ∃ m out, sendLoop total n ss = some (m, out) ∧ out.flatMap Slice.events = (ss.flatMap Slice.events).take (total - n)
      ∧ m = n + (out.flatMap Slice.events).length
  | [], n, _ => ⟨n, [], rfl, by simp, by simp⟩
  | s :: ss, n, h => by
    unfold sendLoop
    by_cases h1 : total ≤ n
    · refine ⟨n, [], by rw [if_pos h1], ?_, by simp⟩
      have : total - n = 0 := by omega
      simp [this]
    · rw [if_neg h1]
      by_cases h2 : n + s.rows.length ≤ total
      · obtain ⟨m, out, e1, e2, e3⟩ := sendLoop_spec total ss (n + s.rows.length) fun t ht => h t (by simp [ht])
        refine ⟨m, s :: out, by rw [if_pos h2, e1]; rfl, ?_, ?_⟩
        · rw [List.flatMap_cons, List.flatMap_cons, e2, List.take_append, events_length]
          have ht : s.events.take (total - n) = s.events := List.take_of_length_le (by rw [events_length]; omega)
          rw [ht, show total - (n + s.rows.length) = total - n - s.rows.length by omega]
        · rw [e3, List.flatMap_cons, List.length_append, events_length]; omega
      · rw [if_neg h2, C28_truncate s (.inr (h s (by simp))) (total - n) (by omega)]
        have hl : (s.rows.take (total - n)).length = total - n := by rw [List.length_take]; omega
        have ht : total ≤ n + (total - n) := by omega
        have : sendLoop total (n + (s.rows.take (total - n)).length) ss = some (n + (total - n), []) := by
          rw [hl]
          cases ss with
          | nil => rfl
          | cons t ts => unfold sendLoop; rw [if_pos ht]
        refine ⟨n + (total - n), [⟨s.offset, s.rows.take (total - n)⟩], by simp only; rw [this]; rfl, ?_, ?_⟩
        · rw [List.flatMap_cons, List.flatMap_nil, List.append_nil, List.flatMap_cons, events_take, List.take_append,
            events_length, show total - n - s.rows.length = 0 by omega, List.take_zero, List.append_nil]
        · rw [List.flatMap_cons, List.flatMap_nil, List.append_nil, events_length]; simp [hl]

theorem mem_events {s : Slice R} {r : R} {id : Nat} : (r, id) ∈ s.events ↔ s.offset ≤ id ∧ s.rows[id - s.offset]? = some r := by
  rw [Slice.events, List.mem_iff_getElem?]
  constructor
  · rintro ⟨i, h⟩
    rw [List.getElem?_zipIdx] at h
    cases hr : s.rows[i]? with
    | none => rw [hr] at h; simp at h
    | some x =>
      rw [hr] at h
      simp only [Option.map_some, Option.some.injEq, Prod.mk.injEq] at h
      obtain ⟨rfl, rfl⟩ := h
      exact ⟨by omega, by rw [show s.offset + i - s.offset = i by omega]; exact hr⟩
  · rintro ⟨h1, h2⟩
    refine ⟨id - s.offset, ?_⟩
    rw [List.getElem?_zipIdx, h2]
    simp; omega

theorem mem_events_range {s : Slice R} {e : R × Nat} (h : e ∈ s.events) : s.offset ≤ e.2 ∧ e.2 < s.offset + s.rows.length := by
  obtain ⟨h1, h2⟩ := mem_events.mp (show (e.1, e.2) ∈ s.events from h)
  have := (List.getElem?_eq_some_iff.mp h2).1
  omega

theorem id_mem_events {s : Slice R} {id : Nat} (h : s.offset ≤ id ∧ id < s.offset + s.rows.length) : ∃ r, (r, id) ∈ s.events := by
  have : id - s.offset < s.rows.length := by omega
  exact ⟨s.rows[id - s.offset], mem_events.mpr ⟨h.1, List.getElem?_eq_getElem this⟩⟩

/-- The slices within the events of a slice fit. -/
theorem fits_within {s y : Slice R} (hs : s.offset + s.rows.length < 2 ^ 64) (hy : y.rows ≠ []) (h : ∀ e ∈ y.events, e ∈ s.events) :
    y.offset + y.rows.length < 2 ^ 64 := by
  have hl : 0 < y.rows.length := List.length_pos_iff.mpr hy
  obtain ⟨r, hr⟩ := id_mem_events (s := y) (id := y.offset + y.rows.length - 1) ⟨by omega, by omega⟩
  have := mem_events_range (h _ hr)
  simp only at this
  omega

/-! ## One slice -/

theorem filter_new (ret : List Nat) : ∀ (l : List (R × Nat)), l.Pairwise (fun a b => a.2 < b.2) → firsts ret l = l.filter (fun e => e.2 ∉ ret)
  | [], _ => rfl
  | e :: es, h => by
    rw [List.pairwise_cons] at h
    have key : ∀ (a : List Nat), (∀ x ∈ es, x.2 ∈ a ↔ x.2 ∈ ret) → firsts a es = firsts ret es := by
      intro a
      clear h
      induction es generalizing a ret with
      | nil => intro _; rfl
      | cons x xs ih =>
        intro ha
        have hx := ha x (by simp)
        simp only [firsts]
        by_cases hm : x.2 ∈ ret
        · rw [if_pos hm, if_pos (hx.mpr hm)]
          exact ih ret a fun y hy => ha y (by simp [hy])
        · rw [if_neg hm, if_neg fun h => hm (hx.mp h)]
          congr 1
          refine ih (x.2 :: ret) (x.2 :: a) fun y hy => ?_
          have := ha y (by simp [hy])
          simp [this]
    simp only [firsts]
    by_cases hm : e.2 ∈ ret
    · rw [if_pos hm, List.filter_cons_of_neg (by simpa using hm)]
      exact filter_new ret es h.2
    · rw [if_neg hm, List.filter_cons_of_pos (by simpa using hm), key, filter_new ret es h.2]
      intro x hx
      have := h.1 x hx
      rw [List.mem_cons]
      constructor
      · rintro (h' | h')
        · omega
        · exact h'
      · exact .inr

theorem events_sorted (s : Slice R) : s.events.Pairwise (fun a b => a.2 < b.2) := by
  have : (s.events.map (·.2)).Pairwise (· < ·) := by
    have := events_ids s.rows s.offset fun _ => true
    rw [filter_all, filter_all] at this
    rw [Slice.events, this]
    exact List.pairwise_lt_range'
  exact List.pairwise_map.1 this

/-- What one slice sends: at most the limit; either the new events or all of them. -/
theorem forward_spec (total : Nat) (st : Forward) (s : Slice R) (hs : s.rows ≠ []) (hb : s.offset + s.rows.length < 2 ^ 64) :
    ∃ st' out cand, forward total st s = some (st', out) ∧ out.flatMap Slice.events = cand.take (total - st.numSent)
      ∧ st'.numSent = st.numSent + (out.flatMap Slice.events).length
      ∧ (∀ id, id ∈ st'.returned ↔ id ∈ st.returned ∨ (s.offset ≤ id ∧ id < s.offset + s.rows.length))
      ∧ (cand = s.events.filter (fun e => e.2 ∉ st.returned) ∨ cand = s.events)
      ∧ ((s.rows.length ≤ s.offset ∨ ∀ e ∈ s.events, e.2 ∉ st.returned) → cand = s.events.filter (fun e => e.2 ∉ st.returned)) := by
  obtain ⟨ret, u, l, h1, h2⟩ := unseen_loop s.offset st.returned s.rows.length hb
  unfold forward
  rw [h1]
  simp only
  have hfil : ∀ e ∈ s.events, (l[e.2]? == some true) = decide (e.2 ∉ st.returned) := by
    intro e he
    have hr := mem_events_range he
    rw [Bool.eq_iff_iff, beq_iff_eq, decide_eq_true_eq, h2.bits]
    exact ⟨fun h => h.2, fun h => ⟨hr, h⟩⟩
  have hfe : s.events.filter (fun e => l[e.2]? == some true) = s.events.filter (fun e => e.2 ∉ st.returned) :=
    List.filter_congr hfil
  by_cases hz : u.size = 0
  · rw [if_pos hz]
    have hl : l = [] := List.eq_nil_of_length_eq_zero (by rw [← rep_size h2.rep]; exact hz)
    have hc : s.events.filter (fun e => e.2 ∉ st.returned) = [] := by rw [← hfe, hl]; simp
    exact ⟨_, [], s.events.filter (fun e => e.2 ∉ st.returned), rfl, by rw [hc]; simp, by simp, h2.ids, .inl rfl, fun _ => rfl⟩
  · rw [if_neg hz]
    by_cases hw : u.size = s.rows.length
    · rw [if_pos hw]
      obtain ⟨m, out, e1, e2, e3⟩ := sendLoop_spec total [s] st.numSent (by simpa using hb)
      refine ⟨⟨ret, m⟩, out, s.events, by simp only; rw [e1]; rfl, by simpa using e2, e3, h2.ids, .inr rfl, ?_⟩
      rintro (h | h)
      · rcases h2.last with h' | h'
        · rw [rep_size h2.rep, h'] at hz; simp at hz
        · have := (h2.bits _).mp h'
          rw [rep_size h2.rep] at hw
          omega
      · symm; rw [List.filter_eq_self]; intro e he; simpa using h e he
    · rw [if_neg hw]
      obtain ⟨out, e1, e2, e3⟩ := select_spec s hs hb h2.rep
      have hin : ∀ y ∈ out, y.offset + y.rows.length < 2 ^ 64 := by
        intro y hy
        refine fits_within hb (e3 y hy) fun e he => ?_
        have : e ∈ out.flatMap Slice.events := List.mem_flatMap.mpr ⟨y, hy, he⟩
        rw [e2] at this
        exact (List.mem_filter.mp this).1
      obtain ⟨m, out', f1, f2, f3⟩ := sendLoop_spec total out st.numSent hin
      refine ⟨⟨ret, m⟩, out', s.events.filter (fun e => e.2 ∉ st.returned), by rw [e1]; simp only; rw [f1]; rfl, ?_, f3, h2.ids, .inl rfl, fun _ => rfl⟩
      rw [f2, e2, hfe]

end Verif.Explorer
