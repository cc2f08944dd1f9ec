import Verif.Archive.Lemmas
import Verif.RangeMap.Lemmas

/-! # Which segments are looked into -/

namespace Verif.Archive

open Verif.Bitmap Verif.Bitmap.Spec Verif.Slice
open Verif.RangeMap (Entry Map WF Holds)

variable {R : Type}

/-- Distinct members of an ordered list are ordered one way or the other. -/
theorem pairwise_total {α : Type} {r : α → α → Prop} {l : List α} (h : l.Pairwise r) {a b : α} (ha : a ∈ l) (hb : b ∈ l) :
    a = b ∨ r a b ∨ r b a := by
  induction l with
  | nil => simp at ha
  | cons x l ih =>
    replace h := List.pairwise_cons.1 h
    rcases List.mem_cons.1 ha with rfl | ha'
    · rcases List.mem_cons.1 hb with rfl | hb
      · exact Or.inl rfl
      · exact Or.inr (Or.inl (h.1 b hb))
    · rcases List.mem_cons.1 hb with rfl | hb
      · exact Or.inr (Or.inr (h.1 a (by assumption)))
      · exact ih h.2 (by assumption) hb

/-- Two ordered lists with the same members are equal. -/
theorem ordered_ext {α : Type} {r : α → α → Prop} : ∀ {l l' : List α}, l.Pairwise r → l'.Pairwise r →
    (∀ a ∈ l, ∀ b ∈ l, r a b → ¬ r b a) → (∀ a, a ∈ l ↔ a ∈ l') → l = l' := by
  intro l
  induction l with
  | nil =>
    intro l' _ _ _ hm
    cases l' with
    | nil => rfl
    | cons b l' => exact absurd ((hm b).2 (by simp)) (by simp)
  | cons a l ih =>
    intro l' h h' hr hm
    cases l' with
    | nil => exact absurd ((hm a).1 (by simp)) (by simp)
    | cons b l' =>
      replace h := List.pairwise_cons.1 h
      replace h' := List.pairwise_cons.1 h'
      have hab : a = b := by
        rcases List.mem_cons.1 ((hm a).1 (by simp)) with h1 | h1
        · exact h1
        · rcases List.mem_cons.1 ((hm b).2 (by simp)) with h2 | h2
          · exact h2.symm
          · exact absurd (h'.1 a h1) (hr a (by simp) b ((hm b).2 (by simp)) (h.1 b h2))
      subst hab
      have hn : ∀ x, x ∈ l → x ≠ a := by
        rintro x hx rfl
        exact hr x (by simp) x (by simp) (h.1 x hx) (h.1 x hx)
      have hn' : ∀ x, x ∈ l' → x ≠ a := by
        rintro x hx rfl
        exact hr x (by simp) x (by simp) (h'.1 x hx) (h'.1 x hx)
      congr 1
      refine ih h.2 h'.2 (fun x hx y hy => hr x (by simp [hx]) y (by simp [hy])) ?_
      intro x
      constructor
      · intro hx
        rcases List.mem_cons.1 ((hm x).1 (by simp [hx])) with h1 | h1
        · exact absurd h1 (hn x hx)
        · exact h1
      · intro hx
        rcases List.mem_cons.1 ((hm x).2 (by simp [hx])) with h1 | h1
        · exact absurd h1 (hn' x hx)
        · exact h1

theorem dedup_spec {r : Nat → Nat → Prop} : ∀ (ids acc : List Nat), acc.Pairwise r → (∀ a ∈ acc, ∀ b ∈ ids, a = b ∨ r a b) →
    ids.Pairwise (fun a b => a = b ∨ r a b) → (∀ a ∈ acc ++ ids, ∀ b ∈ acc ++ ids, r a b → ¬ r b a) →
    (ids.foldl addCandidate acc).Pairwise r ∧ ∀ a, a ∈ ids.foldl addCandidate acc ↔ a ∈ acc ∨ a ∈ ids := by
  intro ids
  induction ids with
  | nil => intro acc h _ _ _; exact ⟨h, by simp⟩
  | cons id ids ih =>
    intro acc h1 h2 h3 h4
    replace h3 := List.pairwise_cons.1 h3
    rw [List.foldl_cons, addCandidate]
    split
    · next hl =>
      have hid : id ∈ acc := List.mem_of_getLast? hl
      obtain ⟨g1, g2⟩ := ih acc h1 (fun a ha b hb => h2 a ha b (by simp [hb])) h3.2
        (fun a ha b hb => h4 a (by simp at ha ⊢; rcases ha with ha | ha <;> simp [ha]) b (by simp at hb ⊢; rcases hb with hb | hb <;> simp [hb]))
      refine ⟨g1, ?_⟩
      intro a
      rw [g2, List.mem_cons]
      constructor
      · rintro (h | h) <;> simp [h]
      · rintro (h | rfl | h)
        · simp [h]
        · simp [hid]
        · simp [h]
    · next hl =>
      have hr : ∀ a ∈ acc, r a id := by
        intro a ha
        rcases h2 a ha id (by simp) with rfl | h
        · exfalso
          obtain ⟨init, z, rfl⟩ : ∃ init z, acc = init ++ [z] := ⟨acc.dropLast, acc.getLast (List.ne_nil_of_mem ha), (List.dropLast_concat_getLast _).symm⟩
          simp only [List.getLast?_append, List.getLast?_singleton, Option.some_or, Option.some.injEq] at hl
          have h1' := List.pairwise_append.1 h1
          rcases List.mem_append.1 ha with ha | ha
          · have hz1 := h1'.2.2 a ha z (by simp)
            rcases h2 z (by simp) a (by simp) with h5 | h5
            · exact hl h5
            · exact h4 a (by simp) z (by simp) hz1 h5
          · simp only [List.mem_singleton] at ha
            exact hl ha.symm
        · exact h
      obtain ⟨g1, g2⟩ := ih (acc ++ [id])
        (List.pairwise_append.2 ⟨h1, List.pairwise_singleton _ _, fun a ha b hb => by simp only [List.mem_singleton] at hb; subst hb; exact hr a ha⟩)
        (fun a ha b hb => by
          rcases List.mem_append.1 ha with ha | ha
          · exact h2 a ha b (by simp [hb])
          · simp only [List.mem_singleton] at ha; subst ha; exact h3.1 b hb) h3.2
        (by simpa using h4)
      refine ⟨g1, ?_⟩
      intro a
      rw [g2]; simp [or_assoc]

/-- All slices of some segments. -/
def allSlices (segs : List (Segment R)) : List (Slice R) := segs.flatMap (·.slices)

theorem allSlices_append (a b : List (Segment R)) : allSlices (a ++ b) = allSlices a ++ allSlices b := by simp [allSlices]

theorem allSlices_cons (s : Segment R) (b : List (Segment R)) : allSlices (s :: b) = s.slices ++ allSlices b := by simp [allSlices]

theorem good_segment {segs : List (Segment R)} (h : Good (allSlices segs)) {s : Segment R} (hs : s ∈ segs) : Good s.slices := by
  obtain ⟨a, b, rfl⟩ := List.append_of_mem hs
  rw [allSlices_append, allSlices_cons] at h
  exact (good_append.1 (good_append.1 h).2.1).1

theorem segments_ordered {segs : List (Segment R)} (h : Good (allSlices segs)) :
    segs.Pairwise fun a b => ∀ x ∈ allEvents a.slices, ∀ y ∈ allEvents b.slices, x.2 < y.2 := by
  induction segs with
  | nil => exact List.Pairwise.nil
  | cons s segs ih =>
    rw [allSlices_cons] at h
    obtain ⟨_, h2, h3⟩ := good_append.1 h
    refine List.pairwise_cons.2 ⟨?_, ih h2⟩
    intro b hb x hx y hy
    refine h3 x hx y ?_
    obtain ⟨t, ht, hy⟩ := mem_allEvents.1 hy
    exact mem_allEvents.2 ⟨t, List.mem_flatMap.2 ⟨b, hb, ht⟩, hy⟩

/-- The range map says which segment has which IDs. -/
def Tracks (m : Map Nat) (segs : List (Segment R)) : Prop :=
  ∀ k v, Holds m k v ↔ ∃ s ∈ segs, s.id = v ∧ ∃ e ∈ allEvents s.slices, e.2 = k

theorem id_inj {segs : List (Segment R)} (h : segs.Pairwise fun a b => a.id ≠ b.id) {a b : Segment R} (ha : a ∈ segs) (hb : b ∈ segs)
    (e : a.id = b.id) : a = b := by
  rcases pairwise_total h ha hb with h1 | h1 | h1
  · exact h1
  · exact absurd e h1
  · exact absurd e.symm h1

theorem map_ascending {m : Map Nat} (h : WF m) : Ascending (m.map fun e => (e.left, e.right)) := by
  induction m with
  | nil => trivial
  | cons a m ih =>
    have hs := List.pairwise_cons.1 h.sorted
    have ih' := ih ⟨hs.2, fun e he => h.nonempty e (by simp [he]), fun x hx y hy => h.disjoint x (by simp [hx]) y (by simp [hy])⟩
    have h0 := h.nonempty a (by simp)
    cases m with
    | nil => simp only [List.map_cons, List.map_nil, Ascending]; omega
    | cons b m =>
      simp only [List.map_cons, Ascending] at ih' ⊢
      exact ⟨by omega, h.disjoint a (by simp) b (by simp) (hs.1 b (by simp)), ih'⟩

/-- The candidates are the segments with a selected ID, in order and once each. -/
theorem candidates_spec {m : Map Nat} (h : WF m) {segs : List (Segment R)} (hg : Good (allSlices segs))
    (hid : segs.Pairwise fun a b => a.id ≠ b.id) (ht : Tracks m segs) {xs : EwahBitmap} {l : List Bool} (hx : Represents xs l) :
    (selectWith (fun e : Entry Nat => (e.left, e.right)) (fun _ => false) xs m).map
      (fun r => (r.1.map (·.value)).foldl addCandidate []) = some ((segs.filter fun s => hits l (allEvents s.slices)).map (·.id)) := by
  rw [selectWith_rep _ hx (map_ascending h), untilFailure_none]
  simp only [Option.map_some, Option.some.injEq]
  -- one segment is before another
  let r : Nat → Nat → Prop := fun a b => ∀ i j, Holds m i a → Holds m j b → i < j
  have hentry : ∀ e ∈ m, Holds m e.left e.value := fun e he => ⟨e, he, Nat.le_refl _, h.nonempty e he, rfl⟩
  have hord := segments_ordered hg
  have hseg : ∀ a ∈ segs, ∀ b ∈ segs, (∀ x ∈ allEvents a.slices, ∀ y ∈ allEvents b.slices, x.2 < y.2) → r a.id b.id := by
    intro a ha b hb hab i j hi hj
    obtain ⟨s, hs1, hs2, x, hx, rfl⟩ := (ht i a.id).1 hi
    obtain ⟨t, ht1, ht2, y, hy, rfl⟩ := (ht j b.id).1 hj
    obtain rfl := id_inj hid hs1 ha hs2
    obtain rfl := id_inj hid ht1 hb ht2
    exact hab x hx y hy
  have hpair : m.Pairwise fun a b => a.value = b.value ∨ r a.value b.value := by
    refine h.sorted.imp_of_mem ?_
    intro a b ha hb hab
    obtain ⟨s, hs1, hs2, x, hx, hx'⟩ := (ht _ _).1 (hentry a ha)
    obtain ⟨t, ht1, ht2, y, hy, hy'⟩ := (ht _ _).1 (hentry b hb)
    rcases pairwise_total hord hs1 ht1 with rfl | h1 | h1
    · exact Or.inl (hs2.symm.trans ht2)
    · right; rw [← hs2, ← ht2]; exact hseg s hs1 t ht1 h1
    · have := h1 y hy x hx
      omega
  have hasym : ∀ a b, (∃ i, Holds m i a) → (∃ i, Holds m i b) → r a b → ¬ r b a := by
    rintro a b ⟨i, hi⟩ ⟨j, hj⟩ h1 h2
    have := h1 i j hi hj
    have := h2 j i hj hi
    omega
  have hown : ∀ a ∈ (m.filter fun o => hit l (o.left, o.right)).map (·.value), ∃ i, Holds m i a := by
    intro a ha
    obtain ⟨e, he, rfl⟩ := List.mem_map.1 ha
    exact ⟨e.left, hentry e (List.mem_filter.1 he).1⟩
  obtain ⟨g1, g2⟩ := dedup_spec (r := r) ((m.filter fun o => hit l (o.left, o.right)).map (·.value)) [] List.Pairwise.nil (by simp)
    (List.pairwise_map.2 (hpair.filter _)) (by
      intro a ha b hb
      rw [List.nil_append] at ha hb
      exact hasym a b (hown a ha) (hown b hb))
  refine ordered_ext (r := r) g1 ?_ ?_ ?_
  · refine List.pairwise_map.2 ((hord.filter _).imp_of_mem ?_)
    intro a b ha hb hab
    exact hseg a (List.mem_filter.1 ha).1 b (List.mem_filter.1 hb).1 hab
  · intro a ha b hb
    rw [g2] at ha hb
    simp only [List.not_mem_nil, false_or] at ha hb
    exact hasym a b (hown a ha) (hown b hb)
  · intro a
    rw [g2]
    simp only [List.not_mem_nil, false_or, List.mem_map, List.mem_filter]
    constructor
    · rintro ⟨e, ⟨he, hh⟩, rfl⟩
      obtain ⟨i, h1, h2, h3⟩ := hit_iff.1 hh
      obtain ⟨s, hs1, hs2, x, hx, rfl⟩ := (ht i e.value).1 ⟨e, he, h1, h2, rfl⟩
      exact ⟨s, ⟨hs1, hits_iff.2 ⟨x, hx, h3⟩⟩, hs2⟩
    · rintro ⟨s, ⟨hs, hh⟩, rfl⟩
      obtain ⟨x, hx, h3⟩ := hits_iff.1 hh
      obtain ⟨e, he, h1, h2, h4⟩ := (ht x.2 s.id).2 ⟨s, hs, rfl, x, hx, rfl⟩
      exact ⟨e, ⟨he, hit_iff.2 ⟨x.2, h1, h2, h3⟩⟩, h4⟩

end Verif.Archive
