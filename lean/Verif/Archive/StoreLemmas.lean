import Verif.Archive.CandLemmas
import Verif.Cache.CacheLemmas

/-! # The invariant of the segment store -/

namespace Verif.Archive

open Verif.Bitmap Verif.Bitmap.Spec Verif.Slice Verif.Cache
open Verif.RangeMap (Entry Map WF Holds)

variable {R : Type}

/-! ## The cache -/

section
variable {K V : Type} [DecidableEq K]

theorem cache_find {c : Cache K V} (h : c.Inv) (k : K) :
    ∃ r c', c.find .lru k = some (r, c') ∧ c'.Inv ∧ (∀ n, n ∈ c'.xs ↔ n ∈ c.xs) ∧ (∀ n, r = some n → n ∈ c.xs ∧ n.key = k) ∧
      (r = none → c' = c ∧ ∀ n ∈ c.xs, n.key ≠ k) := by
  unfold Cache.find
  cases hf : c.tracker.find k with
  | some a =>
    obtain ⟨n, hn, rfl, rfl⟩ := find_some h.tracked hf
    simp only [deref_mem h.tracked.addrs hn, Option.bind_eq_bind, Option.bind_some]
    refine ⟨_, _, rfl, (Cache.access_spec .lru h hn).1, ?_, ?_, by simp⟩
    · intro m
      have h1 := access_perm h.tracked hn
      have he := eraseNode_eq h.tracked.keys h.tracked.addrs hn
      simp only [Cache.access, he]
      rw [← h1.mem_iff]
      simp [or_comm]
    · rintro m ⟨⟩; exact ⟨hn, rfl⟩
  | none =>
    exact ⟨_, _, rfl, h, fun n => Iff.rfl, by simp, fun _ => ⟨rfl, (find_none h.tracked).1 hf⟩⟩

theorem cache_insert {c : Cache K V} (h : c.Inv) {k : K} (v : V) (hk : ∀ n ∈ c.xs, n.key ≠ k) :
    ∃ r c', c.insert .lru k v = some (r, c') ∧ c'.Inv ∧ ∀ n ∈ c'.xs, n ∈ c.xs ∨ (n.key = k ∧ n.value = v) := by
  obtain ⟨c', g1, g2, g3, g4, g5, g6, g7⟩ := Cache.makeRoom_spec .lru c h
  have hk' : ∀ n ∈ c'.xs, n.key ≠ k := fun n hn => hk n (g7 n hn)
  have hpos := h.pos
  have g8 : c'.tracker.emplace k c'.next = (k, c'.next) :: c'.tracker := by
    rw [Tracker.emplace, (find_none g2).2 hk']; rfl
  have g9 : (⟨c'.next, k, v⟩ :: c'.xs).Perm (Cache.policyInsert .lru c'.xs ⟨c'.next, k, v⟩) := List.perm_append_singleton _ _ |>.symm
  rw [Cache.insert, (find_none h.tracked).2 hk]
  simp only [g1, Option.bind_eq_bind, Option.bind_some, g8]
  refine ⟨_, _, rfl, ⟨tracked_perm (tracked_cons g2 v hk') g9, ?_, ?_⟩, ?_⟩
  · have := g9.length_eq; simp only [List.length_cons] at this ⊢; omega
  · simp only; omega
  · intro n hn
    rw [← g9.mem_iff, List.mem_cons] at hn
    rcases hn with rfl | hn
    · exact Or.inr ⟨rfl, rfl⟩
    · exact Or.inl (g7 n hn)

theorem cache_eraseAt {c : Cache K V} (h : c.Inv) {n : Node K V} (hn : n ∈ c.xs) :
    (c.eraseAt n.addr).Inv ∧ ∀ m, m ∈ (c.eraseAt n.addr).xs ↔ m ∈ c.xs ∧ m.key ≠ n.key := by
  have h4 := eraseNode_eq h.tracked.keys h.tracked.addrs hn
  have h5 : (c.tracker.filter fun e => e.2 != n.addr) = c.tracker.erase n.key := by
    rw [Tracker.erase]
    apply List.filter_congr
    intro e he
    obtain ⟨y, hy, rfl⟩ := (mem_tracker h.tracked).1 he
    by_cases hyn : y = n
    · subst hyn; simp
    · have g1 : y.addr ≠ n.addr := fun e => hyn (addr_inj h.tracked.addrs hy hn e)
      have g2 : y.key ≠ n.key := fun e => hyn (key_inj h.tracked.keys hy hn e)
      rw [bne_iff_ne.2 g1, bne_iff_ne.2 g2]
  rw [Cache.eraseAt, h4, h5]
  refine ⟨⟨tracked_erase h.tracked n.key, ?_, h.pos⟩, ?_⟩
  · have := List.length_filter_le (fun x : Node K V => x.key != n.key) c.xs
    have := h.bound
    simp only at this ⊢; omega
  · intro m; simp
end

/-! ## The range map -/

theorem free_of_not_holds {m : Map Nat} (h : WF m) {l r : Nat} (hlr : l < r) (hf : ∀ k, l ≤ k → k < r → ∀ v, ¬ Holds m k v) : RangeMap.Free m l r := by
  intro e he
  have := h.nonempty e he
  by_cases h1 : e.right ≤ l
  · exact Or.inl h1
  · by_cases h2 : r ≤ e.left
    · exact Or.inr h2
    · by_cases h3 : e.left ≤ l
      · exact absurd ⟨e, he, h3, by omega, rfl⟩ (hf l (Nat.le_refl _) (by omega) e.value)
      · exact absurd ⟨e, he, Nat.le_refl _, this, rfl⟩ (hf e.left (by omega) (by omega) e.value)

theorem inject_slice {m : Map Nat} (h : WF m) {s : Slice R} (hs : s.rows ≠ []) (hb : s.offset + s.rows.length < 2 ^ 64) (id : Nat)
    (hf : ∀ e ∈ s.events, ∀ v, ¬ Holds m e.2 v) :
    (RangeMap.inject m s.offset (add64 s.offset s.rows.length) id).2 = true ∧
    WF (RangeMap.inject m s.offset (add64 s.offset s.rows.length) id).1 ∧
    ∀ k v, Holds (RangeMap.inject m s.offset (add64 s.offset s.rows.length) id).1 k v ↔ Holds m k v ∨ (v = id ∧ ∃ e ∈ s.events, e.2 = k) := by
  have hr := rows_pos hs
  rw [add64_eq hb]
  obtain ⟨h1, h2, _⟩ := RangeMap.inject_spec h (l := s.offset) (r := s.offset + s.rows.length) (by omega) id
  have hfree := free_of_not_holds h (l := s.offset) (r := s.offset + s.rows.length) (by omega) (by
    intro k hk1 hk2 v
    obtain ⟨e, he, rfl⟩ := event_at hk1 hk2
    exact hf e he v)
  have h3 := h1.2 hfree
  have h4 := h2 h3
  refine ⟨h3, h4.wf, ?_⟩
  intro k v
  rw [h4.holds]
  split
  · next hk =>
    obtain ⟨e, he, rfl⟩ := event_at hk.1 hk.2
    constructor
    · rintro rfl; exact Or.inr ⟨rfl, e, he, rfl⟩
    · rintro (h | ⟨h, _⟩)
      · exact absurd h (hf e he v)
      · exact h
  · next hk =>
    constructor
    · exact Or.inl
    · rintro (h | ⟨_, e, he, rfl⟩)
      · exact h
      · exact absurd (event_bounds he) hk

theorem injectAll_spec (id : Nat) : ∀ (new : List (Slice R)) (m : Map Nat), WF m → Good new → (∀ e ∈ allEvents new, ∀ v, ¬ Holds m e.2 v) →
    WF (injectAll m id new) ∧ ∀ k v, Holds (injectAll m id new) k v ↔ Holds m k v ∨ (v = id ∧ ∃ e ∈ allEvents new, e.2 = k) := by
  intro new
  induction new with
  | nil => intro m h _ _; exact ⟨h, by simp [injectAll, allEvents]⟩
  | cons s new ih =>
    intro m h hg hf
    obtain ⟨_, h2, h3⟩ := inject_slice h (hg.ne s (by simp)) (hg.bound s (by simp)) id
      (fun e he => hf e (mem_allEvents.2 ⟨s, by simp, he⟩))
    obtain ⟨h4, h5⟩ := ih _ h2 (good_cons hg) (by
      intro e he v hv
      rw [h3] at hv
      rcases hv with hv | ⟨_, x, hx, hxe⟩
      · exact hf e (by rw [allEvents_cons]; simp [he]) v hv
      · have := (good_append (a := [s]).1 hg).2.2 x (by simpa [allEvents] using hx) e he
        omega)
    refine ⟨h4, ?_⟩
    intro k v
    rw [injectAll, List.foldl_cons, ← injectAll, h5, h3, allEvents_cons]
    constructor
    · rintro ((h | ⟨h, e, he, hk⟩) | ⟨h, e, he, hk⟩)
      · exact Or.inl h
      · exact Or.inr ⟨h, e, by simp [he], hk⟩
      · exact Or.inr ⟨h, e, by simp [he], hk⟩
    · rintro (h | ⟨h, e, he, hk⟩)
      · exact Or.inl (Or.inl h)
      · rcases List.mem_append.1 he with he | he
        · exact Or.inl (Or.inr ⟨h, e, he, hk⟩)
        · exact Or.inr ⟨h, e, he, hk⟩

theorem tracks_erase {m : Map Nat} (h : WF m) {a b : List (Segment R)} {s : Segment R} (ht : Tracks m (a ++ s :: b))
    (hid : (a ++ s :: b).Pairwise fun x y => x.id ≠ y.id) :
    WF (RangeMap.eraseValue m s.id) ∧ Tracks (RangeMap.eraseValue m s.id) (a ++ b) := by
  obtain ⟨h1, h2⟩ := RangeMap.eraseValue_spec h s.id
  refine ⟨h1, ?_⟩
  intro k v
  rw [h2, ht k v]
  constructor
  · rintro ⟨⟨t, ht1, ht2, ht3⟩, hv⟩
    refine ⟨t, ?_, ht2, ht3⟩
    simp only [List.mem_append, List.mem_cons] at ht1 ⊢
    rcases ht1 with h | rfl | h
    · exact Or.inl h
    · exact absurd ht2.symm hv
    · exact Or.inr h
  · rintro ⟨t, ht1, ht2, ht3⟩
    have hmem : t ∈ a ++ s :: b := by
      simp only [List.mem_append, List.mem_cons] at ht1 ⊢
      rcases ht1 with h | h <;> simp [h]
    refine ⟨⟨t, hmem, ht2, ht3⟩, ?_⟩
    rintro rfl
    have hst := id_inj hid hmem (by simp : s ∈ a ++ s :: b) ht2
    subst hst
    obtain ⟨_, h4, h5⟩ := List.pairwise_append.1 hid
    rcases List.mem_append.1 ht1 with h | h
    · exact h5 t h t (by simp) rfl
    · exact (List.pairwise_cons.1 h4).1 t h rfl

theorem mem_segment_events {segs : List (Segment R)} {e : R × Nat} :
    e ∈ allEvents (allSlices segs) ↔ ∃ s ∈ segs, e ∈ allEvents s.slices := by
  simp only [mem_allEvents, allSlices, List.mem_flatMap]
  constructor
  · rintro ⟨t, ⟨s, hs, ht⟩, he⟩; exact ⟨s, hs, t, ht, he⟩
  · rintro ⟨s, hs, t, ht, he⟩; exact ⟨t, ⟨s, hs, ht⟩, he⟩

/-- A segment is replaced by one with some of its events. -/
theorem tracks_replace {m : Map Nat} (h : WF m) {a b : List (Segment R)} {s : Segment R} (ht : Tracks m (a ++ s :: b))
    (hid : (a ++ s :: b).Pairwise fun x y => x.id ≠ y.id) (hg : Good (allSlices (a ++ s :: b))) {id : Nat} {new : List (Slice R)}
    (hn : Good new) (hsub : (allEvents new).Sublist (allEvents s.slices)) :
    WF (injectAll (RangeMap.eraseValue m s.id) id new) ∧ Tracks (injectAll (RangeMap.eraseValue m s.id) id new) (a ++ ⟨id, new⟩ :: b) := by
  obtain ⟨h1, h2⟩ := tracks_erase h ht hid
  obtain ⟨h3, h4⟩ := injectAll_spec id new _ h1 hn (by
    intro e he v hv
    obtain ⟨t, ht1, _, x, hx, hxe⟩ := (h2 _ _).1 hv
    have he' := hsub.subset he
    have hord := segments_ordered hg
    obtain ⟨_, h6, h7⟩ := List.pairwise_append.1 hord
    rcases List.mem_append.1 ht1 with ht1 | ht1
    · have := h7 t ht1 s (by simp) x hx e he'; omega
    · have := (List.pairwise_cons.1 h6).1 t ht1 e he' x hx; omega)
  refine ⟨h3, ?_⟩
  intro k v
  rw [h4, h2 k v]
  constructor
  · rintro (⟨t, ht1, ht2⟩ | ⟨rfl, e, he, hk⟩)
    · refine ⟨t, ?_, ht2⟩
      simp only [List.mem_append, List.mem_cons] at ht1 ⊢
      rcases ht1 with h | h <;> simp [h]
    · exact ⟨⟨v, new⟩, by simp, rfl, e, he, hk⟩
  · rintro ⟨t, ht1, ht2, ht3⟩
    simp only [List.mem_append, List.mem_cons] at ht1
    rcases ht1 with h | rfl | h
    · exact Or.inl ⟨t, by simp [h], ht2, ht3⟩
    · exact Or.inr ⟨ht2.symm, ht3⟩
    · exact Or.inl ⟨t, by simp [h], ht2, ht3⟩

theorem good_replace {a b c : List (Segment R)} {s : Segment R} (hg : Good (allSlices (a ++ s :: b)))
    (hc : Good (allSlices c)) (hsub : (allEvents (allSlices c)).Sublist (allEvents s.slices)) : Good (allSlices (a ++ c ++ b)) := by
  refine good_of_sublist hg ?_ ?_
  · intro t ht
    simp only [allSlices_append, allSlices_cons, List.mem_append] at ht
    rcases ht with (h | h) | h
    · exact hg.ne t (by simp [allSlices_append, h])
    · exact hc.ne t h
    · exact hg.ne t (by simp [allSlices_append, allSlices_cons, h])
  · simp only [allSlices_append, allSlices_cons, allEvents_append]
    rw [List.append_assoc]
    exact (List.Sublist.refl _).append (hsub.append (List.Sublist.refl _))

/-! ## The store -/

/-- The segments of a store, the builder last. -/
def Store.segs (st : Store R) (live : List (Segment R)) : List (Segment R) := live ++ [st.builder]

/-- The invariant; `live` are the segments in use, in the order of their IDs. -/
structure Inv (st : Store R) (live : List (Segment R)) : Prop where
  good : Good (allSlices (st.segs live))
  ids : (st.segs live).Pairwise fun a b => a.id ≠ b.id
  fresh : ∀ s ∈ st.segs live, s.id < st.nextId
  wf : WF st.segments
  tracks : Tracks st.segments (st.segs live)
  cache : st.cache.Inv
  cached : ∀ n ∈ st.cache.xs, n.key = n.value.id ∧ n.value ∈ live
  files : ∀ s ∈ live, (s.id, s) ∈ st.files
  names : st.files.Pairwise fun a b => a.1 ≠ b.1
  named : ∀ f ∈ st.files, f.1 = f.2.id ∧ f.1 < st.nextId
  disk : ∀ f ∈ st.files, f.2 ∈ live ∨ f.1 ∈ st.stale
  stale : ∀ i ∈ st.stale, i < st.nextId ∧ ∀ s ∈ st.segs live, s.id ≠ i

theorem load_spec {st : Store R} {live : List (Segment R)} (h : Inv st live) {s : Segment R} (hs : s ∈ live) : st.load s.id = some s := by
  have hf := h.files s hs
  have hn := h.names
  rw [Store.load]
  generalize st.files = fs at hf hn
  induction fs with
  | nil => simp at hf
  | cons f fs ih =>
    replace hn := List.pairwise_cons.1 hn
    rcases List.mem_cons.1 hf with rfl | hf
    · simp
    · rw [List.find?_cons_of_neg (by simpa using hn.1 _ hf)]
      exact ih hf hn.2

theorem not_builder {st : Store R} {live : List (Segment R)} (h : Inv st live) {s : Segment R} (hs : s ∈ live) : s.id ≠ st.builder.id :=
  (List.pairwise_append.1 h.ids).2.2 s hs st.builder (by simp)

/-- The invariant does not depend on the order of the cache. -/
theorem inv_cache {st : Store R} {live : List (Segment R)} (h : Inv st live) {c : Cache Nat (Segment R)} (hc : c.Inv)
    (hm : ∀ n ∈ c.xs, n.key = n.value.id ∧ n.value ∈ live) : Inv { st with cache := c } live :=
  ⟨h.good, h.ids, h.fresh, h.wf, h.tracks, hc, hm, h.files, h.names, h.named, h.disk, h.stale⟩

/-- What is found in a segment. -/
def found (l : List Bool) (s : Segment R) : List (Slice R) := s.slices.filter fun t => hits l t.events

theorem lookupIn_spec {st : Store R} {live : List (Segment R)} (h : Inv st live) {xs : EwahBitmap} {l : List Bool} (hx : Represents xs l)
    {s : Segment R} (hs : s ∈ st.segs live) :
    ∃ c, st.lookupIn xs s.id = some (some (found l s), { st with cache := c }) ∧ Inv { st with cache := c } live := by
  have hg := good_segment h.good hs
  rw [Store.lookupIn]
  rcases List.mem_append.1 hs with hl | hb
  · rw [if_neg (not_builder h hl)]
    obtain ⟨r, c', g1, g2, g3, g4, g5⟩ := cache_find h.cache s.id
    rw [g1]
    cases r with
    | some n =>
      obtain ⟨k1, k2⟩ := g4 n rfl
      have hn : n.value = s := by
        obtain ⟨k3, k4⟩ := h.cached n k1
        exact id_inj h.ids (List.mem_append.2 (Or.inl k4)) hs (by rw [← k3, k2])
      simp only [hn, lookupSlices_spec hg hx, Option.map_some]
      exact ⟨c', rfl, inv_cache h g2 fun n hn => h.cached n ((g3 n).1 hn)⟩
    | none =>
      obtain ⟨rfl, g6⟩ := g5 rfl
      simp only [load_spec h hl]
      obtain ⟨r, c', k1, k2, k3⟩ := cache_insert h.cache s g6
      simp only [k1, lookupSlices_spec hg hx, Option.map_some]
      refine ⟨c', rfl, inv_cache h k2 ?_⟩
      intro n hn
      rcases k3 n hn with hn | ⟨h1, h2⟩
      · exact h.cached n hn
      · rw [h1, h2]; exact ⟨rfl, hl⟩
  · simp only [List.mem_singleton] at hb
    subst hb
    rw [if_pos rfl, lookupSlices_spec hg hx]
    exact ⟨st.cache, rfl, h⟩

theorem inMemory_spec {st : Store R} {live : List (Segment R)} (h : Inv st live) (id : Nat) :
    ∃ b c, st.inMemory id = some (b, { st with cache := c }) ∧ Inv { st with cache := c } live := by
  rw [Store.inMemory]
  split
  · exact ⟨true, st.cache, rfl, h⟩
  · obtain ⟨r, c', g1, g2, g3, g4, g5⟩ := cache_find h.cache id
    rw [g1]
    exact ⟨r.isSome, c', rfl, inv_cache h g2 fun n hn => h.cached n ((g3 n).1 hn)⟩

theorem partition_spec {live : List (Segment R)} : ∀ (ids : List Nat) (st : Store R), Inv st live →
    ∃ p q c, st.partition ids = some ((p, q), { st with cache := c }) ∧ Inv { st with cache := c } live ∧ (p ++ q).Perm ids := by
  intro ids
  induction ids with
  | nil => intro st h; exact ⟨[], [], st.cache, rfl, h, List.Perm.nil⟩
  | cons id ids ih =>
    intro st h
    obtain ⟨b, c, g1, g2⟩ := inMemory_spec h id
    obtain ⟨p, q, c', g3, g4, g5⟩ := ih _ g2
    simp only at g3
    simp only [Store.partition, g1, g3, Option.bind_eq_bind, Option.bind_some]
    cases b
    · exact ⟨p, id :: q, c', rfl, g4, List.perm_middle.trans (g5.cons id)⟩
    · exact ⟨id :: p, q, c', rfl, g4, by rw [List.cons_append]; exact g5.cons id⟩

/-- What is found for an ID of a segment. -/
def foundFor (l : List Bool) (segs : List (Segment R)) (id : Nat) : List (Slice R) :=
  match segs.find? fun s => s.id == id with
  | some s => found l s
  | none => []

theorem foundFor_mem {l : List Bool} {segs : List (Segment R)} (hid : segs.Pairwise fun a b => a.id ≠ b.id) {s : Segment R} (hs : s ∈ segs) :
    foundFor l segs s.id = found l s := by
  have : (segs.find? fun t => t.id == s.id) = some s := by
    induction segs with
    | nil => simp at hs
    | cons f fs ih =>
      replace hid := List.pairwise_cons.1 hid
      rcases List.mem_cons.1 hs with rfl | hs
      · simp
      · rw [List.find?_cons_of_neg (by simpa using hid.1 _ hs)]
        exact ih hid.2 hs
  rw [foundFor, this]

theorem getLoop_spec {live : List (Segment R)} {xs : EwahBitmap} {l : List Bool} (hx : Represents xs l) : ∀ (ids : List Nat) (st : Store R), Inv st live →
    (∀ id ∈ ids, ∃ s ∈ st.segs live, s.id = id) →
    ∃ c, st.getLoop xs ids = some (some (ids.flatMap (foundFor l (st.segs live))), { st with cache := c }) ∧ Inv { st with cache := c } live := by
  intro ids
  induction ids with
  | nil => intro st h _; exact ⟨st.cache, rfl, h⟩
  | cons id ids ih =>
    intro st h hm
    obtain ⟨s, hs, rfl⟩ := hm id (by simp)
    obtain ⟨c, g1, g2⟩ := lookupIn_spec h hx hs
    obtain ⟨c', g3, g4⟩ := ih { st with cache := c } g2 (fun id hid => hm id (by simp [hid]))
    simp only at g3
    simp only [Store.getLoop, g1, g3, Option.bind_eq_bind, Option.bind_some, Option.map_some]
    refine ⟨c', ?_, g4⟩
    rw [List.flatMap_cons, foundFor_mem h.ids hs]
    rfl

theorem found_flatMap (l : List Bool) (segs : List (Segment R)) :
    (segs.filter fun s => hits l (allEvents s.slices)).flatMap (found l) = (allSlices segs).filter fun t => hits l t.events := by
  induction segs with
  | nil => rfl
  | cons s segs ih =>
    rw [allSlices_cons, List.filter_append, List.filter_cons, ← ih]
    split
    · rfl
    · next hn =>
      have : s.slices.filter (fun t => hits l t.events) = [] := by
        rw [List.filter_eq_nil_iff]
        intro t ht hh
        apply hn
        obtain ⟨e, he, hl⟩ := hits_iff.1 hh
        exact hits_iff.2 ⟨e, mem_allEvents.2 ⟨t, ht, he⟩, hl⟩
      rw [this]; rfl

theorem candidates_perm {st : Store R} {live : List (Segment R)} (h : Inv st live) {xs : EwahBitmap} {l : List Bool} (hx : Represents xs l) :
    ∃ cs c, st.candidates xs = some (cs, { st with cache := c }) ∧ Inv { st with cache := c } live ∧
      cs.Perm (((st.segs live).filter fun s => hits l (allEvents s.slices)).map (·.id)) := by
  have h1 := candidates_spec h.wf h.good h.ids h.tracks hx
  obtain ⟨p, q, c, g1, g2, g3⟩ := partition_spec (((st.segs live).filter fun s => hits l (allEvents s.slices)).map (·.id)) st h
  refine ⟨p ++ q, c, ?_, g2, g3⟩
  simp only [Store.candidates, Store.selectSegments, h1, g1, Option.bind_eq_bind, Option.bind_some]

theorem flatMap_congr' {A B : Type} {f g : A → List B} {l : List A} (h : ∀ x ∈ l, f x = g x) : l.flatMap f = l.flatMap g := by
  induction l with
  | nil => rfl
  | cons a l ih => rw [List.flatMap_cons, List.flatMap_cons, h a (by simp), ih fun x hx => h x (by simp [hx])]

theorem get_spec {st : Store R} {live : List (Segment R)} (h : Inv st live) {xs : EwahBitmap} {l : List Bool} (hx : Represents xs l) :
    ∃ out c, st.get xs = some (some out, { st with cache := c }) ∧ Inv { st with cache := c } live ∧
      out.Perm ((allSlices (st.segs live)).filter fun t => hits l t.events) := by
  obtain ⟨cs, c, g1, g2, g3⟩ := candidates_perm h hx
  obtain ⟨c', g4, g5⟩ := getLoop_spec hx cs _ g2 (by
    intro id hid
    rw [g3.mem_iff] at hid
    obtain ⟨s, hs, rfl⟩ := List.mem_map.1 hid
    exact ⟨s, (List.mem_filter.1 hs).1, rfl⟩)
  refine ⟨cs.flatMap (foundFor l (st.segs live)), c', ?_, g5, ?_⟩
  · simp only [Store.get, g1, Option.bind_eq_bind, Option.bind_some]
    exact g4
  · refine (g3.flatMap_right _).trans ?_
    rw [← found_flatMap, List.flatMap_map]
    refine List.Perm.of_eq ?_
    apply flatMap_congr'
    intro s hs
    exact foundFor_mem h.ids (List.mem_filter.1 hs).1

/-! ### Adding -/

theorem added_spec {st : Store R} {live : List (Segment R)} (h : Inv st live) {s : Slice R} (hs : s.rows ≠ [])
    (hb : s.offset + s.rows.length < 2 ^ 64) (hnew : ∀ e ∈ allEvents (allSlices (st.segs live)), e.2 < s.offset) :
    (RangeMap.inject st.segments s.offset (add64 s.offset s.rows.length) st.builder.id).2 = true ∧ Inv (st.added s) live ∧
      allEvents (allSlices ((st.added s).segs live)) = allEvents (allSlices (st.segs live)) ++ s.events := by
  obtain ⟨h1, h2, h3⟩ := inject_slice h.wf hs hb st.builder.id (by
    intro e he v hv
    obtain ⟨t, ht1, _, x, hx, hxe⟩ := (h.tracks _ _).1 hv
    have := hnew x (mem_segment_events.2 ⟨t, ht1, hx⟩)
    have := event_bounds he
    omega)
  have hev : allSlices ((st.added s).segs live) = allSlices (st.segs live) ++ [s] := by
    simp [Store.segs, Store.added, allSlices]
  have hbi : (st.added s).builder.id = st.builder.id := rfl
  have hids : ((st.added s).segs live).map (·.id) = (st.segs live).map (·.id) := by simp [Store.segs, hbi]
  have hmem : ∀ t ∈ (st.added s).segs live, ∃ t' ∈ st.segs live, t.id = t'.id := by
    intro t ht
    have : t.id ∈ ((st.added s).segs live).map (·.id) := List.mem_map.2 ⟨t, ht, rfl⟩
    rw [hids] at this
    obtain ⟨t', ht', he⟩ := List.mem_map.1 this
    exact ⟨t', ht', he.symm⟩
  refine ⟨h1, ?_, by rw [hev, allEvents_append]; simp [allEvents]⟩
  constructor
  · rw [hev]
    refine good_append.2 ⟨h.good, good_singleton hs hb, ?_⟩
    intro x hx y hy
    have := hnew x hx
    have := event_bounds (show y ∈ s.events by simpa [allEvents] using hy)
    omega
  · have := List.pairwise_map.2 h.ids
    rw [← hids] at this
    exact List.pairwise_map.1 this
  · intro t ht
    obtain ⟨t', ht', he⟩ := hmem t ht
    rw [he]; exact h.fresh t' ht'
  · exact h2
  · intro k v
    simp only [Store.added] at h3 ⊢
    rw [h3, h.tracks k v]
    simp only [Store.segs, List.mem_append, List.mem_singleton]
    constructor
    · rintro (⟨t, ht | rfl, ht2, ht3⟩ | ⟨rfl, e, he, hk⟩)
      · exact ⟨t, Or.inl ht, ht2, ht3⟩
      · obtain ⟨e, he, hk⟩ := ht3
        exact ⟨_, Or.inr rfl, ht2, e, by simp only [allEvents_append, List.mem_append]; exact Or.inl he, hk⟩
      · exact ⟨_, Or.inr rfl, rfl, e, by simp only [allEvents_append, List.mem_append]; exact Or.inr (by simpa [allEvents] using he), hk⟩
    · rintro ⟨t, ht | rfl, ht2, e, he, hk⟩
      · exact Or.inl ⟨t, Or.inl ht, ht2, e, he, hk⟩
      · simp only [allEvents_append, List.mem_append] at he
        rcases he with he | he
        · exact Or.inl ⟨_, Or.inr rfl, ht2, e, he, hk⟩
        · exact Or.inr ⟨ht2.symm, e, by simpa [allEvents] using he, hk⟩
  · exact h.cache
  · exact h.cached
  · exact h.files
  · exact h.names
  · exact h.named
  · exact h.disk
  · intro i hi
    obtain ⟨g1, g2⟩ := h.stale i hi
    refine ⟨g1, ?_⟩
    intro t ht
    obtain ⟨t', ht', he⟩ := hmem t ht
    rw [he]; exact g2 t' ht'

theorem flush_spec {st : Store R} {live : List (Segment R)} (h : Inv st live) :
    ∃ st' live', st.flush true = some (true, st') ∧ Inv st' live' ∧ st'.numEvents = st.numEvents ∧
      allSlices (st'.segs live') = allSlices (st.segs live) ∧ st'.builder.slices = [] ∧ ∀ s ∈ st.segs live, s ∈ st'.segs live' := by
  rw [Store.flush]
  split
  · next he => exact ⟨st, live, rfl, h, rfl, rfl, he, fun _ hs => hs⟩
  · have hk : ∀ n ∈ st.cache.xs, n.key ≠ st.builder.id := by
      intro n hn
      obtain ⟨h1, h2⟩ := h.cached n hn
      rw [h1]; exact not_builder h h2
    obtain ⟨r, c, g1, g2, g3⟩ := cache_insert h.cache st.builder hk
    simp only [if_true, g1, Option.map_some]
    have hsegs : ∀ x ∈ live ++ [st.builder], x.id < st.nextId := h.fresh
    refine ⟨_, live ++ [st.builder], rfl, ?_, rfl, ?_, rfl, fun s hs => List.mem_append.2 (Or.inl hs)⟩
    · constructor
      · have := h.good
        simp only [Store.segs, allSlices_append] at this ⊢
        simpa [allSlices] using this
      · simp only [Store.segs]
        refine List.pairwise_append.2 ⟨h.ids, List.pairwise_singleton _ _, ?_⟩
        intro a ha b hb
        simp only [List.mem_singleton] at hb
        subst hb
        have := hsegs a ha
        simp only; omega
      · intro s hs
        simp only [Store.segs] at hs
        rcases List.mem_append.1 hs with hs | hs
        · have := hsegs s hs; simp only; omega
        · simp only [List.mem_singleton] at hs; subst hs; simp only; omega
      · exact h.wf
      · intro k v
        rw [h.tracks k v]
        simp only [Store.segs]
        constructor
        · rintro ⟨s, hs, h2⟩; exact ⟨s, List.mem_append.2 (Or.inl hs), h2⟩
        · rintro ⟨s, hs, h2⟩
          rcases List.mem_append.1 hs with hs | hs
          · exact ⟨s, hs, h2⟩
          · simp only [List.mem_singleton] at hs
            subst hs
            obtain ⟨_, e, he, _⟩ := h2
            simp [allEvents] at he
      · exact g2
      · intro n hn
        rcases g3 n hn with hn | ⟨h1, h2⟩
        · obtain ⟨h1, h2⟩ := h.cached n hn
          exact ⟨h1, List.mem_append.2 (Or.inl h2)⟩
        · rw [h1, h2]; exact ⟨rfl, by simp⟩
      · intro s hs
        rcases List.mem_append.1 hs with hs | hs
        · exact List.mem_cons_of_mem _ (h.files s hs)
        · simp only [List.mem_singleton] at hs; subst hs; simp
      · refine List.pairwise_cons.2 ⟨?_, h.names⟩
        intro f hf
        rcases h.disk f hf with h1 | h1
        · rw [(h.named f hf).1]
          exact fun e => not_builder h h1 e.symm
        · exact (h.stale f.1 h1).2 st.builder (by simp [Store.segs])
      · intro f hf
        rcases List.mem_cons.1 hf with rfl | hf
        · have := hsegs st.builder (by simp)
          exact ⟨rfl, by simp only; omega⟩
        · have := h.named f hf
          exact ⟨this.1, by simp only; omega⟩
      · intro f hf
        rcases List.mem_cons.1 hf with rfl | hf
        · exact Or.inl (by simp)
        · rcases h.disk f hf with h1 | h1
          · exact Or.inl (by simp [h1])
          · exact Or.inr h1
      · intro i hi
        obtain ⟨h1, h2⟩ := h.stale i hi
        refine ⟨by simp only; omega, ?_⟩
        intro s hs
        simp only [Store.segs] at hs
        rcases List.mem_append.1 hs with hs | hs
        · exact h2 s hs
        · simp only [List.mem_singleton] at hs; subst hs; simp only; omega
    · simp [Store.segs, allSlices]

/-! ### Erasing -/

theorem eraseBuilder_spec {st : Store R} {live : List (Segment R)} (h : Inv st live) (hne : st.builder.slices ≠ [])
    {xs : EwahBitmap} {l : List Bool} (hx : Represents xs l) :
    ∃ n st', st.eraseBuilder xs = some (n, st') ∧ Inv st' live ∧ st'.numEvents = st.numEvents ∧
      allEvents st'.builder.slices = (allEvents st.builder.slices).filter (fun e => !(l[e.2]? == some true)) ∧
      n + (allEvents st'.builder.slices).length = (allEvents st.builder.slices).length := by
  have hgb : Good st.builder.slices := good_segment h.good (by simp [Store.segs])
  obtain ⟨new, g1, g2, g3⟩ := shrink_spec hgb hne hx
  have hsub : (allEvents new).Sublist (allEvents st.builder.slices) := by rw [g3]; exact List.filter_sublist
  rw [Store.eraseBuilder, g1]
  refine ⟨_, _, rfl, ?_, rfl, g3, by have := hsub.length_le; simp only; omega⟩
  have hids := h.ids
  have hgood := h.good
  simp only [Store.segs] at hids hgood
  obtain ⟨k1, k2⟩ := tracks_replace h.wf h.tracks hids hgood (id := st.nextId) g2 hsub
  have hsegs : ∀ x ∈ live ++ [st.builder], x.id < st.nextId := h.fresh
  have hlive : ∀ x ∈ live, x.id < st.nextId := fun x hx => hsegs x (by simp [hx])
  constructor
  · have := good_replace (c := [⟨st.nextId, new⟩]) hgood (by simpa [allSlices] using g2) (by simpa [allSlices] using hsub)
    simpa [Store.segs] using this
  · simp only [Store.segs]
    refine List.pairwise_append.2 ⟨(List.pairwise_append.1 hids).1, List.pairwise_singleton _ _, ?_⟩
    intro a ha b hb
    simp only [List.mem_singleton] at hb
    subst hb
    have := hlive a ha
    simp only; omega
  · intro s hs
    simp only [Store.segs] at hs
    rcases List.mem_append.1 hs with hs | hs
    · have := hlive s hs; simp only; omega
    · simp only [List.mem_singleton] at hs; subst hs; simp only; omega
  · exact k1
  · exact k2
  · exact h.cache
  · exact h.cached
  · exact h.files
  · exact h.names
  · intro f hf
    have := h.named f hf
    exact ⟨this.1, by simp only; omega⟩
  · exact h.disk
  · intro i hi
    obtain ⟨h1, h2⟩ := h.stale i hi
    refine ⟨by simp only; omega, ?_⟩
    intro s hs
    simp only [Store.segs] at hs
    rcases List.mem_append.1 hs with hs | hs
    · exact h2 s (by simp [Store.segs, hs])
    · simp only [List.mem_singleton] at hs; subst hs; simp only; omega

/-- Dropping a segment that is not in the cache. -/
theorem drop_spec {st : Store R} {a b : List (Segment R)} {s : Segment R} (h : Inv st (a ++ s :: b)) (hc : ∀ n ∈ st.cache.xs, n.value ≠ s) :
    Inv (st.drop s.id) (a ++ b) := by
  have hsegs : st.segs (a ++ s :: b) = a ++ s :: (b ++ [st.builder]) := by simp [Store.segs]
  have hids := h.ids
  have hgood := h.good
  have ht := h.tracks
  rw [hsegs] at hids hgood ht
  obtain ⟨k1, k2⟩ := tracks_erase h.wf ht hids
  have hsegs' : (st.drop s.id).segs (a ++ b) = a ++ (b ++ [st.builder]) := by simp [Store.segs, Store.drop]
  have hmem : ∀ x ∈ a ++ (b ++ [st.builder]), x ∈ st.segs (a ++ s :: b) ∧ x.id ≠ s.id := by
    intro x hx
    obtain ⟨_, h2, h3⟩ := List.pairwise_append.1 hids
    rw [hsegs]
    rcases List.mem_append.1 hx with hx | hx
    · exact ⟨by simp [hx], h3 x hx s (by simp)⟩
    · exact ⟨List.mem_append.2 (Or.inr (List.mem_cons_of_mem _ hx)), fun e => (List.pairwise_cons.1 h2).1 x hx e.symm⟩
  have hlive : ∀ x, x ∈ a ++ s :: b → x ≠ s → x ∈ a ++ b := by
    intro x hx hn
    simp only [List.mem_append, List.mem_cons] at hx ⊢
    rcases hx with h | rfl | h
    · exact Or.inl h
    · exact absurd rfl hn
    · exact Or.inr h
  constructor
  · rw [hsegs']
    have := good_replace (c := []) hgood (by simpa [allSlices] using good_nil) (by simp [allSlices, allEvents])
    simpa using this
  · rw [hsegs']
    exact hids.sublist (by simp)
  · intro x hx
    rw [hsegs'] at hx
    exact h.fresh x (hmem x hx).1
  · exact k1
  · rw [hsegs']; exact k2
  · exact h.cache
  · intro n hn
    obtain ⟨h1, h2⟩ := h.cached n hn
    exact ⟨h1, hlive _ h2 (hc n hn)⟩
  · intro x hx
    exact h.files x (by simp only [List.mem_append, List.mem_cons] at hx ⊢; rcases hx with h | h <;> simp [h])
  · exact h.names
  · exact h.named
  · intro f hf
    simp only [Store.drop, List.mem_cons]
    rcases h.disk f hf with h1 | h1
    · by_cases hfs : f.2 = s
      · exact Or.inr (Or.inl (by rw [(h.named f hf).1, hfs]))
      · exact Or.inl (hlive _ h1 hfs)
    · exact Or.inr (Or.inr h1)
  · intro i hi
    rw [hsegs']
    rcases List.mem_cons.1 hi with rfl | hi
    · exact ⟨h.fresh s (by simp [Store.segs]), fun x hx => (hmem x hx).2⟩
    · obtain ⟨h1, h2⟩ := h.stale i hi
      exact ⟨h1, fun x hx => h2 x (hmem x hx).1⟩

/-- Replacing a segment that is not in the cache. -/
theorem replace_spec {st : Store R} {a b : List (Segment R)} {s : Segment R} (h : Inv st (a ++ s :: b)) (hc : ∀ n ∈ st.cache.xs, n.value ≠ s)
    {new : List (Slice R)} (hn : Good new) (hsub : (allEvents new).Sublist (allEvents s.slices)) :
    Inv (st.replace s.id new true) (a ++ ⟨st.nextId, new⟩ :: b) := by
  have hsegs : st.segs (a ++ s :: b) = a ++ s :: (b ++ [st.builder]) := by simp [Store.segs]
  have hids := h.ids
  have hgood := h.good
  have ht := h.tracks
  rw [hsegs] at hids hgood ht
  obtain ⟨k1, k2⟩ := tracks_replace h.wf ht hids hgood (id := st.nextId) hn hsub
  have hsegs' : (st.replace s.id new true).segs (a ++ ⟨st.nextId, new⟩ :: b) = a ++ ⟨st.nextId, new⟩ :: (b ++ [st.builder]) := by
    simp [Store.segs, Store.replace]
  have hmem : ∀ x ∈ a ++ (b ++ [st.builder]), x ∈ st.segs (a ++ s :: b) ∧ x.id ≠ s.id ∧ x.id < st.nextId := by
    intro x hx
    obtain ⟨_, h2, h3⟩ := List.pairwise_append.1 hids
    have hx' : x ∈ st.segs (a ++ s :: b) := by
      rw [hsegs]
      rcases List.mem_append.1 hx with hx | hx
      · exact List.mem_append.2 (Or.inl hx)
      · exact List.mem_append.2 (Or.inr (List.mem_cons_of_mem _ hx))
    refine ⟨hx', ?_, h.fresh x hx'⟩
    rcases List.mem_append.1 hx with hx | hx
    · exact h3 x hx s (by simp)
    · exact fun e => (List.pairwise_cons.1 h2).1 x hx e.symm
  have hcases : ∀ x ∈ a ++ (⟨st.nextId, new⟩ : Segment R) :: (b ++ [st.builder]), x = ⟨st.nextId, new⟩ ∨ x ∈ a ++ (b ++ [st.builder]) := by
    intro x hx
    simp only [List.mem_append, List.mem_cons] at hx ⊢
    rcases hx with h | h | h
    · exact Or.inr (Or.inl h)
    · exact Or.inl h
    · exact Or.inr (Or.inr h)
  have hlive : ∀ x, x ∈ a ++ s :: b → x ≠ s → x ∈ a ++ (⟨st.nextId, new⟩ : Segment R) :: b := by
    intro x hx hn
    simp only [List.mem_append, List.mem_cons] at hx ⊢
    rcases hx with h | rfl | h
    · exact Or.inl h
    · exact absurd rfl hn
    · exact Or.inr (Or.inr h)
  have hnext : (st.replace s.id new true).nextId = st.nextId + 1 := rfl
  constructor
  · rw [hsegs']
    have := good_replace (c := [⟨st.nextId, new⟩]) hgood (by simpa [allSlices] using hn) (by simpa [allSlices] using hsub)
    simpa using this
  · rw [hsegs']
    obtain ⟨h1, h2, h3⟩ := List.pairwise_append.1 hids
    refine List.pairwise_append.2 ⟨h1, List.pairwise_cons.2 ⟨?_, (List.pairwise_cons.1 h2).2⟩, ?_⟩
    · intro x hx
      have := (hmem x (List.mem_append.2 (Or.inr hx))).2.2
      simp only; omega
    · intro x hx y hy
      rcases List.mem_cons.1 hy with rfl | hy
      · have := (hmem x (List.mem_append.2 (Or.inl hx))).2.2
        simp only; omega
      · exact h3 x hx y (List.mem_cons_of_mem _ hy)
  · intro x hx
    rw [hsegs'] at hx
    rw [hnext]
    rcases hcases x hx with rfl | hx
    · simp only; omega
    · have := (hmem x hx).2.2; omega
  · exact k1
  · rw [hsegs']; exact k2
  · exact h.cache
  · intro n hn
    obtain ⟨h1, h2⟩ := h.cached n hn
    exact ⟨h1, hlive _ h2 (hc n hn)⟩
  · intro x hx
    simp only [Store.replace, if_true]
    simp only [List.mem_append, List.mem_cons] at hx
    rcases hx with hx | rfl | hx
    · exact List.mem_cons_of_mem _ (h.files x (by simp [hx]))
    · simp
    · exact List.mem_cons_of_mem _ (h.files x (by simp [hx]))
  · simp only [Store.replace, if_true]
    refine List.pairwise_cons.2 ⟨?_, h.names⟩
    intro f hf
    have := (h.named f hf).2
    simp only; omega
  · intro f hf
    rw [hnext]
    simp only [Store.replace, if_true] at hf
    rcases List.mem_cons.1 hf with rfl | hf
    · exact ⟨rfl, by simp only; omega⟩
    · have := h.named f hf
      exact ⟨this.1, by omega⟩
  · intro f hf
    simp only [Store.replace, if_true] at hf
    simp only [Store.replace]
    rcases List.mem_cons.1 hf with rfl | hf
    · exact Or.inl (by simp)
    rcases h.disk f hf with h1 | h1
    · by_cases hfs : f.2 = s
      · exact Or.inr (List.mem_cons.2 (Or.inl (by rw [(h.named f hf).1, hfs])))
      · exact Or.inl (hlive _ h1 hfs)
    · exact Or.inr (List.mem_cons.2 (Or.inr h1))
  · intro i hi
    rw [hsegs', hnext]
    rcases List.mem_cons.1 hi with rfl | hi
    · have hsf := h.fresh s (by simp [Store.segs])
      refine ⟨by omega, ?_⟩
      intro x hx
      rcases hcases x hx with rfl | hx
      · simp only; omega
      · exact (hmem x hx).2.1
    · obtain ⟨h1, h2⟩ := h.stale i hi
      refine ⟨by omega, ?_⟩
      intro x hx
      rcases hcases x hx with rfl | hx
      · simp only; omega
      · exact h2 x (hmem x hx).1

/-- Erasing from a segment that is not in the cache. -/
theorem eraseSegment_spec {st : Store R} {a b : List (Segment R)} {s : Segment R} (h : Inv st (a ++ s :: b)) (hc : ∀ n ∈ st.cache.xs, n.value ≠ s)
    (hne : s.slices ≠ []) {xs : EwahBitmap} {l : List Bool} (hx : Represents xs l) :
    ∃ n st' repl, st.eraseSegment s xs true = some (n, st') ∧ Inv st' (a ++ repl ++ b) ∧ st'.numEvents = st.numEvents ∧ st'.builder = st.builder ∧
      st'.cache = st.cache ∧
      allEvents (allSlices repl) = (allEvents s.slices).filter (fun e => !(l[e.2]? == some true)) ∧
      n + (allEvents (allSlices repl)).length = (allEvents s.slices).length := by
  have hgs : Good s.slices := good_segment h.good (by simp [Store.segs])
  obtain ⟨new, g1, g2, g3⟩ := shrink_spec hgs hne hx
  have hsub : (allEvents new).Sublist (allEvents s.slices) := by rw [g3]; exact List.filter_sublist
  have hle := hsub.length_le
  rw [Store.eraseSegment, g1]
  by_cases hnew : new = []
  · subst hnew
    refine ⟨_, _, [], rfl, ?_, rfl, rfl, rfl, g3, by simp [allEvents, allSlices]⟩
    simp only [if_true, List.append_nil]
    exact drop_spec h hc
  · refine ⟨(allEvents s.slices).length - (allEvents new).length, st.replace s.id new true, [⟨st.nextId, new⟩], by simp only [Option.map_some, if_neg hnew], ?_, rfl, rfl, rfl, ?_, ?_⟩
    · have := replace_spec h hc g2 hsub
      simpa using this
    · simpa [allSlices] using g3
    · simp only [allSlices, List.flatMap_cons, List.flatMap_nil, List.append_nil]; omega

/-- The same state without some cached segments. -/
theorem eraseSegment_cache (st : Store R) (c : Cache Nat (Segment R)) (s : Segment R) (xs : EwahBitmap) (ok : Bool) :
    Store.eraseSegment { st with cache := c } s xs ok = (st.eraseSegment s xs ok).map fun r => (r.1, { r.2 with cache := c }) := by
  simp only [Store.eraseSegment, Option.map_map]
  congr 1
  funext r
  simp only [Function.comp, Store.drop, Store.replace]
  split <;> rfl

theorem eraseOne_spec {st : Store R} {a b : List (Segment R)} {s : Segment R} (h : Inv st (a ++ s :: b))
    (hne : s.slices ≠ []) {xs : EwahBitmap} {l : List Bool} (hx : Represents xs l) :
    ∃ n st' repl, st.eraseOne xs true s.id = some (n, st') ∧ Inv st' (a ++ repl ++ b) ∧ st'.numEvents = st.numEvents ∧ st'.builder = st.builder ∧
      allEvents (allSlices repl) = (allEvents s.slices).filter (fun e => !(l[e.2]? == some true)) ∧
      n + (allEvents (allSlices repl)).length = (allEvents s.slices).length := by
  have hs : s ∈ a ++ s :: b := by simp
  rw [Store.eraseOne]
  obtain ⟨r, c', g1, g2, g3, g4, g5⟩ := cache_find h.cache s.id
  rw [g1]
  cases r with
  | some n =>
    obtain ⟨k1, k2⟩ := g4 n rfl
    have hn : n.value = s := by
      obtain ⟨k3, k4⟩ := h.cached n k1
      exact id_inj h.ids (List.mem_append.2 (Or.inl k4)) (List.mem_append.2 (Or.inl hs)) (by rw [← k3, k2])
    obtain ⟨e1, e2⟩ := cache_eraseAt g2 ((g3 n).2 k1)
    -- erase from the cache first
    have hi : Inv { st with cache := c'.eraseAt n.addr } (a ++ s :: b) :=
      inv_cache h e1 fun m hm => h.cached m ((g3 m).1 ((e2 m).1 hm).1)
    obtain ⟨cnt, st', repl, p1, p2, p3, p4, p5, p6, p7⟩ := eraseSegment_spec hi (by
      intro m hm hms
      obtain ⟨q1, q2⟩ := (e2 m).1 hm
      apply q2
      rw [(h.cached m ((g3 m).1 q1)).1, hms, k2]) hne hx
    refine ⟨cnt, st', repl, ?_, p2, p3, p4, p6, p7⟩
    simp only [hn]
    rw [eraseSegment_cache] at p1 ⊢
    rw [Option.map_map]
    cases hq : st.eraseSegment s xs true with
    | none => rw [hq] at p1; simp at p1
    | some q =>
      rw [hq] at p1
      simp only [Option.map_some, Option.some.injEq] at p1 ⊢
      rw [← p1]; rfl
  | none =>
    obtain ⟨rfl, g6⟩ := g5 rfl
    simp only
    rw [if_neg (not_builder h hs), load_spec h hs]
    obtain ⟨cnt, st', repl, p1, p2, p3, p4, p5, p6, p7⟩ := eraseSegment_spec h (by
      intro m hm hms
      apply g6 m hm
      rw [(h.cached m hm).1, hms]) hne hx
    exact ⟨cnt, st', repl, p1, p2, p3, p4, p6, p7⟩

theorem eraseOne_builder {st : Store R} {live : List (Segment R)} (h : Inv st live) (hne : st.builder.slices ≠ [])
    {xs : EwahBitmap} {l : List Bool} (hx : Represents xs l) :
    ∃ n st', st.eraseOne xs true st.builder.id = some (n, st') ∧ Inv st' live ∧ st'.numEvents = st.numEvents ∧
      allEvents st'.builder.slices = (allEvents st.builder.slices).filter (fun e => !(l[e.2]? == some true)) ∧
      n + (allEvents st'.builder.slices).length = (allEvents st.builder.slices).length := by
  rw [Store.eraseOne]
  obtain ⟨r, c', g1, g2, g3, g4, g5⟩ := cache_find h.cache st.builder.id
  rw [g1]
  cases r with
  | some n =>
    obtain ⟨k1, k2⟩ := g4 n rfl
    obtain ⟨k3, k4⟩ := h.cached n k1
    exact absurd (k3.symm.trans k2) (not_builder h k4)
  | none =>
    simp only [if_true]
    exact eraseBuilder_spec h hne hx

theorem filter_unhit {l : List Bool} {evs : List (R × Nat)} (h : ¬ hits l evs = true) :
    evs.filter (fun e => !(l[e.2]? == some true)) = evs := by
  rw [List.filter_eq_self]
  intro e he
  have : ¬ l[e.2]? = some true := fun h1 => h (hits_iff.2 ⟨e, he, h1⟩)
  simpa using this

theorem slices_of_hits {l : List Bool} {s : Segment R} (h : hits l (allEvents s.slices) = true) : s.slices ≠ [] := by
  intro h0
  rw [h0] at h
  simp [allEvents, hits] at h

theorem eraseLoop_spec {xs : EwahBitmap} {l : List Bool} (hx : Represents xs l) : ∀ (suf pre : List (Segment R)) (st : Store R), Inv st (pre ++ suf) →
    ∃ n st' live', st.eraseLoop xs true (((suf ++ [st.builder]).filter fun s => hits l (allEvents s.slices)).map (·.id)) = some (n, st') ∧
      Inv st' live' ∧ st'.numEvents = st.numEvents ∧
      allEvents (allSlices (st'.segs live')) = allEvents (allSlices pre) ++
        (allEvents (allSlices (suf ++ [st.builder]))).filter (fun e => !(l[e.2]? == some true)) ∧
      n + (allEvents (allSlices (st'.segs live'))).length = (allEvents (allSlices (st.segs (pre ++ suf)))).length := by
  intro suf
  induction suf with
  | nil =>
    intro pre st h
    rw [List.append_nil] at h
    have hlen : (allEvents (allSlices (st.segs pre))).length = (allEvents (allSlices pre)).length + (allEvents st.builder.slices).length := by
      simp [Store.segs, allSlices, allEvents]
    simp only [List.nil_append, List.append_nil]
    by_cases hb : hits l (allEvents st.builder.slices) = true
    · obtain ⟨n, st', g1, g2, g3, g4, g5⟩ := eraseOne_builder h (slices_of_hits hb) hx
      refine ⟨n, st', pre, ?_, g2, g3, ?_, ?_⟩
      · rw [List.filter_cons, if_pos hb]
        simp only [List.filter_nil, List.map_cons, List.map_nil, Store.eraseLoop, g1, Option.bind_eq_bind, Option.bind_some, Nat.add_zero]
      · simp only [Store.segs, allSlices_append, allEvents_append]
        simp only [allSlices, List.flatMap_cons, List.flatMap_nil, List.append_nil, g4]
      · rw [hlen]
        have : (allEvents (allSlices (st'.segs pre))).length = (allEvents (allSlices pre)).length + (allEvents st'.builder.slices).length := by
          simp [Store.segs, allSlices, allEvents]
        omega
    · refine ⟨0, st, pre, ?_, h, rfl, ?_, by omega⟩
      · rw [List.filter_cons, if_neg hb]
        rfl
      · simp only [Store.segs, allSlices_append, allEvents_append]
        simp only [allSlices, List.flatMap_cons, List.flatMap_nil, List.append_nil, filter_unhit hb]
  | cons s suf ih =>
    intro pre st h
    by_cases hb : hits l (allEvents s.slices) = true
    · obtain ⟨n, st1, repl, g1, g2, g3, g4, g5, g6⟩ := eraseOne_spec h (slices_of_hits hb) hx
      obtain ⟨n', st', live', k1, k2, k3, k4, k5⟩ := ih (pre ++ repl) st1 g2
      rw [g4] at k1 k4
      refine ⟨n + n', st', live', ?_, k2, k3.trans g3, ?_, ?_⟩
      · rw [List.cons_append, List.filter_cons, if_pos hb, List.map_cons]
        simp only [Store.eraseLoop, g1, k1, Option.bind_eq_bind, Option.bind_some]
      · rw [k4]
        simp only [List.cons_append, allSlices_append, allSlices_cons, allEvents_append, List.filter_append, g5, List.append_assoc]
      · simp only [Store.segs, g4] at k5 ⊢
        simp only [allSlices_append, allSlices_cons, allEvents_append, List.length_append] at k5 ⊢
        omega
    · rw [show pre ++ s :: suf = (pre ++ [s]) ++ suf by simp] at h
      obtain ⟨n', st', live', k1, k2, k3, k4, k5⟩ := ih (pre ++ [s]) st h
      refine ⟨n', st', live', ?_, k2, k3, ?_, ?_⟩
      · rw [List.cons_append, List.filter_cons, if_neg hb]; exact k1
      · rw [k4]
        simp only [List.cons_append, allSlices_append, allSlices_cons, allEvents_append, List.filter_append, filter_unhit hb]
        simp [allSlices, allEvents]
      · rw [show pre ++ s :: suf = (pre ++ [s]) ++ suf by simp]; exact k5

theorem erase_spec {st : Store R} {live : List (Segment R)} (h : Inv st live) (hn : st.numEvents = (allEvents (allSlices (st.segs live))).length)
    {xs : EwahBitmap} {l : List Bool} (hx : Represents xs l) :
    ∃ st' live', st.erase xs true = some st' ∧ Inv st' live' ∧ st'.numEvents = (allEvents (allSlices (st'.segs live'))).length ∧
      allEvents (allSlices (st'.segs live')) = (allEvents (allSlices (st.segs live))).filter (fun e => !(l[e.2]? == some true)) := by
  obtain ⟨n, st', live', g1, g2, g3, g4, g5⟩ := eraseLoop_spec hx live [] st h
  have h1 := candidates_spec h.wf h.good h.ids h.tracks hx
  rw [List.nil_append] at g5
  refine ⟨{ st' with numEvents := st'.numEvents - n }, live', ?_, ?_, ?_, ?_⟩
  · simp only [Store.erase, Store.selectSegments, h1, Option.bind_eq_bind, Option.bind_some]
    simp only [Store.segs, g1, Option.bind_some]
    rw [if_neg (by omega)]
  · exact ⟨g2.good, g2.ids, g2.fresh, g2.wf, g2.tracks, g2.cache, g2.cached, g2.files, g2.names, g2.named, g2.disk, g2.stale⟩
  · show st'.numEvents - n = (allEvents (allSlices (st'.segs live'))).length
    omega
  · show allEvents (allSlices (st'.segs live')) = _
    rw [g4]; rfl

theorem release_spec {st : Store R} {live : List (Segment R)} (h : Inv st live) (id : Nat) : Inv (st.release id) live := by
  rw [Store.release]
  split
  · next hid =>
    refine ⟨h.good, h.ids, h.fresh, h.wf, h.tracks, h.cache, h.cached, ?_, h.names.filter _, ?_, ?_, ?_⟩
    · intro s hs
      refine List.mem_filter.2 ⟨h.files s hs, ?_⟩
      simpa using (h.stale id hid).2 s (by simp [Store.segs, hs])
    · intro f hf; exact h.named f (List.mem_filter.1 hf).1
    · intro f hf
      obtain ⟨h1, h2⟩ := List.mem_filter.1 hf
      rcases h.disk f h1 with h3 | h3
      · exact Or.inl h3
      · exact Or.inr (List.mem_filter.2 ⟨h3, h2⟩)
    · intro i hi; exact h.stale i (List.mem_filter.1 hi).1
  · exact h

end Verif.Archive
