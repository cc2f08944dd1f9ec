import Verif.Archive.Spec
import Verif.Archive.StoreLemmas

/-!
# C30, C31: the archive

`C30_history_partial`: for every history of `put`, `flush`, `erase`, `get` and release of segments, every cache capacity and every choice
of segment boundaries: all calls succeed, and every `get` returns the right events. Missing for the full
property: slices whose IDs are not larger than all IDs in the store, and failing writes (see the refutations
below).

`C31_reopen_partial`: a store is closed at any point of such a history without files that await their deletion; then it is
opened again and the history goes on.
-/

namespace Verif.Archive

open Verif.Bitmap Verif.Bitmap.Spec Verif.Slice Verif.Cache
open Verif.RangeMap (Entry Map WF Holds)

variable {R : Type}

/-! ## Refinement -/

/-- A state of the model means some contents. -/
structure Rel (st : Store R) (c : Spec.Contents R) : Prop where
  segs : ∃ live, Inv st live ∧ allEvents (allSlices live) = c.flushed
  pending : allEvents st.builder.slices = c.pending
  count : st.numEvents = c.all.length

theorem segs_events (st : Store R) (live : List (Segment R)) :
    allEvents (allSlices (st.segs live)) = allEvents (allSlices live) ++ allEvents st.builder.slices := by
  simp [Store.segs, allSlices, allEvents]

theorem rel_all {st : Store R} {c : Spec.Contents R} {live : List (Segment R)} (h1 : allEvents (allSlices live) = c.flushed)
    (h2 : allEvents st.builder.slices = c.pending) : allEvents (allSlices (st.segs live)) = c.all := by
  rw [segs_events, h1, h2]; rfl

theorem allEvents_spec (r : List (Slice R)) : r.flatMap Spec.events = allEvents r := rfl

/-- What `get` returns, from the slices of the store. -/
theorem get_answer {slices out : List (Slice R)} (hg : Good slices) (e : Expr)
    (hp : out.Perm (slices.filter fun t => hits e.bits t.events)) :
    ((out.flatMap Spec.events).filter (Spec.selected e)).Perm ((allEvents slices).filter (Spec.selected e)) ∧
      (∀ x ∈ out.flatMap Spec.events, x ∈ allEvents slices) ∧ ((out.flatMap Spec.events).map (·.2)).Nodup ∧
      ∀ s ∈ out, ∃ x ∈ Spec.events s, Spec.selected e x = true := by
  have h1 : (out.flatMap Spec.events).Perm (allEvents (slices.filter fun t => hits e.bits t.events)) := hp.flatMap_right _
  have hsub : (allEvents (slices.filter fun t => hits e.bits t.events)).Sublist (allEvents slices) := by
    clear h1 hp hg
    induction slices with
    | nil => simp [allEvents]
    | cons s l ih =>
      rw [List.filter_cons]
      split
      · rw [allEvents_cons, allEvents_cons]; exact (List.Sublist.refl _).append ih
      · rw [allEvents_cons]; exact ih.trans (List.sublist_append_right _ _)
  refine ⟨?_, ?_, ?_, ?_⟩
  · refine (h1.filter _).trans (List.Perm.of_eq ?_)
    clear h1 hp hg hsub
    induction slices with
    | nil => rfl
    | cons s l ih =>
      rw [allEvents_cons, List.filter_append, List.filter_cons]
      split
      · rw [allEvents_cons, List.filter_append, ih]
      · next hn =>
        have : s.events.filter (Spec.selected e) = [] := by
          rw [List.filter_eq_nil_iff]
          intro x hx hs
          exact hn (hits_iff.2 ⟨x, hx, by simpa [Spec.selected] using hs⟩)
        rw [this, ih]; rfl
  · intro x hx
    exact hsub.subset (h1.mem_iff.1 hx)
  · refine (h1.map (fun x : R × Nat => x.2)).nodup_iff.2 ?_
    have := hg.asc.sublist hsub
    rw [List.Nodup, List.pairwise_map]
    exact this.imp fun h => Nat.ne_of_lt h
  · intro s hs
    obtain ⟨_, h2⟩ := List.mem_filter.1 (hp.mem_iff.1 hs)
    obtain ⟨x, hx, hl⟩ := hits_iff.1 h2
    exact ⟨x, hx, by simpa [Spec.selected] using hl⟩

theorem rel_put {st : Store R} {c : Spec.Contents R} (h : Rel st c) {s : Slice R} (hs : s.rows ≠ []) (hb : s.offset + s.rows.length < 2 ^ 64)
    (hnew : ∀ x ∈ c.all, x.2 < s.offset) :
    (RangeMap.inject st.segments s.offset (add64 s.offset s.rows.length) st.builder.id).2 = true ∧
      Rel (st.added s) { c with pending := c.pending ++ Spec.events s } := by
  obtain ⟨⟨live, h1, h2⟩, h3, h4⟩ := h
  have h5 := rel_all h2 h3
  obtain ⟨g1, g2, _⟩ := added_spec h1 hs hb (by rw [h5]; exact hnew)
  refine ⟨g1, ⟨live, g2, h2⟩, ?_, ?_⟩
  · simp only [Store.added, allEvents_append, h3]
    simp [allEvents, Spec.events, Slice.events]
  · simp only [Store.added, h4, Spec.Contents.all, List.length_append, Spec.events, List.length_zipIdx]; omega

theorem rel_flush {st : Store R} {c : Spec.Contents R} (h : Rel st c) :
    ∃ st', st.flush true = some (true, st') ∧ Rel st' ⟨c.flushed ++ c.pending, []⟩ := by
  obtain ⟨⟨live, h1, h2⟩, h3, h4⟩ := h
  obtain ⟨st', live', g1, g2, g3, g4, g5, _⟩ := flush_spec h1
  have h5 := rel_all h2 h3
  refine ⟨st', g1, ⟨live', g2, ?_⟩, by rw [g5]; rfl, ?_⟩
  · have h6 := segs_events st' live'
    rw [g4, h5, g5] at h6
    simpa [allEvents, Spec.Contents.all] using h6.symm
  · rw [g3, h4]; simp [Spec.Contents.all]

/-- Erasing keeps the IDs of the segments ascending, so the erased contents can be told apart. -/
theorem split_filter {A : Type} {a b a' b' : List A} {p : A → Bool} (h : a' ++ b' = (a ++ b).filter p) (hb : b' = b.filter p) :
    a' = a.filter p := by
  rw [List.filter_append, hb] at h
  exact List.append_cancel_right h

theorem eraseLoop_builder {xs : EwahBitmap} {l : List Bool} (hx : Represents xs l) : ∀ (suf pre : List (Segment R)) (st : Store R), Inv st (pre ++ suf) →
    ∀ n st', st.eraseLoop xs true (((suf ++ [st.builder]).filter fun s => hits l (allEvents s.slices)).map (·.id)) = some (n, st') →
      allEvents st'.builder.slices = (allEvents st.builder.slices).filter (fun e => !(l[e.2]? == some true)) := by
  intro suf
  induction suf with
  | nil =>
    intro pre st h n st' he
    rw [List.append_nil] at h
    rw [List.nil_append] at he
    by_cases hb : hits l (allEvents st.builder.slices) = true
    · obtain ⟨n1, st1, g1, _, _, g4, _⟩ := eraseOne_builder h (slices_of_hits hb) hx
      rw [List.filter_cons, if_pos hb] at he
      simp only [List.filter_nil, List.map_cons, List.map_nil, Store.eraseLoop, g1, Option.bind_eq_bind, Option.bind_some,
        Option.some.injEq, Prod.mk.injEq] at he
      rw [← he.2]; exact g4
    · rw [List.filter_cons, if_neg hb] at he
      simp only [List.filter_nil, List.map_nil, Store.eraseLoop, Option.some.injEq, Prod.mk.injEq] at he
      rw [← he.2]; exact (filter_unhit hb).symm
  | cons s suf ih =>
    intro pre st h n st' he
    by_cases hb : hits l (allEvents s.slices) = true
    · obtain ⟨n1, st1, repl, g1, g2, g3, g4, g5, g6⟩ := eraseOne_spec h (slices_of_hits hb) hx
      obtain ⟨n2, st2, live', k1, _⟩ := eraseLoop_spec hx suf (pre ++ repl) st1 g2
      have := ih (pre ++ repl) st1 g2 n2 st2 k1
      rw [g4] at k1 this
      rw [List.cons_append, List.filter_cons, if_pos hb, List.map_cons] at he
      simp only [Store.eraseLoop, g1, k1, Option.bind_eq_bind, Option.bind_some, Option.some.injEq, Prod.mk.injEq] at he
      rw [← he.2]; exact this
    · rw [show pre ++ s :: suf = (pre ++ [s]) ++ suf by simp] at h
      rw [List.cons_append, List.filter_cons, if_neg hb] at he
      exact ih (pre ++ [s]) st h n st' he

theorem rel_erase {st : Store R} {c : Spec.Contents R} (h : Rel st c) {xs : EwahBitmap} {e : Expr} (hx : Represents xs e.bits) :
    ∃ st', st.erase xs true = some st' ∧
      Rel st' ⟨c.flushed.filter fun x => !Spec.selected e x, c.pending.filter fun x => !Spec.selected e x⟩ := by
  obtain ⟨⟨live, h1, h2⟩, h3, h4⟩ := h
  have h5 := rel_all h2 h3
  obtain ⟨st', live', g1, g2, g3, g4⟩ := erase_spec h1 (by rw [h5]; exact h4) hx
  have hb : allEvents st'.builder.slices = c.pending.filter fun x => !Spec.selected e x := by
    have h6 := candidates_spec h1.wf h1.good h1.ids h1.tracks hx
    obtain ⟨n, st1, _, k1, _⟩ := eraseLoop_spec hx live [] st h1
    have k2 := eraseLoop_builder hx live [] st h1 n st1 k1
    simp only [Store.erase, Store.selectSegments, h6, Option.bind_eq_bind, Option.bind_some] at g1
    simp only [Store.segs, k1, Option.bind_some] at g1
    split at g1
    · simp at g1
    · injection g1 with g1
      rw [← g1, ← h3]; exact k2
  have hall : allEvents (allSlices (st'.segs live')) = c.all.filter fun x => !Spec.selected e x := by rw [g4, h5]; rfl
  refine ⟨st', g1, ⟨live', g2, ?_⟩, hb, ?_⟩
  · rw [segs_events] at hall
    exact split_filter hall hb
  · rw [g3, hall, Spec.Contents.all, List.filter_append]; rfl

theorem rel_step {st : Store R} {c : Spec.Contents R} (h : Rel st c) (call : Spec.Call R) (ha : call.allowed c) :
    ∃ op out st', call.op = some op ∧ st.step true op = some (out, st') ∧ call.answer c out ∧ Rel st' (call.apply c) := by
  cases call with
  | put s full =>
    obtain ⟨hs, hb, hn⟩ := ha
    obtain ⟨g1, g2⟩ := rel_put h hs hb hn
    cases full with
    | false =>
      refine ⟨_, .status true, st.added s, rfl, ?_, rfl, g2⟩
      simp [Store.step, Store.put, g1]
    | true =>
      obtain ⟨st', g3, g4⟩ := rel_flush g2
      refine ⟨_, .status true, st', rfl, ?_, rfl, ?_⟩
      · simp [Store.step, Store.put, g1, g3]
      · simpa [Spec.Call.apply] using g4
  | flush =>
    obtain ⟨st', g1, g2⟩ := rel_flush h
    exact ⟨_, .status true, st', rfl, by simp [Store.step, g1], rfl, g2⟩
  | erase e =>
    obtain ⟨xs, h1, h2⟩ := eval_rep (show e.valid from ha)
    obtain ⟨st', g1, g2⟩ := rel_erase h h2
    exact ⟨.erase xs, .status true, st', by simp [Spec.Call.op, h1], by simp [Store.step, g1], rfl, g2⟩
  | get e =>
    obtain ⟨xs, h1, h2⟩ := eval_rep (show e.valid from ha)
    obtain ⟨⟨live, k1, k2⟩, k3, k4⟩ := h
    obtain ⟨out, cc, g1, g2, g3⟩ := get_spec k1 h2
    refine ⟨.get xs, .slices (some out), _, by simp [Spec.Call.op, h1], by simp only [Store.step, g1, Option.map_some], ?_, ⟨live, g2, k2⟩, k3, k4⟩
    obtain ⟨a1, a2, a3, a4⟩ := get_answer k1.good e g3
    rw [rel_all k2 k3] at a1 a2
    exact ⟨out, rfl, a1, a2, a3, a4⟩
  | release id =>
    obtain ⟨⟨live, k1, k2⟩, k3, k4⟩ := h
    have hb : (st.release id).builder = st.builder := by unfold Store.release; split <;> rfl
    have hn : (st.release id).numEvents = st.numEvents := by unfold Store.release; split <;> rfl
    exact ⟨_, .status true, st.release id, rfl, rfl, rfl, ⟨live, release_spec k1 id, k2⟩, by rw [hb]; exact k3, by rw [hn]; exact k4⟩

theorem rel_run : ∀ (calls : List (Spec.Call R)) (st : Store R) (c : Spec.Contents R), Rel st c → Spec.Allowed c calls →
    ∃ outs st', Spec.run st calls = some (outs, st') ∧ Spec.Answers c calls outs ∧ Rel st' (Spec.applyAll c calls) := by
  intro calls
  induction calls with
  | nil => intro st c h _; exact ⟨[], st, rfl, rfl, h⟩
  | cons call calls ih =>
    intro st c h ha
    obtain ⟨op, out, st1, g1, g2, g3, g4⟩ := rel_step h call ha.1
    obtain ⟨outs, st', k1, k2, k3⟩ := ih st1 _ g4 ha.2
    refine ⟨out :: outs, st', ?_, ⟨g3, k2⟩, k3⟩
    simp only [Spec.run, Option.bind_eq_bind] at k1 ⊢
    cases ho : calls.mapM Spec.Call.op with
    | none => rw [ho] at k1; simp at k1
    | some ops =>
      rw [ho, Option.bind_some] at k1
      simp only [List.mapM_cons, g1, ho, Option.bind_eq_bind, Option.bind_some, Option.pure_def, Store.run, g2, k1]

theorem cache_make {K V : Type} [DecidableEq K] {capacity : Nat} (h : 0 < capacity) : (Cache.make capacity : Cache K V).Inv :=
  ⟨⟨by simp [Cache.make], by simp [Cache.make], by simp [Cache.make], by simp [Cache.make]⟩, by simp [Cache.make], h⟩

theorem wf_nil : WF ([] : Map Nat) := ⟨by simp, by simp, by simp⟩

theorem rel_make {capacity : Nat} (h : 0 < capacity) : Rel (Store.make capacity : Store R) ⟨[], []⟩ := by
  refine ⟨⟨[], ?_, rfl⟩, rfl, rfl⟩
  refine ⟨good_nil, List.pairwise_singleton _ _, ?_, wf_nil, ?_, cache_make h, by simp [Store.make, Cache.make], by simp, List.Pairwise.nil,
    by simp [Store.make], by simp [Store.make], by simp [Store.make]⟩
  · intro s hs
    simp [Store.segs, Store.make] at hs
    subst hs; simp [Store.make]
  · intro k v
    simp [Store.make, Holds, Store.segs, allEvents]

/-- **C30, partial.** For every history of calls, from an empty store with any positive cache capacity, in which slices come
with ever larger IDs, and in which writes succeed: every call succeeds, every `get` returns the right events, and
the number of events in the status is right. Every stored event is returned until it is erased.

Missing for the full property: slices that come out of order, failing writes and a cache without capacity (refuted below). -/
theorem C30_history_partial (capacity : Nat) (hc : 0 < capacity) (calls : List (Spec.Call R)) (h : Spec.Allowed ⟨[], []⟩ calls) :
    ∃ outs st, Spec.run (Store.make capacity) calls = some (outs, st) ∧ Spec.Answers ⟨[], []⟩ calls outs ∧
      st.numEvents = (Spec.applyAll ⟨[], []⟩ calls).all.length := by
  obtain ⟨outs, st, g1, g2, g3⟩ := rel_run calls _ _ (rel_make hc) h
  exact ⟨outs, st, g1, g2, g3.count⟩

/-! ## Restart -/

theorem register_spec {m : Map Nat} {seg : Segment R} (h : WF m) (hg : Good seg.slices) (hf : ∀ e ∈ allEvents seg.slices, ∀ v, ¬ Holds m e.2 v) :
    registerSegment m seg = some (injectAll m seg.id seg.slices) := by
  obtain ⟨id, slices⟩ := seg
  simp only [registerSegment] at *
  induction slices generalizing m with
  | nil => rfl
  | cons s slices ih =>
    obtain ⟨h1, h2, h3⟩ := inject_slice h (hg.ne s (by simp)) (hg.bound s (by simp)) id
      (fun e he => hf e (mem_allEvents.2 ⟨s, by simp, he⟩))
    rw [List.foldlM_cons, h1, if_pos rfl, Option.bind_eq_bind, Option.bind_some]
    rw [ih h2 (good_cons hg) (by
      intro e he v hv
      rw [h3] at hv
      rcases hv with hv | ⟨_, x, hx, hxe⟩
      · exact hf e (by rw [allEvents_cons]; simp [he]) v hv
      · have := ((good_append (a := [s])).1 hg).2.2 x (by simpa [allEvents] using hx) e he
        omega)]
    rfl

/-- Segments whose events have distinct IDs. -/
def Apart (segs : List (Segment R)) : Prop :=
  segs.Pairwise fun a b => ∀ x ∈ allEvents a.slices, ∀ y ∈ allEvents b.slices, x.2 ≠ y.2

theorem registerAll_spec : ∀ (fs : List (Nat × Segment R)) (m : Map Nat) (done : List (Segment R)), WF m → Tracks m done →
    Apart (done ++ fs.map (·.2)) → (∀ f ∈ fs, Good f.2.slices) →
    ∃ m', fs.foldlM (fun m f => registerSegment m f.2) m = some m' ∧ WF m' ∧ Tracks m' (done ++ fs.map (·.2)) := by
  intro fs
  induction fs with
  | nil => intro m done h ht _ _; exact ⟨m, rfl, h, by simpa using ht⟩
  | cons f fs ih =>
    intro m done h ht ha hg
    have hf : ∀ e ∈ allEvents f.2.slices, ∀ v, ¬ Holds m e.2 v := by
      intro e he v hv
      obtain ⟨t, ht1, _, x, hx, hxe⟩ := (ht _ _).1 hv
      exact (List.pairwise_append.1 ha).2.2 t ht1 f.2 (by simp) x hx e he hxe
    have hgf := hg f (by simp)
    obtain ⟨h1, h2⟩ := injectAll_spec f.2.id f.2.slices m h hgf hf
    have ht' : Tracks (injectAll m f.2.id f.2.slices) (done ++ [f.2]) := by
      intro k v
      rw [h2, ht k v]
      constructor
      · rintro (⟨s, hs, h3⟩ | ⟨rfl, h3⟩)
        · exact ⟨s, by simp [hs], h3⟩
        · exact ⟨f.2, by simp, rfl, h3⟩
      · rintro ⟨s, hs, h3, h4⟩
        rcases List.mem_append.1 hs with hs | hs
        · exact Or.inl ⟨s, hs, h3, h4⟩
        · simp only [List.mem_singleton] at hs; subst hs
          exact Or.inr ⟨h3.symm, h4⟩
    obtain ⟨m', k1, k2, k3⟩ := ih _ (done ++ [f.2]) h1 ht' (by simpa using ha) (fun f hf => hg f (by simp [hf]))
    refine ⟨m', ?_, k2, by simpa using k3⟩
    rw [List.foldlM_cons, register_spec h hgf hf, Option.bind_eq_bind, Option.bind_some, k1]

theorem rel_open {st : Store R} {c : Spec.Contents R} (h : Rel st c) (hs : st.stale = []) {capacity : Nat} (hc : 0 < capacity)
    {files : List (Nat × Segment R)} (hp : files.Perm st.files) {nextId : Nat} (hn : ∀ f ∈ files, f.1 < nextId) :
    ∃ st', Store.open capacity files nextId = some st' ∧ Rel st' ⟨c.flushed, []⟩ := by
  obtain ⟨⟨live, h1, h2⟩, h3, h4⟩ := h
  have hlg : Good (allSlices live) := by
    have := h1.good
    rw [Store.segs, allSlices_append, good_append] at this
    exact this.1
  -- the files are the live segments
  have hnames : files.Pairwise fun a b => a.1 ≠ b.1 := (hp.pairwise_iff (fun h => Ne.symm h)).2 h1.names
  have hlive : ∀ f ∈ files, f.2 ∈ live ∧ f.1 = f.2.id := by
    intro f hf
    rw [hp.mem_iff] at hf
    refine ⟨?_, (h1.named f hf).1⟩
    rcases h1.disk f hf with h | h
    · exact h
    · rw [hs] at h; simp at h
  have hids : live.Pairwise fun a b => a.id ≠ b.id := (List.pairwise_append.1 h1.ids).1
  have hperm : (files.map (·.2)).Perm live := by
    have hnd1 : (files.map (·.2)).Nodup := by
      rw [List.Nodup, List.pairwise_map]
      refine hnames.imp_of_mem ?_
      intro a b ha hb hab e
      apply hab
      rw [(hlive a ha).2, (hlive b hb).2, e]
    have hnd2 : live.Nodup := hids.imp fun h e => h (by rw [e])
    rw [List.perm_ext_iff_of_nodup hnd1 hnd2]
    intro s
    rw [List.mem_map]
    constructor
    · rintro ⟨f, hf, rfl⟩; exact (hlive f hf).1
    · intro hs
      exact ⟨(s.id, s), hp.mem_iff.2 (h1.files s hs), rfl⟩
  have hapart : Apart live := (segments_ordered hlg).imp fun h x hx y hy => Nat.ne_of_lt (h x hx y hy)
  have hapart' : Apart (files.map (·.2)) := by
    refine (hperm.pairwise_iff ?_).2 hapart
    intro a b h x hx y hy e
    exact h y hy x hx e.symm
  obtain ⟨m, g1, g2, g3⟩ := registerAll_spec files [] [] wf_nil (by simp [Tracks, Holds]) (by simpa using hapart')
    (fun f hf => good_segment hlg (hlive f hf).1)
  rw [List.nil_append] at g3
  refine ⟨_, by rw [Store.open, g1]; rfl, ⟨live, ?_, h2⟩, rfl, ?_⟩
  · have hfresh : ∀ s ∈ live, s.id < nextId := by
      intro s hs
      exact hn (s.id, s) (hp.mem_iff.2 (h1.files s hs))
    constructor
    · simp only [Store.segs, allSlices_append]
      simpa [allSlices] using hlg
    · simp only [Store.segs]
      refine List.pairwise_append.2 ⟨hids, List.pairwise_singleton _ _, ?_⟩
      intro a ha b hb
      simp only [List.mem_singleton] at hb
      subst hb
      have := hfresh a ha
      simp only; omega
    · intro s hs
      simp only [Store.segs] at hs
      rcases List.mem_append.1 hs with hs | hs
      · have := hfresh s hs; simp only; omega
      · simp only [List.mem_singleton] at hs; subst hs; simp only; omega
    · exact g2
    · intro k v
      rw [g3 k v]
      simp only [Store.segs]
      constructor
      · rintro ⟨s, hs, h⟩
        exact ⟨s, List.mem_append.2 (Or.inl (hperm.mem_iff.1 hs)), h⟩
      · rintro ⟨s, hs, h⟩
        rcases List.mem_append.1 hs with hs | hs
        · exact ⟨s, hperm.mem_iff.2 hs, h⟩
        · simp only [List.mem_singleton] at hs; subst hs
          obtain ⟨_, e, he, _⟩ := h
          simp [allEvents] at he
    · exact cache_make hc
    · simp [Cache.make]
    · intro s hs; exact hp.mem_iff.2 (h1.files s hs)
    · exact hnames
    · intro f hf
      have := hn f hf
      exact ⟨(hlive f hf).2, by simp only; omega⟩
    · intro f hf; exact Or.inl (hlive f hf).1
    · simp
  · simp only [Spec.Contents.all, List.append_nil, ← h2]
    have e1 : (files.map fun f => rowCount f.2.slices) = (files.map (·.2)).map fun s => rowCount s.slices := by simp
    rw [e1, (hperm.map fun s => rowCount s.slices).sum_nat]
    clear hperm hapart hapart' hids hlg h1 h2 hlive g3
    induction live with
    | nil => rfl
    | cons s live ih => rw [List.map_cons, List.sum_cons, ih, allSlices_cons, allEvents_append, List.length_append, rowCount_eq]

/-- **C31, partial.** A store is used for any history, and stops at any point at which no file of an erased segment awaits its deletion.
It is opened again, with any cache capacity, with the files listed in any order: it has exactly the events that
were flushed and not erased, and every further history behaves as C30 says.

A crash during `flush` leaves the store before or after its write, and so is covered as long as the write
is atomic. Missing for the full property: crashes between an erasure and the deletion of its files, which are refuted below. -/
theorem C31_reopen_partial (capacity : Nat) (hc : 0 < capacity) (calls : List (Spec.Call R)) (h : Spec.Allowed ⟨[], []⟩ calls)
    (outs : List (Out R)) (st : Store R) (hrun : Spec.run (Store.make capacity) calls = some (outs, st)) (hs : st.stale = [])
    (capacity' : Nat) (hc' : 0 < capacity') (files : List (Nat × Segment R)) (hp : files.Perm st.files) (nextId : Nat)
    (hn : ∀ f ∈ files, f.1 < nextId) (calls' : List (Spec.Call R)) (h' : Spec.Allowed ⟨(Spec.applyAll ⟨[], []⟩ calls).flushed, []⟩ calls') :
    ∃ st' outs' st'', Store.open capacity' files nextId = some st' ∧
      st'.numEvents = (Spec.applyAll ⟨[], []⟩ calls).flushed.length ∧
      Spec.run st' calls' = some (outs', st'') ∧ Spec.Answers ⟨(Spec.applyAll ⟨[], []⟩ calls).flushed, []⟩ calls' outs' := by
  obtain ⟨_, _, g1, _, g3⟩ := rel_run calls _ _ (rel_make hc) h
  rw [hrun] at g1
  injection g1 with g1
  injection g1 with g0 g1
  subst g1
  obtain ⟨st', k1, k2⟩ := rel_open g3 hs hc' hp hn
  obtain ⟨outs', st'', k3, k4, _⟩ := rel_run calls' st' _ k2 h'
  exact ⟨st', outs', st'', k1, by simpa [Spec.Contents.all] using k2.count, k3, k4⟩

/-! ## Non-vacuity -/

namespace Spec

/-- Two segments and a builder; IDs in the middle of both segments are erased. -/
def demo : List (Call Char) :=
  [.put ⟨0, ['a', 'b', 'c']⟩ false, .put ⟨10, ['d', 'e']⟩ true, .put ⟨20, ['f', 'g']⟩ true, .put ⟨30, ['h']⟩ false,
   .get (.history [.bits false 1, .bits true 10]), .erase (.history [.bits false 1, .bit true, .bits false 18, .bit true]),
   .get (.history [.bits true 40]), .release 1, .release 0, .flush]

theorem demo_allowed : Allowed ⟨[], []⟩ demo := by
  simp only [demo, Allowed, Call.allowed, Call.apply, Contents.all, events, List.zipIdx_cons, List.zipIdx_nil]
  simp [Expr.valid, Op.valid]

end Spec

/-- The answers: the first `get` returns both slices of the first segment, the second what remains. -/
example : Spec.Allowed ⟨[], []⟩ Spec.demo ∧ (Spec.run (Store.make 1) Spec.demo).map (·.1) = some
    [.status true, .status true, .status true, .status true,
     .slices (some [⟨0, ['a', 'b', 'c']⟩, ⟨10, ['d', 'e']⟩]), .status true,
     .slices (some [⟨30, ['h']⟩, ⟨0, ['a']⟩, ⟨2, ['c']⟩, ⟨10, ['d', 'e']⟩, ⟨21, ['g']⟩]), .status true, .status true, .status true] := by
  exact ⟨Spec.demo_allowed, by decide +kernel⟩

/-- At the end of this history no file awaits its deletion, and three files are left. -/
example : (Spec.run (Store.make 1) Spec.demo).map (fun r => (r.2.stale, r.2.files.map (·.1))) = some ([], [2, 4, 3]) := by
  decide +kernel

/-! ## Refutations -/

namespace Spec

/-- Slices are not empty and have new IDs. -/
def Call.disjoint (c : Contents R) : Call R → Prop
  | .put s _ => s.rows ≠ [] ∧ s.offset + s.rows.length < 2 ^ 64 ∧ ∀ x ∈ c.all, ∀ y ∈ events s, x.2 ≠ y.2
  | .erase e => e.valid
  | .get e => e.valid
  | _ => True

/-- A history of calls with disjoint slices. -/
def Disjoint : Contents R → List (Call R) → Prop
  | _, [] => True
  | c, call :: calls => call.disjoint c ∧ Disjoint (call.apply c) calls

/-- A segment with the IDs 10 to 12, and a builder with IDs below and above. -/
def interleaved : List (Call Char) :=
  [.put ⟨10, ['a', 'b']⟩ true, .put ⟨0, ['c']⟩ false, .put ⟨20, ['d']⟩ false, .get (.history [.bits true 30])]

/-- A builder with two slices in the wrong order. -/
def swapped : List (Call Char) := [.put ⟨10, ['a']⟩ false, .put ⟨0, ['b']⟩ false, .get (.history [.bits true 1])]

end Spec

/-- Slices with disjoint IDs are not enough: if the IDs of one segment lie between those of another, `get` returns the events of
the other one twice (segment_store.cpp:433 only compares with the last candidate). -/
theorem C30_interleaved_refuted : Spec.Disjoint ⟨[], []⟩ Spec.interleaved ∧
    (Spec.run (Store.make 1) Spec.interleaved).map (·.1) = some [.status true, .status true, .status true,
      .slices (some [⟨0, ['c']⟩, ⟨20, ['d']⟩, ⟨10, ['a', 'b']⟩, ⟨0, ['c']⟩, ⟨20, ['d']⟩])] ∧
    ∀ outs st, Spec.run (Store.make 1) Spec.interleaved = some (outs, st) → ¬ Spec.Answers ⟨[], []⟩ Spec.interleaved outs := by
  have h : (Spec.run (Store.make 1) Spec.interleaved).map (·.1) = some [.status true, .status true, .status true,
      .slices (some [⟨0, ['c']⟩, ⟨20, ['d']⟩, ⟨10, ['a', 'b']⟩, ⟨0, ['c']⟩, ⟨20, ['d']⟩])] := by decide +kernel
  refine ⟨?_, h, ?_⟩
  · simp only [Spec.interleaved, Spec.Disjoint, Spec.Call.disjoint, Spec.Call.apply, Spec.Contents.all, Spec.events, List.zipIdx_cons, List.zipIdx_nil]
    simp [Expr.valid, Op.valid]
  · intro outs st hr ha
    rw [hr] at h
    injection h with h
    subst h
    obtain ⟨_, _, _, ⟨r, hr', _, _, hn, _⟩, _⟩ := ha
    injection hr' with hr'
    injection hr' with hr'
    subst hr'
    revert hn
    decide

/-- Two slices in the wrong order in one builder: `get` does not find the second one, as the lookup expects ascending IDs and the
check in segment_builder.cpp:34 compares with zero. -/
theorem C30_swapped_refuted : Spec.Disjoint ⟨[], []⟩ Spec.swapped ∧
    (Spec.run (Store.make 1) Spec.swapped).map (·.1) = some [.status true, .status true, .slices (some [])] ∧
    ∀ outs st, Spec.run (Store.make 1) Spec.swapped = some (outs, st) → ¬ Spec.Answers ⟨[], []⟩ Spec.swapped outs := by
  have h : (Spec.run (Store.make 1) Spec.swapped).map (·.1) = some [.status true, .status true, .slices (some [])] := by decide +kernel
  refine ⟨?_, h, ?_⟩
  · simp only [Spec.swapped, Spec.Disjoint, Spec.Call.disjoint, Spec.Call.apply, Spec.Contents.all, Spec.events, List.zipIdx_cons, List.zipIdx_nil]
    simp [Expr.valid, Op.valid]
  · intro outs st hr ha
    rw [hr] at h
    injection h with h
    subst h
    obtain ⟨_, _, ⟨r, hr', hp, _⟩, _⟩ := ha
    injection hr' with hr'
    injection hr' with hr'
    subst hr'
    revert hp
    decide +kernel

/-- A failed write in `flush` loses accepted events: the second `flush` succeeds, `get` fails for the ID from then on, and the event is still
counted. -/
theorem C30_failed_write_refuted :
    (do
      let r ← (Store.make 1 : Store Char).put ⟨0, ['a']⟩ false true
      let r' ← r.2.flush false
      let r'' ← r'.2.flush true
      let xs ← (Expr.history [.bits true 1]).eval
      let g ← r''.2.get xs
      some ([r.1, r'.1, r''.1], g.1.isSome, g.2.numEvents)) = some ([true, false, true], false, 1) := by decide +kernel

/-- A cache without capacity: the first flushed segment is undefined behaviour. -/
theorem C30_no_capacity_refuted : Spec.Allowed ⟨[], []⟩ [Spec.Call.put (⟨0, ['a']⟩ : Slice Char) true] ∧
    Spec.run (Store.make 0) [Spec.Call.put (⟨0, ['a']⟩ : Slice Char) true] = none := by
  refine ⟨?_, by decide +kernel⟩
  simp [Spec.Allowed, Spec.Call.allowed, Spec.Contents.all]

namespace Spec

/-- A segment loses one of its events. -/
def shrunk : List (Call Char) := [.put ⟨0, ['a', 'b']⟩ true, .erase (.history [.bits true 1])]

/-- A segment loses all of its events. -/
def dropped : List (Call Char) := [.put ⟨0, ['a', 'b']⟩ true, .erase (.history [.bits true 2])]

end Spec

/-- A crash after an erasure, before the old file is deleted: both files are there, their IDs overlap, and the store cannot be
opened any more. -/
theorem C31_overlap_refuted : Spec.Allowed ⟨[], []⟩ Spec.shrunk ∧
    ∃ outs st, Spec.run (Store.make 1) Spec.shrunk = some (outs, st) ∧ Store.open 1 st.files st.nextId = none := by
  refine ⟨?_, ?_⟩
  · simp [Spec.shrunk, Spec.Allowed, Spec.Call.allowed, Spec.Contents.all, Expr.valid, Op.valid]
  · cases h : Spec.run (Store.make 1) Spec.shrunk with
    | none => exact absurd h (by decide +kernel)
    | some r =>
      refine ⟨r.1, r.2, rfl, ?_⟩
      have : (Spec.run (Store.make 1) Spec.shrunk).all (fun r => decide (Store.open 1 r.2.files r.2.nextId = none)) = true := by decide +kernel
      rw [h] at this
      simpa using this

/-- A crash after all events of a segment are erased, before its file is deleted: the erased events are back. -/
theorem C31_resurrected_refuted : Spec.Allowed ⟨[], []⟩ Spec.dropped ∧ (Spec.applyAll ⟨[], []⟩ Spec.dropped).all = [] ∧
    (do
      let r ← Spec.run (Store.make 1) Spec.dropped
      let st ← Store.open 1 r.2.files r.2.nextId
      let xs ← (Expr.history [.bits true 2]).eval
      let g ← st.get xs
      g.1) = some [⟨0, ['a', 'b']⟩] := by
  refine ⟨?_, by decide +kernel, by decide +kernel⟩
  simp [Spec.dropped, Spec.Allowed, Spec.Call.allowed, Spec.Contents.all, Expr.valid, Op.valid]

end Verif.Archive
