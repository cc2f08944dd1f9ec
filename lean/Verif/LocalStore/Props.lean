import Verif.LocalStore.Lemmas

/-!
# C43: partition-local stores
-/

namespace Verif.LocalStore

open Verif.Bitmap Verif.Bitmap.Spec Verif.Slice Verif.Archive

variable {L V : Type}

/-! ## Active stores -/

/-- An active store whose stream has not ended has the contents. -/
structure Rel (st : Active L V) (c : Spec.Contents L V) : Prop where
  proper : Spec.Proper st.builder
  events : allEvents st.builder = c.events
  fs : st.fs = true
  writes : st.writes = []
  valid : ∀ e ∈ c.erasing, e.valid
  erasing : c.erasing.mapM Expr.eval = some st.delegated
  file : st.file = none

theorem proper_append {a b : List (Slice (L × V))} (ha : Spec.Proper a) (hb : Spec.Proper b)
    (h : ∀ x ∈ allEvents a, ∀ y ∈ allEvents b, x.2 < y.2) : Spec.Proper (a ++ b) := by
  have hg := good_append.2 ⟨proper_good ha, proper_good hb, h⟩
  refine ⟨hg.ne, ?_, hg.bound, hg.asc⟩
  intro s hs
  rcases List.mem_append.1 hs with hs | hs
  · exact ha.oneLayout s hs
  · exact hb.oneLayout s hs

theorem mapM_append_single {A B : Type} (f : A → Option B) : ∀ (as : List A) (a : A) (bs : List B) (b : B), as.mapM f = some bs → f a = some b →
    (as ++ [a]).mapM f = some (bs ++ [b]) := by
  intro as a bs b h1 h2
  rw [List.mapM_append, h1]
  simp [h2]

theorem erase_rel {st : Active L V} {c : Spec.Contents L V} (h : Rel st c) {e : Expr} {ids : EwahBitmap} (hv : e.valid) (hi : e.eval = some ids) :
    ∃ st', st.erase ids = some st' ∧ Rel st' { c with events := Spec.without c.events e } := by
  obtain ⟨new, h1, h2, h3⟩ := eraseFrom_spec h.proper hv hi
  exact ⟨{ st with builder := new }, by rw [Active.erase, h1]; rfl, h2, by rw [← h.events]; exact h3, h.fs, h.writes, h.valid, h.erasing, h.file⟩

theorem step_rel {st : Active L V} {c : Spec.Contents L V} (h : Rel st c) (call : Spec.Call L V) (ha : call.allowed c) :
    ∃ m st' out, call.msg = some m ∧ st.step m = some (st', out) ∧ call.answer c out ∧ Rel st' (call.apply c) := by
  cases call with
  | batch ss =>
    refine ⟨_, _, _, rfl, rfl, rfl, proper_append h.proper ha.1 ?_, ?_, h.fs, h.writes, h.valid, h.erasing, h.file⟩
    · rw [h.events]; exact ha.2
    · rw [allEvents_append, h.events]; rfl
  | erase e =>
    obtain ⟨ids, hi, _⟩ := eval_rep ha
    obtain ⟨st', h1, h2⟩ := erase_rel h ha hi
    exact ⟨_, st', _, by rw [Spec.Call.msg, hi]; rfl, by rw [Active.step, h1]; rfl, rfl, h2⟩
  | delegated =>
    cases hc : c.erasing with
    | nil =>
      have hd := h.erasing
      rw [hc] at hd
      have hd' : st.delegated = [] := by
        simpa using (Option.some.inj hd).symm
      refine ⟨_, st, _, rfl, by rw [Active.step, hd'], by simp [Spec.Call.answer, hc], ?_⟩
      rw [Spec.Call.apply, hc]
      exact h
    | cons e rest =>
      have hd := h.erasing
      rw [hc] at hd
      have hv := h.valid e (by rw [hc]; simp)
      obtain ⟨ids, hi, _⟩ := eval_rep hv
      rw [List.mapM_cons, hi] at hd
      cases hr : rest.mapM Expr.eval with
      | none => rw [hr] at hd; simp at hd
      | some ds =>
        rw [hr] at hd
        have hd' : st.delegated = ids :: ds := by
          simpa using (Option.some.inj hd).symm
        have h' : Rel { st with delegated := ds } ⟨c.events, rest⟩ :=
          ⟨h.proper, h.events, h.fs, h.writes, fun e he => h.valid e (by rw [hc]; simp [he]), hr, h.file⟩
        obtain ⟨st', h1, h2⟩ := erase_rel h' hv hi
        refine ⟨_, st', _, rfl, by rw [Active.step, hd']; simp only; rw [h1]; rfl, by simp [Spec.Call.answer, hc], ?_⟩
        rw [Spec.Call.apply, hc]
        exact h2
  | query q e =>
    obtain ⟨hv, hq⟩ := ha
    obtain ⟨ids, hi, hrep⟩ := eval_rep hv
    have hl := lookupSlices_spec (proper_good h.proper) hrep
    by_cases hc : q.cmd = .erase
    · refine ⟨_, _, _, by rw [Spec.Call.msg, hi]; rfl, by rw [Active.step, Active.query, hl, Option.bind_some, if_pos hc], by rw [Spec.Call.answer, if_pos hc], ?_⟩
      rw [Spec.Call.apply, if_pos hc]
      refine ⟨h.proper, h.events, h.fs, h.writes, ?_, mapM_append_single _ _ _ _ _ h.erasing hi, h.file⟩
      intro e' he'
      rcases List.mem_append.1 he' with he' | he'
      · exact h.valid e' he'
      · rw [List.mem_singleton.1 he']; exact hv
    · obtain ⟨h1, h2⟩ := hq.resolve_left hc
      obtain ⟨found, out, k1, k2, k3⟩ := lookup_answer h.proper h1 (by rw [h.events]; exact h2) hv hi
      refine ⟨_, st, out, by rw [Spec.Call.msg, hi]; rfl, ?_, by rw [Spec.Call.answer, if_neg hc, ← h.events]; exact k3, ?_⟩
      · rw [Active.step, Active.query, k1, Option.bind_some, if_neg hc, k2]; rfl
      · rw [Spec.Call.apply, if_neg hc]; exact h

theorem run_rel : ∀ (calls : List (Spec.Call L V)) (st : Active L V) (c : Spec.Contents L V), Rel st c → Spec.Allowed c calls →
    ∃ st' outs, Spec.run st calls = some (st', outs) ∧ Spec.Answers c calls outs ∧ Rel st' (Spec.applyAll c calls) := by
  intro calls
  induction calls with
  | nil => intro st c h _; exact ⟨st, [], rfl, rfl, h⟩
  | cons call calls ih =>
    intro st c h ha
    obtain ⟨m, st1, out, h1, h2, h3, h4⟩ := step_rel h call ha.1
    obtain ⟨st', outs, h5, h6, h7⟩ := ih st1 _ h4 ha.2
    refine ⟨st', out :: outs, ?_, ⟨h3, h6⟩, h7⟩
    rw [Spec.run] at h5 ⊢
    rw [List.mapM_cons, h1]
    cases hm : calls.mapM Spec.Call.msg with
    | none => rw [hm] at h5; simp at h5
    | some ms =>
      rw [hm, Option.bind_some] at h5
      simp only [Option.bind_eq_bind, Option.bind_some, Option.pure_def, Active.run, h2, h5]
      rfl

theorem proper_nil : Spec.Proper ([] : List (Slice (L × V))) := ⟨by simp, by simp, by simp, by simp⟩

theorem rel_start : Rel ({} : Active L V) {} := ⟨proper_nil, rfl, rfl, rfl, by simp, rfl, rfl⟩

/-- **C43, partial.** An active store, until its stream ends: for every history of writes, queries and erasures, in any
interleaving with the messages of the store to itself, every query to count or extract returns exactly the events that were
written and not erased, whose ID is in the set and which match the expression.

Missing for the full property: queries after the stream ended, queries that cannot be tailored to some layout, and queries
only about metadata that preserve IDs. They are refuted below. -/
theorem C43_active_partial (calls : List (Spec.Call L V)) (h : Spec.Allowed {} calls) :
    ∃ st outs, Spec.run {} calls = some (st, outs) ∧ Spec.Answers {} calls outs := by
  obtain ⟨st, outs, h1, h2, _⟩ := run_rel calls {} {} rel_start h
  exact ⟨st, outs, h1, h2⟩

/-- **C43.** When the stream ends, the store writes exactly its events, and no file exists if the write fails. Whatever a
passive store is asked that finds the file, it answers from these events: see `C43_passive`. -/
theorem C43_persisted (calls : List (Spec.Call L V)) (h : Spec.Allowed {} calls) :
    ∃ st outs st' slices, Spec.run {} calls = some (st, outs) ∧ st.run [.persist, .written true] = some (st', [(.later, []), (.later, [])]) ∧
      st'.file = some slices ∧ Spec.Proper slices ∧ slices.flatMap Spec.events = (Spec.applyAll {} calls).events ∧
      ∃ st'', st.run [.persist, .written false] = some (st'', [(.later, []), (.later, [])]) ∧ st''.file = none := by
  obtain ⟨st, outs, h1, _, h3⟩ := run_rel calls {} {} rel_start h
  refine ⟨st, outs, { st with segment := some st.builder, builder := [], fs := false, file := some st.builder }, st.builder, h1, ?_, rfl, h3.proper, h3.events,
    { st with segment := some st.builder, builder := [], fs := false }, ?_, h3.file⟩
  · simp [Active.run, Active.step, h3.fs, h3.writes]
  · simp [Active.run, Active.step, h3.fs, h3.writes]

/-! ## Passive stores -/

/-- The state of a passive store of a file. -/
structure PRel (st : Passive L V) (slices : List (Slice (L × V))) : Prop where
  fs : st.fs = false
  writes : st.writes = []
  segment : st.segment = none ∨ st.segment = some slices
  file : st.segment = none → st.file = some slices
  deferred : ∀ d ∈ st.deferred, Spec.IsIdSet d.2.1 ∧ d.1.cmd ≠ .count true
  delegated : ∀ r ∈ st.delegated, Spec.Possible (.request r)

theorem handleLookup_defined {q : Query L V} {e : Expr} {ids : EwahBitmap} {ss : List (Slice (L × V))} (h : Spec.Proper ss)
    (hq : q.cmd ≠ .count true) (hq' : q.cmd ≠ .erase) (hv : e.valid) (hi : e.eval = some ids) :
    ∃ found out, lookupSlices ids ss = some found ∧ handleLookup q ids found = some out := by
  obtain ⟨ids', h1, h2⟩ := eval_rep hv
  obtain rfl := Option.some.inj (hi.symm.trans h1)
  refine ⟨ss.filter fun s => hits e.bits s.events, ?_⟩
  have hl := lookupSlices_spec (proper_good h) h2
  rw [handleLookup]
  cases hc : checkers q (ss.filter fun s => hits e.bits s.events) with
  | none => exact ⟨_, hl, rfl⟩
  | some cs =>
    have hcs : ∀ c ∈ cs, c.1 ∈ ss := by
      have : ∀ (l : List (Slice (L × V))) cs, checkers q l = some cs → cs.map (·.1) = l := by
        intro l
        induction l with
        | nil => intro cs h; obtain rfl := Option.some.inj h; rfl
        | cons s l ih =>
          intro cs h
          rw [checkers, List.mapM_cons] at h
          cases h1 : checkerOf q s with
          | none => rw [h1] at h; simp at h
          | some c =>
            cases h2 : checkers q l with
            | none => rw [checkers] at h2; rw [h1, h2] at h; simp at h
            | some cs' =>
              have h2' := h2
              rw [checkers] at h2
              rw [h1, h2] at h
              obtain rfl := Option.some.inj h
              rw [List.map_cons, ih _ h2']
      intro c hc'
      have := this _ _ hc
      have hm : c.1 ∈ cs.map (·.1) := List.mem_map.2 ⟨c, hc', rfl⟩
      rw [this] at hm
      exact (List.mem_filter.1 hm).1
    have hp : ∀ c ∈ cs, ∃ out, perSlice q ids c.1 c.2 = some out ∧ True := by
      intro c hc'
      have hm := hcs c hc'
      rw [perSlice]
      cases hq0 : q.cmd with
      | erase => exact absurd hq0 hq'
      | count b =>
        obtain ⟨ids', g1, g2⟩ := C57_count c.1 (h.nonempty _ hm) (h.bound _ hm) c.2 e hv
        obtain rfl := Option.some.inj (hi.symm.trans g1)
        exact ⟨_, by simp only; rw [g2]; rfl, trivial⟩
      | extract p =>
        cases p with
        | false =>
          obtain ⟨ids', out, g1, g2, _⟩ := C57_filter c.1 (h.nonempty _ hm) (Or.inr (h.bound _ hm)) c.2 e hv
          obtain rfl := Option.some.inj (hi.symm.trans g1)
          exact ⟨_, by simp only; rw [g2]; rfl, trivial⟩
        | true =>
          obtain ⟨ids', subs, g1, g2, g3, g4⟩ := C27_select c.1 (h.nonempty _ hm) (h.bound _ hm) e hv
          obtain rfl := Option.some.inj (hi.symm.trans g1)
          have hsub : ∀ t ∈ subs, ∃ out, extractSub q c.2 t = some out ∧ True := by
            intro t ht
            rw [extractSub]
            split
            · have htb : t.offset + t.rows.length < 2 ^ 64 := by
                have hr := rows_pos (g3 t ht)
                obtain ⟨y, hy1, hy2⟩ := event_at (s := t) (i := t.offset + t.rows.length - 1) (by omega) (by omega)
                have hy : y ∈ subs.flatMap Slice.Spec.events := List.mem_flatMap.2 ⟨t, ht, hy1⟩
                rw [g4] at hy
                have := (event_bounds (show y ∈ c.1.events from (List.mem_filter.1 hy).1)).2
                have := h.bound _ hm
                omega
              obtain ⟨out, k1, _⟩ := evaluate_select (check c.2) t (g3 t ht) htb
              exact ⟨out, k1, trivial⟩
            · exact ⟨_, rfl, trivial⟩
          obtain ⟨bs, k1, _⟩ := gather_some hsub
          exact ⟨_, by simp only; rw [g2, Option.bind_some, k1]; rfl, trivial⟩
    obtain ⟨bs, k1, _⟩ := gather_some hp
    refine ⟨(.done, bs.flatten), hl, ?_⟩
    simp only
    cases hq0 : q.cmd with
    | erase => exact absurd hq0 hq'
    | count b =>
      cases b with
      | true => exact absurd hq0 hq
      | false => simp only [k1]; rfl
    | extract p => simp only [k1]; rfl

theorem query_none {st : Passive L V} (h : st.segment = none) (q : Query L V) (ids : EwahBitmap) :
    st.request (.query q ids) = some ({ st with deferred := st.deferred ++ [(q, ids, true)] }, .later, []) := by
  simp only [Passive.request, h]

theorem query_some {st : Passive L V} {ss : List (Slice (L × V))} (h : st.segment = some ss) (q : Query L V) (ids : EwahBitmap) :
    st.request (.query q ids) = if q.cmd = .erase then some ({ st with delegated := st.delegated ++ [.erase ids] }, .later, [])
      else (lookupSlices ids ss).bind fun found => (handleLookup q ids found).map fun r => (st, r) := by
  rw [Passive.request]
  simp only [h]

theorem erase_none {st : Passive L V} (h : st.segment = none) (ids : EwahBitmap) :
    st.request (.erase ids) = some ({ st with deferred := st.deferred ++ [(eraseQuery, ids, false)] }, .later, []) := by
  simp only [Passive.request, h]

theorem erase_some {st : Passive L V} {ss : List (Slice (L × V))} (h : st.segment = some ss) (ids : EwahBitmap) :
    st.request (.erase ids) = (st.eraseLoaded ss ids).map fun r => (r.1, r.2, []) := by
  rw [Passive.request]
  simp only [h]

theorem request_rel {st : Passive L V} {slices : List (Slice (L × V))} (hp : Spec.Proper slices) (hne : slices ≠ []) (h : PRel st slices) (r : Request L V)
    (hr : Spec.Possible (.request r)) : ∃ st' out, st.request r = some (st', out) ∧ PRel st' slices := by
  cases r with
  | query q ids =>
    obtain ⟨⟨e, hv, hi⟩, hq⟩ := hr
    rcases hs : st.segment with _ | ss
    · refine ⟨_, _, query_none hs q ids, h.fs, h.writes, h.segment, h.file, ?_, h.delegated⟩
      intro d hd
      rcases List.mem_append.1 hd with hd | hd
      · exact h.deferred d hd
      · rw [List.mem_singleton.1 hd]; exact ⟨⟨e, hv, hi⟩, hq⟩
    · have hss : ss = slices := by
        rcases h.segment with h' | h' <;> rw [hs] at h'
        · cases h'
        · exact Option.some.inj h'
      subst hss
      by_cases hc : q.cmd = .erase
      · refine ⟨_, _, (query_some hs q ids).trans (if_pos hc), h.fs, h.writes, h.segment, h.file, h.deferred, ?_⟩
        intro r hr
        rcases List.mem_append.1 hr with hr | hr
        · exact h.delegated r hr
        · rw [List.mem_singleton.1 hr]; exact ⟨e, hv, hi⟩
      · obtain ⟨found, out, k1, k2⟩ := handleLookup_defined hp hq hc hv hi
        exact ⟨st, out, by rw [query_some hs, if_neg hc, k1, Option.bind_some, k2]; rfl, h⟩
  | erase ids =>
    obtain ⟨e, hv, hi⟩ := hr
    rcases hs : st.segment with _ | ss
    · refine ⟨_, _, erase_none hs ids, h.fs, h.writes, h.segment, h.file, ?_, h.delegated⟩
      intro d hd
      rcases List.mem_append.1 hd with hd | hd
      · exact h.deferred d hd
      · rw [List.mem_singleton.1 hd]; exact ⟨⟨e, hv, hi⟩, by simp [eraseQuery]⟩
    · have hss : ss = slices := by
        rcases h.segment with h' | h' <;> rw [hs] at h'
        · cases h'
        · exact Option.some.inj h'
      subst hss
      obtain ⟨ids', h1, h2⟩ := eval_rep hv
      obtain rfl := Option.some.inj (hi.symm.trans h1)
      obtain ⟨all, lx, g1, g2, g3, _⟩ := idsOf_spec ss {} [] (Or.inl ⟨rfl, rfl⟩) (proper_good hp) (by simp)
      have hlx : lx ≠ [] := by
        rintro rfl
        have := List.length_pos_iff.2 hne
        simp only [List.length_nil] at g3; omega
      obtain ⟨sub, g5, _⟩ := isSubset_rep g2 h2 (Or.inl hlx)
      obtain ⟨new, k1, _⟩ := eraseFrom_spec hp hv hi
      have hfs := h.fs
      have hel : st.eraseLoaded ss ids = if sub then some (if st.moved then { st with next := none } else { st with file := none }, .done)
          else some ({ st with failing := st.failing + 1, moved := true }, .later) := by
        simp only [Passive.eraseLoaded, idsOf, g1, g5, Option.bind_some, k1, Option.map_some, hfs]
        rfl
      by_cases hsub : sub = true
      · refine ⟨_, _, by rw [erase_some hs, hel, if_pos hsub]; rfl, ?_⟩
        show PRel (if st.moved then { st with next := none } else { st with file := none }) ss
        split
        · exact ⟨h.fs, h.writes, Or.inr hs, h.file, h.deferred, h.delegated⟩
        · refine ⟨h.fs, h.writes, Or.inr hs, ?_, h.deferred, h.delegated⟩
          intro h0
          exact absurd (hs.symm.trans h0) (by simp)
      · refine ⟨{ st with failing := st.failing + 1, moved := true }, _, by rw [erase_some hs, hel, if_neg hsub]; rfl, ?_⟩
        exact ⟨h.fs, h.writes, Or.inr hs, h.file, h.deferred, h.delegated⟩

theorem pstep_rel {st : Passive L V} {slices : List (Slice (L × V))} (hp : Spec.Proper slices) (hne : slices ≠ []) (h : PRel st slices) (m : PassiveMsg L V)
    (hm : Spec.Possible m) : ∃ st' out, st.step m = some (st', out) ∧ PRel st' slices := by
  by_cases hdead : st.dead = true
  · exact ⟨st, _, by unfold Passive.step; rw [if_pos hdead], h⟩
  · cases m with
    | request r =>
      obtain ⟨st', out, h1, h2⟩ := request_rel hp hne h r hm
      exact ⟨st', out, by unfold Passive.step; rw [if_neg hdead]; exact h1, h2⟩
    | written ok =>
      refine ⟨st.written ok, _, by unfold Passive.step; rw [if_neg hdead], ?_⟩
      have : st.written ok = st := by
        unfold Passive.written
        rw [h.writes]
      rw [this]; exact h
    | delegated =>
      cases hd : st.delegated with
      | nil =>
        refine ⟨st, (.later, []), ?_, h⟩
        unfold Passive.step
        rw [if_neg hdead]
        simp only [hd]
      | cons r rest =>
        have hmem : ∀ r' ∈ r :: rest, Spec.Possible (.request r') := by rw [← hd]; exact h.delegated
        obtain ⟨st', out, h1, h2⟩ := request_rel (st := { st with delegated := rest }) hp hne
          ⟨h.fs, h.writes, h.segment, h.file, h.deferred, fun r' hr' => hmem r' (List.mem_cons_of_mem _ hr')⟩ r (hmem r List.mem_cons_self)
        refine ⟨st', out, ?_, h2⟩
        unfold Passive.step
        rw [if_neg hdead]
        simp only [hd]
        exact h1
    | loaded ok lost =>
      refine ⟨st.load ok lost, (.later, []), by unfold Passive.step; rw [if_neg hdead], ?_⟩
      by_cases hs : st.segment.isSome = true
      · have : st.load ok lost = st := if_pos hs
        rw [this]; exact h
      · have hs' : st.segment = none := by simpa using hs
        have hf := h.file hs'
        cases ok with
        | false =>
          have : st.load false lost = { st with dead := true } := by
            rw [Passive.load, if_neg hs]
            simp
          rw [this]
          exact ⟨h.fs, h.writes, h.segment, h.file, h.deferred, h.delegated⟩
        | true =>
          have : st.load true lost = { st with segment := some slices, deferred := [], delegated := st.delegated ++ (st.deferred.filter fun d => !lost || d.2.2).map fun d => .query d.1 d.2.1 } := by
            rw [Passive.load, if_neg hs]
            simp only [hf]
          rw [this]
          refine ⟨h.fs, h.writes, Or.inr rfl, by simp, by simp, ?_⟩
          intro r hr
          rcases List.mem_append.1 hr with hr | hr
          · exact h.delegated r hr
          · obtain ⟨d, hd, rfl⟩ := List.mem_map.1 hr
            exact h.deferred d (List.mem_filter.1 hd).1

theorem prun_rel {slices : List (Slice (L × V))} (hp : Spec.Proper slices) (hne : slices ≠ []) : ∀ (ms : List (PassiveMsg L V)) (st : Passive L V),
    PRel st slices → (∀ m ∈ ms, Spec.Possible m) → ∃ st' outs, st.run ms = some (st', outs) ∧ PRel st' slices := by
  intro ms
  induction ms with
  | nil => intro st h _; exact ⟨st, [], rfl, h⟩
  | cons m ms ih =>
    intro st h hm
    obtain ⟨st1, out, h1, h2⟩ := pstep_rel hp hne h m (hm m (by simp))
    obtain ⟨st', outs, h3, h4⟩ := ih st1 h2 fun m hm' => hm m (by simp [hm'])
    exact ⟨st', out :: outs, by rw [Passive.run, h1, Option.bind_some, h3]; rfl, h4⟩

theorem prel_start (slices : List (Slice (L × V))) : PRel ({ file := some slices } : Passive L V) slices :=
  ⟨rfl, rfl, Or.inl rfl, fun _ => rfl, by simp, by simp⟩

/-- **C43.** A passive store: after every history of requests, erasures, and responses of the file system nothing undefined happened, and a store
that has loaded its segment answers every query from all events of the file. -/
theorem C43_passive (slices : List (Slice (L × V))) (hp : Spec.Proper slices) (hne : slices ≠ []) (ms : List (PassiveMsg L V))
    (hm : ∀ m ∈ ms, Spec.Possible m) :
    ∃ st outs, Passive.run { file := some slices } ms = some (st, outs) ∧
      (st.dead = false → st.segment.isSome → ∀ (q : Query L V) (e : Expr) (ids : EwahBitmap), e.valid → e.eval = some ids →
        Spec.IsLookup q → Spec.Answerable (slices.flatMap Spec.events) q →
        ∃ out, st.step (.request (.query q ids)) = some (st, out) ∧ Spec.Answer (slices.flatMap Spec.events) q e out) := by
  obtain ⟨st, outs, h1, h2⟩ := prun_rel hp hne ms _ (prel_start slices) hm
  refine ⟨st, outs, h1, ?_⟩
  intro hd hs q e ids hv hi hq ha
  have hs' : st.segment = some slices := by
    rcases h2.segment with h | h
    · rw [h] at hs; simp at hs
    · exact h
  obtain ⟨found, out, k1, k2, k3⟩ := lookup_answer hp hq ha hv hi
  refine ⟨out, ?_, k3⟩
  have hc : q.cmd ≠ .erase := by rcases hq with h | ⟨p, h⟩ <;> rw [h] <;> simp
  simp only [Passive.step, hd, Bool.false_eq_true, if_false, Passive.request, hs', if_neg hc, k1, Option.bind_some, k2, Option.map_some]

/-- The answers to queries that are delegated one after the other. -/
theorem drain {slices : List (Slice (L × V))} (hp : Spec.Proper slices) : ∀ (qs : List (Query L V × Expr × EwahBitmap)) (st : Passive L V),
    st.dead = false → st.segment = some slices → st.delegated = qs.map (fun x => .query x.1 x.2.2) →
    (∀ x ∈ qs, Spec.IsLookup x.1 ∧ x.2.1.valid ∧ x.2.1.eval = some x.2.2 ∧ Spec.Answerable (allEvents slices) x.1) →
    ∃ st' outs, st.run (List.replicate qs.length .delegated) = some (st', outs) ∧ outs.length = qs.length ∧
      ∀ x ∈ qs.zip outs, Spec.Answer (allEvents slices) x.1.1 x.1.2.1 x.2 := by
  intro qs
  induction qs with
  | nil => intro st _ _ _ _; exact ⟨st, [], rfl, rfl, by simp⟩
  | cons x qs ih =>
    intro st hd hs hg hq
    obtain ⟨q1, q2, q3, q4⟩ := hq x (by simp)
    obtain ⟨found, out, k1, k2, k3⟩ := lookup_answer hp q1 q4 q2 q3
    have hc : x.1.cmd ≠ .erase := by rcases q1 with h | ⟨p, h⟩ <;> rw [h] <;> simp
    obtain ⟨st', outs, h1, h2, h3⟩ := ih { st with delegated := qs.map fun x => .query x.1 x.2.2 } hd hs rfl fun x hx => hq x (by simp [hx])
    refine ⟨st', out :: outs, ?_, by simp [h2], ?_⟩
    · rw [List.length_cons, List.replicate_succ, Passive.run]
      have hstep : st.step .delegated = some ({ st with delegated := qs.map fun x => .query x.1 x.2.2 }, out) := by
        have := query_some (st := { st with delegated := qs.map fun x => .query x.1 x.2.2 }) hs x.1 x.2.2
        rw [if_neg hc, k1, Option.bind_some, k2, Option.map_some] at this
        unfold Passive.step
        rw [if_neg (by simp [hd])]
        simp only [hg, List.map_cons]
        exact this
      rw [hstep, Option.bind_some, h1]; rfl
    · intro y hy
      rw [List.zip_cons_cons] at hy
      rcases List.mem_cons.1 hy with rfl | hy
      · exact k3
      · exact h3 y hy

/-- **C43.** Queries that arrive before the segment is loaded wait, in their order; once it is loaded every one of them is
answered from all events of the file. -/
theorem C43_deferred (slices : List (Slice (L × V))) (hp : Spec.Proper slices) (qs : List (Query L V × Expr × EwahBitmap)) (lost : Bool)
    (hq : ∀ x ∈ qs, Spec.IsLookup x.1 ∧ x.2.1.valid ∧ x.2.1.eval = some x.2.2 ∧ Spec.Answerable (slices.flatMap Spec.events) x.1) :
    ∃ st outs answers, Passive.run { file := some slices } (qs.map (fun x => .request (.query x.1 x.2.2)) ++ .loaded true lost :: List.replicate qs.length .delegated)
        = some (st, outs ++ answers) ∧ outs = List.replicate (qs.length + 1) (.later, []) ∧ answers.length = qs.length ∧
      ∀ x ∈ qs.zip answers, Spec.Answer (slices.flatMap Spec.events) x.1.1 x.1.2.1 x.2 := by
  have hwait : ∀ (rs : List (Query L V × Expr × EwahBitmap)) (st : Passive L V) (more : List (PassiveMsg L V)), st.dead = false → st.segment = none →
      st.run (rs.map (fun x => .request (.query x.1 x.2.2)) ++ more) =
        (Passive.run { st with deferred := st.deferred ++ rs.map fun x => (x.1, x.2.2, true) } more).map
          fun r => (r.1, List.replicate rs.length (.later, []) ++ r.2) := by
    intro rs
    induction rs with
    | nil => intro st more _ _; simp
    | cons x rs ih =>
      intro st more hd hs
      rw [List.map_cons, List.cons_append, Passive.run]
      have hstep : st.step (.request (.query x.1 x.2.2)) = some ({ st with deferred := st.deferred ++ [(x.1, x.2.2, true)] }, .later, []) := by
        unfold Passive.step
        rw [if_neg (by simp [hd])]
        exact query_none hs _ _
      rw [hstep, Option.bind_some, ih { st with deferred := st.deferred ++ [(x.1, x.2.2, true)] } more hd hs]
      simp only [List.append_assoc, List.cons_append, List.nil_append, List.map_cons, List.length_cons, List.replicate_succ, Option.map_map]
      rfl
  have hdl : ((qs.map fun x => (x.1, x.2.2, true)).filter fun d : Query L V × EwahBitmap × Bool => !lost || d.2.2) = qs.map fun x => (x.1, x.2.2, true) := by
    apply List.filter_eq_self.2
    intro d hd
    obtain ⟨x, _, rfl⟩ := List.mem_map.1 hd
    simp
  obtain ⟨st', answers, h1, h2, h3⟩ := drain hp qs
    { file := some slices, segment := some slices, delegated := qs.map fun x => .query x.1 x.2.2 } rfl rfl rfl hq
  refine ⟨st', List.replicate (qs.length + 1) (.later, []), answers, ?_, rfl, h2, h3⟩
  rw [hwait qs _ _ rfl rfl, Passive.run]
  simp only [Passive.step, Bool.false_eq_true, if_false, Passive.load, Option.isSome_none, List.nil_append, hdl, List.map_map, Function.comp_def,
    Option.bind_some]
  rw [h1]
  simp [List.replicate_succ']

/-- From the stream to the passive store: a passive store that loads what an active store wrote answers every query from exactly the events
that were written and not erased before the stream ended. -/
theorem C43_handover (calls : List (Spec.Call L V)) (h : Spec.Allowed {} calls) (hne : (Spec.applyAll {} calls).events ≠ [])
    (ms : List (PassiveMsg L V)) (hm : ∀ m ∈ ms, Spec.Possible m) :
    ∃ st outs st' slices pst pouts, Spec.run {} calls = some (st, outs) ∧ st.run [.persist, .written true] = some (st', [(.later, []), (.later, [])]) ∧
      st'.file = some slices ∧ Passive.run { file := st'.file } ms = some (pst, pouts) ∧
      (pst.dead = false → pst.segment.isSome → ∀ (q : Query L V) (e : Expr) (ids : EwahBitmap), e.valid → e.eval = some ids →
        Spec.IsLookup q → Spec.Answerable (Spec.applyAll {} calls).events q →
        ∃ out, pst.step (.request (.query q ids)) = some (pst, out) ∧ Spec.Answer (Spec.applyAll {} calls).events q e out) := by
  obtain ⟨st, outs, st', slices, h1, h2, h3, h4, h5, _⟩ := C43_persisted calls h
  have hs : slices ≠ [] := by
    rintro rfl
    exact hne h5.symm
  obtain ⟨pst, pouts, k1, k2⟩ := C43_passive slices h4 hs ms hm
  rw [h5] at k2
  exact ⟨st, outs, st', slices, pst, pouts, h1, h2, h3, by rw [h3]; exact k1, k2⟩

/-! ## Non-vacuity -/

namespace Spec

/-- All events, with their IDs. -/
def everything : Query Char Nat := ⟨.extract true, false, fun _ => none⟩

/-- Rows above two of layout `a`, none of others. -/
def aboveTwo (cmd : Cmd) : Query Char Nat := ⟨cmd, true, fun l => some (some fun r => l == 'a' && decide (2 < r.2))⟩

/-- Ten IDs. -/
def ten : Expr := .history [.bits true 10]

/-- The IDs 1 and 2. -/
def middle : Expr := .history [.bit false, .bits true 2]

/-- Two slices, an erasure in between, and queries. -/
def demo : List (Call Char Nat) :=
  [.batch [⟨0, [('a', 1), ('a', 3), ('a', 4)]⟩], .query (aboveTwo (.extract false)) ten, .query ⟨.erase, false, fun _ => none⟩ middle,
   .batch [⟨3, [('b', 5)]⟩, ⟨4, [('a', 6), ('a', 7)]⟩], .query (aboveTwo (.count false)) ten, .delegated, .query everything ten,
   .query (aboveTwo (.extract true)) ten, .erase (.history [.bits false 4, .bit true])]

theorem demo_allowed : Allowed {} demo := by
  simp only [demo, Allowed, Call.allowed, Call.apply]
  refine ⟨⟨⟨by simp, by decide, by simp, by decide⟩, by simp⟩, ⟨by simp [ten, Expr.valid, Op.valid], Or.inr ⟨Or.inr ⟨_, rfl⟩, ?_⟩⟩,
    ⟨by simp [middle, Expr.valid, Op.valid], Or.inl trivial⟩, ⟨⟨by simp, by decide, by simp, by decide⟩, by decide⟩,
    ⟨by simp [ten, Expr.valid, Op.valid], Or.inr ⟨Or.inl rfl, ?_⟩⟩, trivial, ⟨by simp [ten, Expr.valid, Op.valid], Or.inr ⟨Or.inr ⟨_, rfl⟩, ?_⟩⟩,
    ⟨by simp [ten, Expr.valid, Op.valid], Or.inr ⟨Or.inr ⟨_, rfl⟩, ?_⟩⟩, by simp [Expr.valid, Op.valid], trivial⟩
  all_goals simp [Answerable, aboveTwo, everything]

end Spec

/-- The history meets the hypotheses, and these are its answers. -/
example : Spec.Allowed {} Spec.demo ∧ (Spec.run {} Spec.demo).map (·.2) = some
    [(.later, []), (.done, [.slice ⟨invalidId, [('a', 3), ('a', 4)]⟩]), (.later, []), (.later, []), (.done, [.count 2, .count 0, .count 2]), (.done, []),
     (.done, [.slice ⟨0, [('a', 1)]⟩, .slice ⟨3, [('b', 5)]⟩, .slice ⟨4, [('a', 6), ('a', 7)]⟩]), (.done, [.slice ⟨4, [('a', 6), ('a', 7)]⟩]), (.done, [])] :=
  ⟨Spec.demo_allowed, by decide +kernel⟩

/-- A passive store gets a query before it has loaded its segment, and one afterwards. -/
example : (do
    let ids ← Spec.ten.eval
    let r ← Passive.run { file := some [⟨0, [('a', 1), ('a', 3)]⟩] }
      [.request (.query (Spec.aboveTwo (.extract true)) ids), .loaded true false, .delegated, .request (.query (Spec.aboveTwo (.count false)) ids)]
    some r.2) = some [(.later, []), (.later, []), (.done, [.slice ⟨1, [('a', 3)]⟩]), (.done, [.count 1])] := by
  decide +kernel

/-- The hypotheses of `C43_passive` and `C43_handover` for this file, this history and these messages; the store is alive and loaded after them. -/
example : Spec.Proper [⟨0, [('a', 1), ('a', 3)]⟩] ∧ (Spec.applyAll {} Spec.demo).events ≠ [] ∧
    ∃ ids, Spec.ten.eval = some ids ∧ (∀ m ∈ ([.request (.erase ids), .loaded true true, .request (.query Spec.everything ids), .delegated] : List (PassiveMsg Char Nat)), Spec.Possible m) ∧
      (Passive.run { file := some [⟨0, [('a', 1), ('a', 3)]⟩] } [.request (.erase ids), .loaded true true, .request (.query Spec.everything ids), .delegated]).map
        (fun r => (r.1.dead, r.1.segment.isSome)) = some (false, true) := by
  refine ⟨⟨by simp, by decide, by simp, by decide⟩, by decide +kernel, ?_⟩
  obtain ⟨ids, h, _⟩ := eval_rep (e := Spec.ten) (by simp [Spec.ten, Expr.valid, Op.valid])
  have hi : Spec.IsIdSet ids := ⟨Spec.ten, by simp [Spec.ten, Expr.valid, Op.valid], h⟩
  refine ⟨ids, h, ?_, ?_⟩
  · simp [Spec.Possible, hi, Spec.everything]
  · have : (Spec.ten.eval.bind fun ids => (Passive.run { file := some [⟨0, [('a', 1), ('a', 3)]⟩] }
        [.request (.erase ids), .loaded true true, .request (.query Spec.everything ids), .delegated]).map
        (fun r => (r.1.dead, r.1.segment.isSome))) = some (false, true) := by decide +kernel
    rw [h, Option.bind_some] at this
    exact this

/-! ## Refutations -/

/-- Once the stream has ended, the store is empty for queries: the builder, which still exists, is asked and not the
segment (local_segment_store.cpp:237-242, 296). -/
theorem C43_after_stream_refuted : (do
    let ids ← Spec.ten.eval
    let r ← Active.run {} [.batch [⟨0, [('a', 1), ('a', 3)]⟩], .query Spec.everything ids, .persist, .query Spec.everything ids]
    some r.2) = some [(.later, []), (.done, [.slice ⟨0, [('a', 1), ('a', 3)]⟩]), (.later, []), (.done, [])] := by
  decide +kernel

/-- Rows of layout `a` above two; the expression does not fit other layouts. -/
def Spec.onlyA : Query Char Nat := ⟨.extract true, true, fun l => if l = 'a' then some (some fun r => decide (2 < r.2)) else none⟩

/-- A query whose expression cannot be tailored to the layout of one of the slices returns nothing from the others either
(local_segment_store.cpp:46-47). -/
theorem C43_tailor_refuted : (do
    let ids ← Spec.ten.eval
    let r ← Active.run {} [.batch [⟨0, [('a', 1), ('a', 3)]⟩, ⟨2, [('b', 7)]⟩], .query Spec.onlyA ids]
    some r.2) = some [(.later, []), (.error, [])] ∧
    Spec.wanted [(('a', 1), 0), (('a', 3), 1), (('b', 7), 2)] Spec.onlyA Spec.ten = [(('a', 3), 1)] := by
  refine ⟨by decide +kernel, by decide +kernel⟩

/-- An expression only about metadata. -/
def Spec.onlyMeta (p : Bool) : Query Char Nat := ⟨.extract p, true, fun _ => some none⟩

/-- A query only about metadata returns all events if IDs are dropped, and none if they are preserved
(local_segment_store.cpp:70-75 compares the original expression, and the empty expression holds for no row). -/
theorem C43_meta_refuted : (do
    let ids ← Spec.ten.eval
    let r ← Active.run {} [.batch [⟨0, [('a', 1)]⟩], .query (Spec.onlyMeta false) ids, .query (Spec.onlyMeta true) ids]
    some r.2) = some [(.later, []), (.done, [.slice ⟨0, [('a', 1)]⟩]), (.done, [])] := by
  decide +kernel

/-- The other direction, that erased events are gone, is false for passive stores. If the whole segment is erased, the file is removed, but the
store still answers from it. -/
theorem C43_erased_answers_refuted : (do
    let ids ← Spec.ten.eval
    let r ← Passive.run { file := some [⟨0, [('a', 1), ('a', 3)]⟩] } [.loaded true false, .request (.erase ids), .request (.query Spec.everything ids)]
    some (r.1.file.isSome, r.2)) = some (false, [(.later, []), (.done, []), (.done, [.slice ⟨0, [('a', 1), ('a', 3)]⟩])]) := by
  decide +kernel

/-- If some events are erased, then the file stays as it is, the request is never answered (its promise is
invalid, and so is the handle of the file system), and from then on erasing everything removes nothing: the path was changed
(local_segment_store.cpp:192-196). -/
theorem C43_erase_lost_refuted : (do
    let ids ← Spec.middle.eval
    let all ← Spec.ten.eval
    let r ← Passive.run { file := some [⟨0, [('a', 1), ('a', 3)]⟩] }
      [.loaded true false, .request (.erase ids), .written true, .request (.query Spec.everything all), .request (.erase all)]
    some (r.1.file.getD [], r.2)) = some ([⟨0, [('a', 1), ('a', 3)]⟩],
      [(.later, []), (.later, []), (.later, []), (.done, [.slice ⟨0, [('a', 1), ('a', 3)]⟩]), (.done, [])]) := by
  decide +kernel

end Verif.LocalStore
