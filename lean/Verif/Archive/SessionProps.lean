import Verif.Archive.Props

/-!
# C30: sessions

`C30_session_partial`: while a session of `extract` is open, other calls go on.
-/

namespace Verif.Archive

open Verif.Bitmap Verif.Bitmap.Spec Verif.Slice Verif.Cache

variable {R : Type}

theorem flatMap_extend {A : Type} {f g : Nat → List A} {b : Nat} {ys : List A} (hb : g b = f b ++ ys) (hne : ∀ i, i ≠ b → g i = f i) :
    ∀ {rest : List Nat}, rest.Nodup → (rest.flatMap g).Perm (rest.flatMap f ++ if b ∈ rest then ys else []) := by
  intro rest
  induction rest with
  | nil => intro _; simp
  | cons i rest ih =>
    intro hn
    replace hn := List.nodup_cons.1 hn
    have := ih hn.2
    rw [List.flatMap_cons, List.flatMap_cons]
    by_cases hi : i = b
    · subst hi
      rw [if_neg hn.1, List.append_nil] at this
      rw [hb, if_pos (by simp), List.append_assoc, List.append_assoc]
      exact (List.perm_append_comm.trans (this.append_right _)).append_left _
    · rw [hne i hi, List.append_assoc]
      have hm : (b ∈ i :: rest) ↔ b ∈ rest := by simp [Ne.symm hi]
      simp only [hm]
      exact this.append_left _

theorem mem_of_not_id {segs : List (Segment R)} {l : List Bool} {id : Nat} (h : ∀ s ∈ segs, s.id ≠ id) : foundFor l segs id = [] := by
  have : (segs.find? fun s => s.id == id) = none := by
    rw [List.find?_eq_none]; intro s hs; simpa using h s hs
  rw [foundFor, this]

/-- The state of a session: `done` was delivered. -/
structure SesInv (st : Store R) (live : List (Segment R)) (ses : Session R) (l : List Bool) (start done : List (Slice R)) : Prop where
  inv : Inv st live
  ids : Represents ses.xs l
  known : ∀ id ∈ ses.rest, ∃ s ∈ st.segs live, s.id = id
  nodup : ses.rest.Nodup
  sound : ∃ sub, (done ++ ses.buffer ++ ses.rest.flatMap (foundFor l (st.segs live))).Perm sub ∧ sub.Sublist (allSlices (st.segs live)) ∧
    ∀ t ∈ sub, hits l t.events = true
  complete : ∀ t ∈ start, hits l t.events = true → t ∈ done ++ ses.buffer ++ ses.rest.flatMap (foundFor l (st.segs live))

theorem ses_extract {st : Store R} {live : List (Segment R)} (h : Inv st live) {xs : EwahBitmap} {l : List Bool} (hx : Represents xs l) :
    ∃ ses c, st.extract xs = some (ses, { st with cache := c }) ∧ SesInv { st with cache := c } live ses l (allSlices (st.segs live)) [] := by
  obtain ⟨cs, c, g1, g2, g3⟩ := candidates_perm h hx
  have hperm : (cs.flatMap (foundFor l (st.segs live))).Perm ((allSlices (st.segs live)).filter fun t => hits l t.events) := by
    refine (g3.flatMap_right _).trans ?_
    rw [← found_flatMap, List.flatMap_map]
    refine List.Perm.of_eq ?_
    apply flatMap_congr'
    intro s hs
    exact foundFor_mem h.ids (List.mem_filter.1 hs).1
  refine ⟨⟨xs, cs, []⟩, c, by simp only [Store.extract, g1, Option.map_some], g2, hx, ?_, ?_, ?_, ?_⟩
  · intro id hid
    rw [g3.mem_iff] at hid
    obtain ⟨s, hs, rfl⟩ := List.mem_map.1 hid
    exact ⟨s, (List.mem_filter.1 hs).1, rfl⟩
  · rw [g3.nodup_iff, List.Nodup, List.pairwise_map]
    exact h.ids.filter _
  · exact ⟨_, hperm, List.filter_sublist, fun t ht => (List.mem_filter.1 ht).2⟩
  · intro t ht hh
    exact hperm.mem_iff.2 (List.mem_filter.2 ⟨ht, hh⟩)

theorem ses_nextFrom {live : List (Segment R)} {xs : EwahBitmap} {l : List Bool} {start done : List (Slice R)} :
    ∀ (rest : List Nat) (st : Store R), SesInv st live ⟨xs, rest, []⟩ l start done →
    ∃ o ses st', st.nextFrom xs rest = some (o, ses, st') ∧ o ≠ .failed ∧ (o = .done → ses.rest = [] ∧ ses.buffer = []) ∧
      SesInv st' live ses l start (done ++ Spec.delivered [o]) ∧ st'.builder = st.builder ∧ st'.numEvents = st.numEvents := by
  intro rest
  induction rest with
  | nil =>
    intro st h
    exact ⟨.done, ⟨xs, [], []⟩, st, rfl, by simp, by simp, by simpa [Spec.delivered] using h, rfl, rfl⟩
  | cons id ids ih =>
    intro st h
    obtain ⟨s, hs, rfl⟩ := h.known id (by simp)
    obtain ⟨c, g1, g2⟩ := lookupIn_spec h.inv h.ids hs
    have hf := foundFor_mem (l := l) h.inv.ids hs
    simp only at g1
    cases hfound : found l s with
    | nil =>
      obtain ⟨o, ses, st', k1, k2, k3, k4, k5⟩ := ih { st with cache := c } ⟨g2, h.ids, fun i hi => h.known i (by simp [hi]),
        (List.nodup_cons.1 h.nodup).2, by
          have := h.sound
          simp only [List.flatMap_cons, hf, hfound, List.nil_append] at this
          exact this, by
          have := h.complete
          simp only [List.flatMap_cons, hf, hfound, List.nil_append] at this
          exact this⟩
      refine ⟨o, ses, st', ?_, k2, k3, k4, k5⟩
      rw [hfound] at g1
      simp only [Store.nextFrom, g1, Option.bind_eq_bind, Option.bind_some]
      exact k1
    | cons t ts =>
      rw [hfound] at g1
      refine ⟨.slice t, ⟨xs, ids, ts⟩, { st with cache := c }, by simp only [Store.nextFrom, g1, Option.bind_eq_bind, Option.bind_some], by simp, by simp, ?_, rfl, rfl⟩
      refine ⟨g2, h.ids, fun i hi => h.known i (by simp [hi]), (List.nodup_cons.1 h.nodup).2, ?_, ?_⟩
      · have := h.sound
        simp only [List.flatMap_cons, hf, hfound, List.append_nil] at this
        simpa [Spec.delivered, Store.segs] using this
      · have := h.complete
        simp only [List.flatMap_cons, hf, hfound, List.append_nil] at this
        simpa [Spec.delivered, Store.segs] using this

theorem ses_next {st : Store R} {live : List (Segment R)} {ses : Session R} {l : List Bool} {start done : List (Slice R)} (h : SesInv st live ses l start done) :
    ∃ o ses' st', st.next ses = some (o, ses', st') ∧ o ≠ .failed ∧ (o = .done → ses'.rest = [] ∧ ses'.buffer = []) ∧
      SesInv st' live ses' l start (done ++ Spec.delivered [o]) ∧ st'.builder = st.builder ∧ st'.numEvents = st.numEvents := by
  obtain ⟨xs, rest, buffer⟩ := ses
  cases buffer with
  | nil => exact ses_nextFrom rest st h
  | cons t ts =>
    refine ⟨.slice t, ⟨xs, rest, ts⟩, st, rfl, by simp, by simp, ?_, rfl, rfl⟩
    refine ⟨h.inv, h.ids, h.known, h.nodup, ?_, ?_⟩
    · have := h.sound; simpa [Spec.delivered] using this
    · have := h.complete; simpa [Spec.delivered] using this

/-- The session after a change of the store that keeps its segments. -/
theorem ses_same {st st' : Store R} {live live' : List (Segment R)} {ses : Session R} {l : List Bool} {start done : List (Slice R)}
    (h : SesInv st live ses l start done) (hi : Inv st' live') (hs : ∀ s ∈ st.segs live, s ∈ st'.segs live')
    (ha : allSlices (st'.segs live') = allSlices (st.segs live)) : SesInv st' live' ses l start done := by
  have hf : ses.rest.flatMap (foundFor l (st'.segs live')) = ses.rest.flatMap (foundFor l (st.segs live)) := by
    apply flatMap_congr'
    intro id hid
    obtain ⟨s, hs', rfl⟩ := h.known id hid
    rw [foundFor_mem h.inv.ids hs', foundFor_mem hi.ids (hs s hs')]
  refine ⟨hi, h.ids, ?_, h.nodup, ?_, ?_⟩
  · intro id hid
    obtain ⟨s, hs', e⟩ := h.known id hid
    exact ⟨s, hs s hs', e⟩
  · rw [hf, ha]; exact h.sound
  · rw [hf]; exact h.complete

theorem ses_added {st : Store R} {live : List (Segment R)} {ses : Session R} {l : List Bool} {start done : List (Slice R)}
    (h : SesInv st live ses l start done) {s : Slice R} (hi : Inv (st.added s) live) : SesInv (st.added s) live ses l start done := by
  have hb : foundFor l ((st.added s).segs live) st.builder.id = foundFor l (st.segs live) st.builder.id ++ [s].filter fun t => hits l t.events := by
    have e1 := foundFor_mem (l := l) h.inv.ids (show st.builder ∈ st.segs live by simp [Store.segs])
    have e2 := foundFor_mem (l := l) hi.ids (show (st.added s).builder ∈ (st.added s).segs live by simp [Store.segs])
    rw [show (st.added s).builder.id = st.builder.id from rfl] at e2
    rw [e1, e2]
    simp only [found, Store.added, List.filter_append]
  have hne : ∀ i, i ≠ st.builder.id → foundFor l ((st.added s).segs live) i = foundFor l (st.segs live) i := by
    intro i hi'
    by_cases hl : ∃ t ∈ live, t.id = i
    · obtain ⟨t, ht, rfl⟩ := hl
      rw [foundFor_mem hi.ids (show t ∈ (st.added s).segs live by simp [Store.segs, ht]),
        foundFor_mem h.inv.ids (show t ∈ st.segs live by simp [Store.segs, ht])]
    · have hl' : ∀ t ∈ live, t.id ≠ i := fun t ht e => hl ⟨t, ht, e⟩
      rw [mem_of_not_id, mem_of_not_id]
      · intro t ht
        rcases List.mem_append.1 ht with ht | ht
        · exact hl' t ht
        · simp only [List.mem_singleton] at ht; subst ht; exact Ne.symm hi'
      · intro t ht
        rcases List.mem_append.1 ht with ht | ht
        · exact hl' t ht
        · simp only [List.mem_singleton] at ht; subst ht; exact Ne.symm hi'
  have hperm := flatMap_extend hb hne h.nodup
  have hall : allSlices ((st.added s).segs live) = allSlices (st.segs live) ++ [s] := by simp [Store.segs, Store.added, allSlices]
  obtain ⟨sub, k1, k2, k3⟩ := h.sound
  refine ⟨hi, h.ids, ?_, h.nodup, ?_, ?_⟩
  · intro id hid
    obtain ⟨t, ht, rfl⟩ := h.known id hid
    rcases List.mem_append.1 ht with ht | ht
    · exact ⟨t, by simp [Store.segs, ht], rfl⟩
    · simp only [List.mem_singleton] at ht; subst ht
      exact ⟨(st.added s).builder, by simp [Store.segs], rfl⟩
  · refine ⟨sub ++ if st.builder.id ∈ ses.rest then [s].filter fun t => hits l t.events else [], ?_, ?_, ?_⟩
    · refine (hperm.append_left _).trans ?_
      rw [← List.append_assoc]
      exact k1.append_right _
    · rw [hall]
      refine k2.append ?_
      split
      · exact List.filter_sublist
      · exact List.nil_sublist _
    · intro t ht
      rcases List.mem_append.1 ht with ht | ht
      · exact k3 t ht
      · split at ht
        · exact (List.mem_filter.1 ht).2
        · simp at ht
  · intro t ht hh
    have := h.complete t ht hh
    simp only [List.mem_append] at this ⊢
    rcases this with h1 | h1
    · exact Or.inl h1
    · exact Or.inr (hperm.mem_iff.2 (by simp [h1]))

/-- The whole session. -/
theorem ses_turns {l : List Bool} {start : List (Slice R)} : ∀ (ts : List (Spec.Turn R)) (st : Store R) (live : List (Segment R)) (ses : Session R)
    (c : Spec.Contents R) (done : List (Slice R)), SesInv st live ses l start done → allEvents (allSlices (st.segs live)) = c.all →
    Spec.Allowed c (Spec.calls ts) →
    ∃ turns outs ses' st' live', ts.mapM Spec.Turn.turn = some turns ∧ Store.turns st ses turns = some (outs, ses', st') ∧ (∀ o ∈ outs, o ≠ .failed) ∧
      SesInv st' live' ses' l start (done ++ Spec.delivered outs) ∧ (.done ∈ outs → ses'.rest = [] ∧ ses'.buffer = []) ∧
      ((ses.rest = [] ∧ ses.buffer = []) → ses'.rest = [] ∧ ses'.buffer = []) ∧
      allEvents (allSlices (st'.segs live')) = (Spec.applyAll c (Spec.calls ts)).all := by
  intro ts
  induction ts with
  | nil =>
    intro st live ses c done h he _
    exact ⟨[], [], ses, st, live, rfl, rfl, by simp, by simpa [Spec.delivered] using h, by simp, id, he⟩
  | cons t ts ih =>
    intro st live ses c done h he ha
    -- a call that yields a new session state
    have key : ∀ (call : Spec.Call R) (op : Op R) (out : Out R) (st1 : Store R) (live1 : List (Segment R)), t.call = some call → call.op = some op →
        st.step true op = some (out, st1) → SesInv st1 live1 ses l start done → allEvents (allSlices (st1.segs live1)) = (call.apply c).all →
        Spec.Allowed (call.apply c) (Spec.calls ts) →
        ∃ turns outs ses' st' live', (t :: ts).mapM Spec.Turn.turn = some turns ∧ Store.turns st ses turns = some (outs, ses', st') ∧ (∀ o ∈ outs, o ≠ .failed) ∧
          SesInv st' live' ses' l start (done ++ Spec.delivered outs) ∧ (.done ∈ outs → ses'.rest = [] ∧ ses'.buffer = []) ∧
          ((ses.rest = [] ∧ ses.buffer = []) → ses'.rest = [] ∧ ses'.buffer = []) ∧
          allEvents (allSlices (st'.segs live')) = (Spec.applyAll c (Spec.calls (t :: ts))).all := by
      intro call op out st1 live1 h1 h2 h3 h4 h5 h6
      obtain ⟨turns, outs, ses', st', live', k1, k2, k3, k4, k5, k6, k7⟩ := ih st1 live1 ses _ done h4 h5 h6
      have hcalls : Spec.calls (t :: ts) = call :: Spec.calls ts := by simp [Spec.calls, h1]
      refine ⟨.call op :: turns, outs, ses', st', live', ?_, ?_, k3, k4, k5, k6, ?_⟩
      · have ht : t.turn = some (.call op) := by simp only [Spec.Turn.turn, h1, h2, Option.map_some]
        simp [List.mapM_cons, ht, k1]
      · simp only [Store.turns, h3, Option.bind_eq_bind, Option.bind_some]; exact k2
      · rw [hcalls, k7]; rfl
    have hcons : ∀ call, t.call = some call → call.allowed c ∧ Spec.Allowed (call.apply c) (Spec.calls ts) := by
      intro call hc
      have hcalls : Spec.calls (t :: ts) = call :: Spec.calls ts := by simp [Spec.calls, hc]
      rw [hcalls] at ha; exact ha
    cases t with
    | put s full =>
      obtain ⟨⟨hs, hb, hn⟩, ha'⟩ := hcons _ rfl
      obtain ⟨g1, g2, g3⟩ := added_spec h.inv hs hb (by rw [he]; exact hn)
      have h1 := ses_added h g2
      have e1 : allEvents (allSlices ((st.added s).segs live)) = c.flushed ++ (c.pending ++ Spec.events s) := by
        rw [g3, he, Spec.Contents.all, List.append_assoc]; rfl
      cases full with
      | false =>
        exact key (.put s false) _ (.status true) (st.added s) live rfl rfl (by simp [Store.step, Store.put, g1]) h1 e1 ha'
      | true =>
        obtain ⟨st', live', k1, k2, k3, k4, k5, k6⟩ := flush_spec g2
        exact key (.put s true) _ (.status true) st' live' rfl rfl (by simp [Store.step, Store.put, g1, k1]) (ses_same h1 k2 k6 k4)
          (by rw [k4, e1]; simp [Spec.Call.apply, Spec.Contents.all]) ha'
    | flush =>
      obtain ⟨st', live', k1, k2, k3, k4, k5, k6⟩ := flush_spec h.inv
      exact key .flush _ (.status true) st' live' rfl rfl (by simp [Store.step, k1]) (ses_same h k2 k6 k4)
        (by rw [k4, he]; simp [Spec.Call.apply, Spec.Contents.all]) (hcons _ rfl).2
    | get e =>
      obtain ⟨hv, ha'⟩ := hcons _ rfl
      obtain ⟨xs, h1, h2⟩ := eval_rep (show e.valid from hv)
      obtain ⟨out, cc, g1, g2, g3⟩ := get_spec h.inv h2
      exact key (.get e) (.get xs) (.slices (some out)) _ live rfl (by simp [Spec.Call.op, h1]) (by simp only [Store.step, g1, Option.map_some])
        (ses_same h g2 (fun _ hs => hs) rfl) he ha'
    | release id =>
      have hb : (st.release id).builder = st.builder := by unfold Store.release; split <;> rfl
      have hsegs : (st.release id).segs live = st.segs live := by rw [Store.segs, hb]; rfl
      exact key (.release id) _ (.status true) (st.release id) live rfl rfl rfl
        (ses_same h (release_spec h.inv id) (by rw [hsegs]; exact fun _ hs => hs) (by rw [hsegs])) (by rw [hsegs]; exact he) (hcons _ rfl).2
    | next =>
      obtain ⟨o, ses1, st1, g1, g2, g3, g4, g5, g6⟩ := ses_next h
      have hsegs : st1.segs live = st.segs live := by rw [Store.segs, g5]; rfl
      obtain ⟨turns, outs, ses', st', live', k1, k2, k3, k4, k5, k6, k7⟩ := ih st1 live ses1 c _ g4 (by rw [hsegs]; exact he) ha
      refine ⟨.next :: turns, o :: outs, ses', st', live', ?_, ?_, ?_, ?_, ?_, ?_, k7⟩
      · have ht : (Spec.Turn.next : Spec.Turn R).turn = some .next := rfl
        simp [List.mapM_cons, ht, k1]
      · simp only [Store.turns, g1, k2, Option.bind_eq_bind, Option.bind_some]
      · intro o' ho'
        rcases List.mem_cons.1 ho' with rfl | ho'
        · exact g2
        · exact k3 o' ho'
      · rw [List.append_assoc] at k4
        have : Spec.delivered [o] ++ Spec.delivered outs = Spec.delivered (o :: outs) := by
          rw [Spec.delivered, Spec.delivered, Spec.delivered, ← List.filterMap_append]; rfl
        rw [← this]; exact k4
      · intro hd
        rcases List.mem_cons.1 hd with hd | hd
        · exact k6 (g3 hd.symm)
        · exact k5 hd
      · rintro ⟨r1, r2⟩
        apply k6
        have : st.next ses = some (.done, ⟨ses.xs, [], []⟩, st) := by rw [Store.next, r2, r1]; rfl
        rw [this] at g1
        injection g1 with g1
        injection g1 with g1 g1'
        exact g3 g1.symm

theorem flatMap_sublist {a b : List (Slice R)} (h : a.Sublist b) : (allEvents a).Sublist (allEvents b) := by
  induction h with
  | slnil => exact List.Sublist.refl _
  | cons x _ ih => rw [allEvents_cons]; exact ih.trans (List.sublist_append_right _ _)
  | cons_cons x _ ih => rw [allEvents_cons, allEvents_cons]; exact (List.Sublist.refl _).append ih

/-- **C30, partial, sessions.** After any history, a session over a set of IDs is opened. While it is open, slices are put, segments
flushed, other `get`s answered and erased segments released, in any order. Then `next` never fails; the delivered slices hold only events of the store, none twice,
and every slice has a selected event. Once `next` says that the session is done, every selected event that was stored
when the session was opened has been delivered. (As each slice has a new event, a session is done after finitely many
slices.)

Missing for the full property: `erase` while a session is open, which is refuted below. -/
theorem C30_session_partial (capacity : Nat) (hc : 0 < capacity) (calls : List (Spec.Call R)) (h : Spec.Allowed ⟨[], []⟩ calls)
    (e : Expr) (hv : e.valid) (ts : List (Spec.Turn R)) (ht : Spec.Allowed (Spec.applyAll ⟨[], []⟩ calls) (Spec.calls ts)) :
    ∃ outs st res, Spec.run (Store.make capacity) calls = some (outs, st) ∧ Spec.session st e ts = some res ∧
      .failed ∉ res ∧
      (∀ x ∈ (Spec.delivered res).flatMap Spec.events, x ∈ (Spec.applyAll (Spec.applyAll ⟨[], []⟩ calls) (Spec.calls ts)).all) ∧
      (((Spec.delivered res).flatMap Spec.events).map (·.2)).Nodup ∧
      (∀ s ∈ Spec.delivered res, ∃ x ∈ Spec.events s, Spec.selected e x = true) ∧
      (.done ∈ res → ∀ x ∈ (Spec.applyAll ⟨[], []⟩ calls).all, Spec.selected e x = true → x ∈ (Spec.delivered res).flatMap Spec.events) := by
  obtain ⟨outs, st, g1, _, g3⟩ := rel_run calls _ _ (rel_make hc) h
  obtain ⟨⟨live, h1, h2⟩, h3, h4⟩ := g3
  obtain ⟨xs, e1, e2⟩ := eval_rep hv
  obtain ⟨ses, cc, k1, k2⟩ := ses_extract h1 e2
  have hall := rel_all h2 h3
  obtain ⟨turns, res, ses', st', live', m1, m2, m3, m4, m5, _, m7⟩ := ses_turns ts _ live ses _ [] k2 hall ht
  rw [List.nil_append] at m4
  obtain ⟨sub, s1, s2, s3⟩ := m4.sound
  have hsub : (allEvents sub).Sublist (allEvents (allSlices (st'.segs live'))) := by
    exact flatMap_sublist s2
  have hev : ((Spec.delivered res).flatMap Spec.events ++ (ses'.buffer ++ ses'.rest.flatMap (foundFor e.bits (st'.segs live'))).flatMap Spec.events).Perm (allEvents sub) := by
    rw [← List.flatMap_append, ← List.append_assoc]
    exact s1.flatMap_right _
  refine ⟨outs, st, res, g1, ?_, fun hf => m3 _ hf rfl, ?_, ?_, ?_, ?_⟩
  · simp only [Spec.session, e1, k1, m1, m2, Option.bind_eq_bind, Option.bind_some]
  · intro x hx
    rw [← m7]
    exact hsub.subset (hev.mem_iff.1 (List.mem_append.2 (Or.inl hx)))
  · have : ((allEvents sub).map (·.2)).Nodup := by
      rw [List.Nodup, List.pairwise_map]
      exact (m4.inv.good.asc.sublist hsub).imp fun h => Nat.ne_of_lt h
    rw [← (hev.map (fun x : R × Nat => x.2)).nodup_iff, List.map_append] at this
    exact (List.nodup_append.1 this).1
  · intro s hs
    obtain ⟨x, hx, hl⟩ := hits_iff.1 (s3 s (s1.mem_iff.1 (by simp [hs])))
    exact ⟨x, hx, by simpa [Spec.selected] using hl⟩
  · intro hd x hx hsel
    obtain ⟨r1, r2⟩ := m5 hd
    rw [← hall] at hx
    obtain ⟨t, ht1, ht2⟩ := mem_allEvents.1 hx
    have := m4.complete t ht1 (hits_iff.2 ⟨x, ht2, by simpa [Spec.selected] using hsel⟩)
    rw [r1, r2] at this
    simp only [List.append_nil, List.flatMap_nil] at this
    exact List.mem_flatMap.2 ⟨t, this, ht2⟩

namespace Spec

/-- A segment and a builder. -/
def sessionCalls : List (Call Char) := [.put ⟨0, ['a', 'b']⟩ true, .put ⟨10, ['c']⟩ false]

/-- A slice comes between two slices of the session; then the builder, which is read, is flushed. -/
def sessionTurns : List (Turn Char) := [.put ⟨20, ['d']⟩ false, .next, .flush, .next, .next, .next]

end Spec

/-- The session delivers the slice that was put after it was opened. -/
example : Spec.Allowed ⟨[], []⟩ Spec.sessionCalls ∧ Spec.Allowed (Spec.applyAll ⟨[], []⟩ Spec.sessionCalls) (Spec.calls Spec.sessionTurns) ∧
    (do
      let r ← Spec.run (Store.make 1) Spec.sessionCalls
      Spec.session r.2 (.history [.bits true 30]) Spec.sessionTurns) =
      some [.slice ⟨0, ['a', 'b']⟩, .slice ⟨10, ['c']⟩, .slice ⟨20, ['d']⟩, .done] := by
  refine ⟨?_, ?_, by decide +kernel⟩
  · simp [Spec.sessionCalls, Spec.Allowed, Spec.Call.allowed, Spec.Call.apply, Spec.Contents.all, Spec.events]
  · have : Spec.calls Spec.sessionTurns = [.put ⟨20, ['d']⟩ false, .flush] := rfl
    rw [this]
    simp [Spec.sessionCalls, Spec.applyAll, Spec.Allowed, Spec.Call.allowed, Spec.Call.apply, Spec.Contents.all, Spec.events]

/-- If other events of a segment are erased, and the old file is deleted, while a session has still to read the segment, then
`next` fails: the event `a`, which was not erased, is not delivered. -/
theorem C30_session_erase_refuted :
    (do
      let r ← Spec.run (Store.make 1) [Spec.Call.put (⟨0, ['a', 'b']⟩ : Slice Char) true, .put ⟨10, ['c']⟩ true]
      let xs ← (Expr.history [.bits true 30]).eval
      let ys ← (Expr.history [.bits false 1, .bit true]).eval
      let s ← r.2.extract xs
      let rs ← s.2.turns s.1 [.call (.erase ys), .call (.release 0), .next, .next, .next]
      some rs.1) = some [.slice ⟨10, ['c']⟩, .failed, .done] := by decide +kernel

end Verif.Archive
