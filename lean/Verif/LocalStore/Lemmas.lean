import Verif.LocalStore.Spec
import Verif.Archive.Lemmas
import Verif.Slice.Props

/-! # Lemmas on partition-local stores -/

namespace Verif.LocalStore

open Verif.Bitmap Verif.Bitmap.Spec Verif.Slice Verif.Archive

variable {L V : Type}

theorem proper_good {ss : List (Slice (L × V))} (h : Spec.Proper ss) : Good ss := ⟨h.nonempty, h.bound, h.ascending⟩

theorem evaluate_rep {R : Type} (check : R → Bool) (s : Slice R) :
    ∃ bm, evaluate check s = some bm ∧ Represents bm (List.replicate s.offset false ++ s.rows.map check) := by
  obtain ⟨b0, h1, h2⟩ := appendBits_rep (s := {}) (l := []) (Or.inl ⟨rfl, rfl⟩) false s.offset
  have hfold : ∀ (rows : List R) (b : EwahBitmap) (l : List Bool), Represents b l →
      ∃ bm, rows.foldlM (fun bm row => EwahBitmap.appendBit bm (check row)) b = some bm ∧ Represents bm (l ++ rows.map check) := by
    intro rows
    induction rows with
    | nil => intro b l h; exact ⟨b, rfl, by simpa using h⟩
    | cons r rows ih =>
      intro b l h
      obtain ⟨b', g1, g2⟩ := appendBit_rep h (check r)
      obtain ⟨bm, g3, g4⟩ := ih b' _ g2
      exact ⟨bm, by rw [List.foldlM_cons, g1]; exact g3, by simpa using g4⟩
  obtain ⟨bm, h3, h4⟩ := hfold s.rows b0 _ h2
  exact ⟨bm, by rw [evaluate, h1]; exact h3, by simpa using h4⟩

/-- Evaluating a check and selecting the hits keeps the rows that pass. -/
theorem evaluate_select {R : Type} (check : R → Bool) (s : Slice R) (hs : s.rows ≠ []) (hb : s.offset + s.rows.length < 2 ^ 64) :
    ∃ out, (evaluate check s).bind (select s) = some out ∧ out.flatMap Slice.events = s.events.filter fun x => check x.1 := by
  obtain ⟨bm, h1, h2⟩ := evaluate_rep check s
  obtain ⟨out, h3, h4, _⟩ := select_spec s hs hb h2
  refine ⟨out, by rw [h1]; exact h3, ?_⟩
  rw [h4]
  apply List.filter_congr
  intro x hx
  obtain ⟨g1, g2⟩ := mem_events.1 hx
  rw [List.getElem?_append_right (by simpa using g1), List.length_replicate, List.getElem?_map, g2]
  cases h : check x.1 <;> simp [h]

/-- Lists related element by element. -/
inductive All2 {A B : Type} (P : A → B → Prop) : List A → List B → Prop
  | nil : All2 P [] []
  | cons {a b as bs} : P a b → All2 P as bs → All2 P (a :: as) (b :: bs)

theorem gather_some {A B : Type} {f : A → Option (List B)} {P : A → List B → Prop} : ∀ {as : List A},
    (∀ a ∈ as, ∃ b, f a = some b ∧ P a b) → ∃ bs : List (List B), gather f as = some bs.flatten ∧ All2 P as bs := by
  intro as
  induction as with
  | nil => intro _; exact ⟨[], rfl, .nil⟩
  | cons a as ih =>
    intro h
    obtain ⟨b, h1, h2⟩ := h a (by simp)
    obtain ⟨bs, h3, h4⟩ := ih fun a ha => h a (by simp [ha])
    exact ⟨b :: bs, by rw [gather, h1, h3]; rfl, .cons h2 h4⟩

/-- What the events of a list of slices give if every slice gives its part. -/
theorem flatten_of {A B C : Type} {P : A → List B → Prop} {g : A → List C} {h : List B → List C} (h0 : h [] = [])
    (happ : ∀ x y, h (x ++ y) = h x ++ h y) (hP : ∀ a b, P a b → h b = g a) :
    ∀ {as : List A} {bs : List (List B)}, All2 P as bs → h bs.flatten = as.flatMap g := by
  intro as bs hf
  induction hf with
  | nil => simpa using h0
  | cons h1 _ ih => rw [List.flatten_cons, happ, hP _ _ h1, ih, List.flatMap_cons]

/-- A set of IDs that selects some event is not the empty bitmap. -/
theorem bits_ne {R : Type} {l : List Bool} {s : Slice R} (h : hits l s.events = true) : (l == []) = false := by
  obtain ⟨e, _, he⟩ := hits_iff.1 h
  cases l with
  | nil => simp at he
  | cons _ _ => rfl

/-- The events of a slice that a query asks for. -/
def part (q : Query L V) (l : List Bool) (s : Slice (L × V)) : List (Spec.Event L V) :=
  s.events.filter fun x => l[x.2]? == some true && Spec.matching q x.1

theorem checkers_some {q : Query L V} {ss : List (Slice (L × V))} (h : ∀ s ∈ ss, checkerOf q s ≠ none) :
    ∃ cs, checkers q ss = some cs ∧ cs.map (·.1) = ss ∧ ∀ c ∈ cs, checkerOf q c.1 = some c.2 := by
  induction ss with
  | nil => exact ⟨[], rfl, rfl, by simp⟩
  | cons s ss ih =>
    obtain ⟨cs, h1, h2, h3⟩ := ih fun s hs => h s (by simp [hs])
    cases hc : checkerOf q s with
    | none => exact absurd hc (h s (by simp))
    | some c =>
      refine ⟨(s, c) :: cs, ?_, by simp [h2], ?_⟩
      · rw [checkers, List.mapM_cons]
        rw [checkers] at h1
        rw [h1, hc]; rfl
      · intro x hx
        rcases List.mem_cons.1 hx with rfl | hx
        · exact hc
        · exact h3 x hx

/-- The check of a slice agrees with the query. -/
theorem checker_matching {q : Query L V} {s : Slice (L × V)} {c : Option (L × V → Bool)} (h1 : s.rows ≠ [])
    (h2 : ∀ r ∈ s.rows, ∀ r' ∈ s.rows, r.1 = r'.1) (hc : checkerOf q s = some c) :
    ∀ r ∈ s.rows, Spec.matching q r = (c.getD fun _ => true) r := by
  intro r hr
  rw [Spec.matching]
  rw [checkerOf] at hc
  cases hg : q.given with
  | false =>
    rw [hg] at hc
    simp only [Bool.false_eq_true, if_false, Option.some.injEq] at hc
    subst hc
    simp
  | true =>
    rw [hg] at hc
    rw [if_pos rfl] at hc ⊢
    cases hrows : s.rows with
    | nil => exact absurd hrows h1
    | cons r0 rest =>
      rw [hrows] at hc
      simp only [List.head?_cons] at hc
      rw [h2 r hr r0 (by rw [hrows]; simp), hc]
      cases c <;> rfl

theorem mem_rows_of_events {s : Slice (L × V)} {x : Spec.Event L V} (h : x ∈ s.events) : x.1 ∈ s.rows :=
  List.mem_of_getElem? (mem_events.1 h).2

theorem not_invalid {R : Type} {s : Slice R} (h1 : s.rows ≠ []) (h2 : s.offset + s.rows.length < 2 ^ 64) : s.offset ≠ invalidId := by
  have := rows_pos h1
  have h : invalidId = 2 ^ 64 - 1 := rfl
  omega

theorem kept_part {q : Query L V} {s : Slice (L × V)} {c : Option (L × V → Bool)} {l : List Bool}
    (hm : ∀ r ∈ s.rows, Spec.matching q r = (c.getD fun _ => true) r) (hl : (l == []) = false) :
    Slice.Spec.kept s s.offset c l = (part q l s).map (·.1) := by
  rw [Slice.Spec.kept, part, Slice.events]
  congr 1
  apply List.filter_congr
  intro x hx
  rw [hl, Bool.false_or, hm x.1 (mem_rows_of_events (show x ∈ s.events from hx))]

/-- What one slice contributes. -/
def Contribution (q : Query L V) (l : List Bool) (s : Slice (L × V)) (out : List (Sent L V)) : Prop :=
  match q.cmd with
  | .count _ => out = [.count (part q l s).length]
  | .extract true => ∃ ss : List (Slice (L × V)), out = ss.map .slice ∧ ss.flatMap Slice.events = part q l s
  | .extract false => ∃ ss : List (Slice (L × V)), out = ss.map .slice ∧ ss.flatMap (·.rows) = (part q l s).map (·.1)
  | .erase => False

theorem perSlice_spec {q : Query L V} {e : Expr} {ids : EwahBitmap} {s : Slice (L × V)} {c : Option (L × V → Bool)} (hq : Spec.IsLookup q)
    (hv : e.valid) (hi : e.eval = some ids) (h1 : s.rows ≠ []) (h2 : ∀ r ∈ s.rows, ∀ r' ∈ s.rows, r.1 = r'.1)
    (h3 : s.offset + s.rows.length < 2 ^ 64) (hh : hits e.bits s.events = true) (hc : checkerOf q s = some c)
    (hn : q.cmd = .extract true → q.given = true → c ≠ none) :
    ∃ out, perSlice q ids s c = some out ∧ Contribution q e.bits s out := by
  have hm := checker_matching h1 h2 hc
  have hl := bits_ne hh
  have hk := kept_part (l := e.bits) hm hl
  rcases hq with hq | ⟨p, hq⟩
  · obtain ⟨ids', g1, g2⟩ := C57_count s h1 h3 c e hv
    obtain rfl := Option.some.inj (hi.symm.trans g1)
    refine ⟨_, by rw [perSlice, hq]; simp only; rw [g2]; rfl, ?_⟩
    rw [Contribution, hq, hk, List.length_map]
  · cases p with
    | false =>
      obtain ⟨ids', out, g1, g2, g3, _⟩ := C57_filter s h1 (Or.inr h3) c e hv
      obtain rfl := Option.some.inj (hi.symm.trans g1)
      refine ⟨_, by rw [perSlice, hq]; simp only; rw [g2]; rfl, ?_⟩
      rw [Contribution, hq]
      refine ⟨out.toList, rfl, ?_⟩
      rw [if_neg (not_invalid h1 h3), hk] at g3
      rw [← g3]
      cases out <;> simp
    | true =>
      obtain ⟨ids', subs, g1, g2, g3, g4⟩ := C27_select s h1 h3 e hv
      obtain rfl := Option.some.inj (hi.symm.trans g1)
      have hsub : ∀ t ∈ subs, ∃ out, extractSub q c t = some out ∧ out.flatMap Slice.events = t.events.filter fun x => Spec.matching q x.1 := by
        intro t ht
        have htev : ∀ x ∈ t.events, x ∈ s.events := by
          intro x hx
          have : x ∈ subs.flatMap Slice.Spec.events := List.mem_flatMap.2 ⟨t, ht, hx⟩
          rw [g4] at this
          exact (List.mem_filter.1 this).1
        rw [extractSub]
        cases hg : q.given with
        | false =>
          refine ⟨[t], by simp, ?_⟩
          rw [List.filter_eq_self.2]
          · simp
          · intro x _
            rw [Spec.matching, hg]; rfl
        | true =>
          have htb : t.offset + t.rows.length < 2 ^ 64 := by
            have hr := rows_pos (g3 t ht)
            obtain ⟨y, hy1, hy2⟩ := event_at (s := t) (i := t.offset + t.rows.length - 1) (by omega) (by omega)
            have := (event_bounds (htev y hy1)).2
            omega
          obtain ⟨out, k1, k2⟩ := evaluate_select (check c) t (g3 t ht) htb
          refine ⟨out, by rw [if_pos rfl]; exact k1, ?_⟩
          rw [k2]
          apply List.filter_congr
          intro x hx
          rw [hm x.1 (mem_rows_of_events (htev x hx)), check]
          cases c with
          | none => exact absurd rfl (hn hq hg)
          | some c => rfl
      obtain ⟨bs, k1, k2⟩ := gather_some hsub
      refine ⟨_, by rw [perSlice, hq]; simp only; rw [g2, Option.bind_some, k1]; rfl, ?_⟩
      rw [Contribution, hq]
      refine ⟨bs.flatten, rfl, ?_⟩
      rw [flatten_of (h := fun b => b.flatMap Slice.events) (g := fun t : Slice (L × V) => t.events.filter fun x => Spec.matching q x.1) rfl
        (by simp) (fun a b h => h) k2, part]
      have : ∀ (l : List (Slice (L × V))), (l.flatMap fun t => t.events.filter fun x => Spec.matching q x.1) =
          (l.flatMap Slice.events).filter fun x => Spec.matching q x.1 := by
        intro l
        induction l with
        | nil => rfl
        | cons a l ih => rw [List.flatMap_cons, List.flatMap_cons, List.filter_append, ih]
      rw [this]
      have g4' : subs.flatMap Slice.events = s.events.filter fun x => e.bits[x.2]? == some true := g4
      rw [g4', List.filter_filter]
      apply List.filter_congr
      intro x _
      rw [Bool.and_comm]

theorem wanted_eq {q : Query L V} {e : Expr} {ss : List (Slice (L × V))} :
    (ss.filter fun s => hits e.bits s.events).flatMap (part q e.bits) = Spec.wanted (allEvents ss) q e := by
  induction ss with
  | nil => rfl
  | cons s ss ih =>
    have hp : Spec.wanted (allEvents (s :: ss)) q e = part q e.bits s ++ Spec.wanted (allEvents ss) q e := by
      rw [Spec.wanted, allEvents_cons, List.filter_append]; rfl
    rw [hp, ← ih, List.filter_cons]
    split
    · rw [List.flatMap_cons]
    · next h =>
      have : part q e.bits s = [] := by
        rw [part, List.filter_eq_nil_iff]
        intro x hx hx'
        apply h
        rw [Bool.and_eq_true] at hx'
        exact hits_iff.2 ⟨x, hx, by simpa using hx'.1⟩
      rw [this, List.nil_append]

/-- Looking up and answering a query. -/
theorem lookup_answer {q : Query L V} {e : Expr} {ids : EwahBitmap} {ss : List (Slice (L × V))} (h : Spec.Proper ss) (hq : Spec.IsLookup q)
    (ha : Spec.Answerable (allEvents ss) q) (hv : e.valid) (hi : e.eval = some ids) :
    ∃ found out, lookupSlices ids ss = some found ∧ handleLookup q ids found = some out ∧ Spec.Answer (allEvents ss) q e out := by
  obtain ⟨ids', h1, h2⟩ := eval_rep hv
  obtain rfl := Option.some.inj (hi.symm.trans h1)
  refine ⟨ss.filter (fun s => hits e.bits s.events), ?_⟩
  have hch : ∀ s ∈ ss, ∃ c, checkerOf q s = some c ∧ (q.cmd = .extract true → q.given = true → c ≠ none) := by
    intro s hs
    rw [checkerOf]
    cases hg : q.given with
    | false => exact ⟨none, by simp, by simp⟩
    | true =>
      rw [if_pos rfl]
      obtain ⟨x, hx, _⟩ := first_event (h.nonempty s hs)
      cases hrows : s.rows with
      | nil => exact absurd hrows (h.nonempty s hs)
      | cons r rest =>
        obtain ⟨g1, g2⟩ := ha hg x (mem_allEvents.2 ⟨s, hs, hx⟩)
        have hr : r.1 = x.1.1 := h.oneLayout s hs r (by rw [hrows]; simp) x.1 (mem_rows_of_events hx)
        simp only [List.head?_cons, hr]
        cases hc : q.checker x.1.1 with
        | none => exact absurd hc g1
        | some c =>
          refine ⟨c, rfl, ?_⟩
          rintro hq' _ rfl
          exact g2 hq' hc
  have hf : ∀ s ∈ ss.filter (fun s => hits e.bits s.events), s ∈ ss ∧ hits e.bits s.events = true := by
    intro s hs; exact List.mem_filter.1 hs
  obtain ⟨cs, g1, g2, g3⟩ := checkers_some (q := q) (ss := ss.filter fun s => hits e.bits s.events) (by
    intro s hs
    obtain ⟨c, hc, _⟩ := hch s (hf s hs).1
    rw [hc]; simp)
  have hcs : ∀ c ∈ cs, ∃ out, perSlice q ids c.1 c.2 = some out ∧ Contribution q e.bits c.1 out := by
    intro c hc
    have hm : c.1 ∈ ss.filter fun s => hits e.bits s.events := by rw [← g2]; exact List.mem_map.2 ⟨c, hc, rfl⟩
    obtain ⟨hm1, hm2⟩ := hf _ hm
    obtain ⟨c', hc1, hc2⟩ := hch _ hm1
    obtain rfl := Option.some.inj ((g3 c hc).symm.trans hc1)
    exact perSlice_spec hq hv hi (h.nonempty _ hm1) (h.oneLayout _ hm1) (h.bound _ hm1) hm2 hc1 hc2
  obtain ⟨bs, k1, k2⟩ := gather_some (as := cs) (P := fun c out => Contribution q e.bits c.1 out) hcs
  have hw := wanted_eq (q := q) (e := e) (ss := ss)
  rw [← g2, List.flatMap_map] at hw
  refine ⟨(.done, bs.flatten), lookupSlices_spec (proper_good h) h2, ?_, rfl, ?_⟩
  · rw [handleLookup, g1]
    simp only
    rcases hq with hq | ⟨p, hq⟩
    · rw [hq]; simp only [k1]; rfl
    · rw [hq]; simp only [k1]; rfl
  · rcases hq with hq | ⟨p, hq⟩
    · rw [hq]
      simp only [Contribution, hq] at k2
      rw [← hw]
      clear hw k1 hcs g3 g2 g1 hf
      induction k2 with
      | nil => exact ⟨[], rfl, rfl⟩
      | cons h1 _ ih =>
        obtain ⟨ns, i1, i2⟩ := ih
        exact ⟨(part q e.bits _).length :: ns, by simp only at i1; simp only [List.flatten_cons, i1, h1]; rfl, by rw [List.sum_cons, i2, List.flatMap_cons, List.length_append]⟩
    · cases p with
      | true =>
        rw [hq]
        simp only [Contribution, hq] at k2
        rw [← hw]
        clear hw k1 hcs g3 g2 g1 hf
        induction k2 with
        | nil => exact ⟨[], rfl, rfl⟩
        | cons h1 _ ih =>
          obtain ⟨ss1, j1, j2⟩ := h1
          obtain ⟨ss2, i1, i2⟩ := ih
          refine ⟨ss1 ++ ss2, by simp only at i1; simp only [List.flatten_cons, i1, j1, List.map_append], ?_⟩
          rw [List.flatMap_append, i2, List.flatMap_cons]
          exact congrArg (· ++ _) j2
      | false =>
        rw [hq]
        simp only [Contribution, hq] at k2
        rw [← hw]
        clear hw k1 hcs g3 g2 g1 hf
        induction k2 with
        | nil => exact ⟨[], rfl, rfl⟩
        | cons h1 _ ih =>
          obtain ⟨ss1, j1, j2⟩ := h1
          obtain ⟨ss2, i1, i2⟩ := ih
          refine ⟨ss1 ++ ss2, by simp only at i1; simp only [List.flatten_cons, i1, j1, List.map_append], ?_⟩
          rw [List.flatMap_append, i2, List.flatMap_cons, List.map_append, j2]

/-- Erasing from proper slices. -/
theorem eraseFrom_spec {e : Expr} {ids : EwahBitmap} {ss : List (Slice (L × V))} (h : Spec.Proper ss) (hv : e.valid) (hi : e.eval = some ids) :
    ∃ new, eraseFrom ids ss = some new ∧ Spec.Proper new ∧ allEvents new = Spec.without (allEvents ss) e := by
  obtain ⟨ids', h1, h2⟩ := eval_rep hv
  obtain rfl := Option.some.inj (hi.symm.trans h1)
  obtain ⟨mask, k1, k2⟩ := flip_rep h2
  obtain ⟨mask', new, k3, k4, k5⟩ := keep_fold e.bits ss mask _ [] (proper_good h) k2 (by
    intro i
    simp only [List.getD, List.getElem?_map]
    cases e.bits[i]? <;> simp) (by simp)
  have k4' : allEvents new = Spec.without (allEvents ss) e := by rw [k4]; simp [allEvents, Spec.without, Spec.selected]
  have hg : Good new := good_of_sublist (proper_good h) k5 (by rw [k4']; exact List.filter_sublist)
  refine ⟨new, by rw [eraseFrom, k1, Option.bind_some, k3]; rfl, ⟨k5, ?_, hg.bound, hg.asc⟩, k4'⟩
  have hone : ∀ (all : List (Slice (L × V))) (mask : EwahBitmap) (lm : List Bool) (acc : List (Slice (L × V))), Good all → Represents mask lm →
      (∀ s ∈ all, ∀ r ∈ s.rows, ∀ r' ∈ s.rows, r.1 = r'.1) → (∀ s ∈ acc, ∀ r ∈ s.rows, ∀ r' ∈ s.rows, r.1 = r'.1) →
      ∀ res, all.foldlM keepStep (mask, acc) = some res → ∀ s ∈ res.2, ∀ r ∈ s.rows, ∀ r' ∈ s.rows, r.1 = r'.1 := by
    intro all
    induction all with
    | nil =>
      intro mask lm acc _ _ _ hacc res hres
      obtain rfl := Option.some.inj hres
      exact hacc
    | cons s all ih =>
      intro mask lm acc hgood hm hall hacc res hres
      obtain ⟨m', lm', g1, g2, _⟩ := expand_spec hm (add64 s.offset s.rows.length)
      obtain ⟨out, g6, g7, g8⟩ := select_spec s (hgood.ne s (by simp)) (hgood.bound s (by simp)) g2
      rw [List.foldlM_cons] at hres
      simp only [keepStep, g1, g6, Option.bind_eq_bind, Option.bind_some] at hres
      refine ih m' lm' (acc ++ out) (good_cons hgood) g2 (fun s hs => hall s (by simp [hs])) ?_ res hres
      intro t ht r hr r' hr'
      rcases List.mem_append.1 ht with ht | ht
      · exact hacc t ht r hr r' hr'
      · have hin : ∀ r ∈ t.rows, r ∈ s.rows := by
          intro r hr
          obtain ⟨i, hi⟩ := List.getElem?_of_mem hr
          have : (r, t.offset + i) ∈ t.events := mem_events.2 ⟨by simp, by simpa using hi⟩
          have : (r, t.offset + i) ∈ out.flatMap Slice.events := List.mem_flatMap.2 ⟨t, ht, this⟩
          rw [g7] at this
          exact mem_rows_of_events (List.mem_filter.1 this).1
        exact hall s (by simp) r (hin r hr) r' (hin r' hr')
  exact fun s hs => hone ss mask _ [] (proper_good h) k2 h.oneLayout (by simp) _ k3 s hs

end Verif.LocalStore
