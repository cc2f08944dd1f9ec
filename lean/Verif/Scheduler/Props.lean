import Verif.Scheduler.Model

/-! # C35: A query visits every candidate partition exactly once -/

namespace Verif.Scheduler

namespace Spec

/-- The partitions that were scheduled for a query, in order. -/
def scheduled (q : Nat) : List Out → List Nat
  | [] => []
  | .batch _ q' ids _ :: os => if q' = q then ids ++ scheduled q os else scheduled q os
  | _ :: os => scheduled q os

/-- The partitions of the index. -/
def Has (s : State) (id : Nat) : Prop := s.active = some id ∨ id ∈ s.unpersisted ∨ id ∈ s.persisted

/-- How often a worker was given a batch. -/
def batches (w : Nat) : List Out → Nat
  | [] => 0
  | .batch w' _ _ _ :: os => (if w' = w then 1 else 0) + batches w os
  | _ :: os => batches w os

/-- How often a worker has offered itself. -/
def offers (w : Nat) : List Ev → Nat
  | [] => 0
  | .worker w' :: es => (if w' = w then 1 else 0) + offers w es
  | _ :: es => offers w es

end Spec

open Spec

theorem scheduled_append (q : Nat) (a b : List Out) : scheduled q (a ++ b) = scheduled q a ++ scheduled q b := by
  induction a with
  | nil => rfl
  | cons o a ih =>
    cases o <;> simp only [List.cons_append, scheduled, ih]
    split <;> simp

theorem batches_append (w : Nat) (a b : List Out) : batches w (a ++ b) = batches w a + batches w b := by
  induction a with
  | nil => simp [batches]
  | cons o a ih => cases o <;> simp only [List.cons_append, batches, ih] <;> omega

theorem run_append (mm : Nat → Nat → Bool) (s : State) (a b : List Ev) :
    run mm s (a ++ b) = ((run mm (run mm s a).1 b).1, (run mm s a).2 ++ (run mm (run mm s a).1 b).2) := by
  induction a generalizing s with
  | nil => simp [run]
  | cons e a ih => simp [run, ih]

/-- An invariant of the state and what was observed so far. -/
theorem run_inv {mm : Nat → Nat → Bool} {I : State → List Out → Prop} {ok : Ev → Prop}
    (h : ∀ s outs e, ok e → I s outs → I (step mm s e).1 (outs ++ (step mm s e).2)) :
    ∀ (es : List Ev) (s : State) (outs : List Out), (∀ e ∈ es, ok e) → I s outs → I (run mm s es).1 (outs ++ (run mm s es).2)
  | [], s, outs, _, hi => by rw [run]; simpa using hi
  | e :: es, s, outs, hok, hi => by
    rw [run, ← List.append_assoc]
    exact run_inv h es _ _ (fun e he => hok e (by simp [he])) (h s outs e (hok e (by simp)) hi)

/-! ### The loop -/

theorem collect_length (sp : Nat → Bool) : ∀ (ids : List Nat) (n : Nat), (collect sp n ids).1.length ≤ n
  | ids, 0 => by rw [collect]; simp
  | [], n + 1 => by rw [collect]; simp
  | id :: ids, n + 1 => by
    rw [collect]
    by_cases h : sp id = true
    · rw [if_pos h]; have := collect_length sp ids n; simp only [List.length_cons]; omega
    · rw [if_neg h]; exact collect_length sp ids (n + 1)

theorem collect_short (sp : Nat → Bool) : ∀ (ids : List Nat) (n : Nat), (collect sp n ids).1.length < n → (collect sp n ids).2 = []
  | ids, 0, h => by omega
  | [], n + 1, _ => by rw [collect]
  | id :: ids, n + 1, h => by
    rw [collect] at h ⊢
    by_cases hs : sp id = true
    · rw [if_pos hs] at h ⊢
      simp only [List.length_cons] at h
      exact collect_short sp ids n (by omega)
    · rw [if_neg hs] at h ⊢
      exact collect_short sp ids (n + 1) h

theorem collect_split (sp : Nat → Bool) : ∀ (ids : List Nat) (n : Nat), ∃ skipped, (∀ id ∈ skipped, sp id = false) ∧
    ((collect sp n ids).1 ++ skipped ++ (collect sp n ids).2).Perm ids ∧ ∀ id ∈ (collect sp n ids).1, sp id = true
  | ids, 0 => ⟨[], by simp, by rw [collect]; simp, by rw [collect]; simp⟩
  | [], n + 1 => ⟨[], by simp, by rw [collect]; simp, by rw [collect]; simp⟩
  | id :: ids, n + 1 => by
    rw [collect]
    by_cases h : sp id = true
    · rw [if_pos h]
      obtain ⟨sk, h1, h2, h3⟩ := collect_split sp ids n
      refine ⟨sk, h1, ?_, ?_⟩
      · simp only [List.cons_append]
        exact h2.cons id
      · intro x hx
        rcases List.mem_cons.1 hx with rfl | hx
        · exact h
        · exact h3 x hx
    · rw [if_neg h]
      obtain ⟨sk, h1, h2, h3⟩ := collect_split sp ids (n + 1)
      refine ⟨id :: sk, ?_, ?_, h3⟩
      · intro x hx
        rcases List.mem_cons.1 hx with rfl | hx
        · simpa using h
        · exact h1 x hx
      · refine .trans ?_ (h2.cons id)
        rw [List.append_assoc, List.append_assoc, List.cons_append]
        exact List.perm_middle

theorem spinUp_iff (s : State) (id : Nat) : spinUp s id = true ↔ Has s id := by
  simp [spinUp, Has, or_assoc]

/-! ### Sorting -/

theorem mem_insertSorted (x y : Nat) : ∀ ys : List Nat, y ∈ insertSorted x ys ↔ y = x ∨ y ∈ ys
  | [] => by simp [insertSorted]
  | z :: ys => by
    rw [insertSorted]
    by_cases h : x < z
    · rw [if_pos h]; simp
    · rw [if_neg h]
      by_cases h' : x = z
      · rw [if_pos h']; subst h'; simp
      · rw [if_neg h', List.mem_cons, mem_insertSorted x y ys, List.mem_cons]
        constructor
        · rintro (h | h | h) <;> simp [h]
        · rintro (h | h | h) <;> simp [h]

theorem mem_sortUnique (y : Nat) (xs : List Nat) : y ∈ sortUnique xs ↔ y ∈ xs := by
  rw [sortUnique]
  induction xs with
  | nil => simp
  | cons x xs ih => rw [List.foldr_cons, mem_insertSorted, ih, List.mem_cons]

theorem insertSorted_sorted (x : Nat) : ∀ ys : List Nat, ys.Pairwise (· < ·) → (insertSorted x ys).Pairwise (· < ·)
  | [], _ => by simp [insertSorted]
  | z :: ys, h => by
    rw [insertSorted]
    rw [List.pairwise_cons] at h
    by_cases h1 : x < z
    · rw [if_pos h1, List.pairwise_cons, List.pairwise_cons]
      refine ⟨?_, h⟩
      intro y hy
      rcases List.mem_cons.1 hy with rfl | hy
      · exact h1
      · exact Nat.lt_trans h1 (h.1 y hy)
    · rw [if_neg h1]
      by_cases h2 : x = z
      · rw [if_pos h2, List.pairwise_cons]; exact h
      · rw [if_neg h2, List.pairwise_cons]
        refine ⟨?_, insertSorted_sorted x ys h.2⟩
        intro y hy
        rcases (mem_insertSorted x y ys).1 hy with rfl | hy
        · omega
        · exact h.1 y hy

theorem sortUnique_nodup (xs : List Nat) : (sortUnique xs).Nodup := by
  have : (sortUnique xs).Pairwise (· < ·) := by
    rw [sortUnique]
    induction xs with
    | nil => simp
    | cons x xs ih => exact insertSorted_sorted x _ ih
  exact this.imp (fun h => by omega)

/-! ### Association lists -/

theorem lookup_filter_self {β : Type} (q : Nat) (l : List (Nat × β)) : (l.filter (·.1 != q)).lookup q = none := by
  induction l with
  | nil => rfl
  | cons a l ih =>
    obtain ⟨k, v⟩ := a
    rw [List.filter_cons]
    by_cases h : k = q
    · simp [h, ih]
    · have h1 : ((k, v).1 != q) = true := by simpa using h
      rw [if_pos h1, List.lookup_cons]
      have h2 : (q == k) = false := by simpa using Ne.symm h
      rw [h2]
      exact ih

theorem lookup_filter_ne {β : Type} {q q' : Nat} (hq : q ≠ q') (l : List (Nat × β)) : (l.filter (·.1 != q')).lookup q = l.lookup q := by
  induction l with
  | nil => rfl
  | cons a l ih =>
    obtain ⟨k, v⟩ := a
    rw [List.filter_cons]
    by_cases h : k = q'
    · subst h
      have h2 : (q == k) = false := by simpa using hq
      rw [if_neg (by simp), List.lookup_cons, h2, ih]
    · have h1 : ((k, v).1 != q') = true := by simpa using h
      rw [if_pos h1, List.lookup_cons, List.lookup_cons, ih]

theorem lookup_cons_self {β : Type} (q : Nat) (v : β) (l : List (Nat × β)) : ((q, v) :: l).lookup q = some v := by
  rw [List.lookup_cons, beq_self_eq_true]

theorem lookup_cons_ne {β : Type} {q q' : Nat} (hq : q ≠ q') (v : β) (l : List (Nat × β)) : ((q', v) :: l).lookup q = l.lookup q := by
  have h2 : (q == q') = false := by simpa using hq
  rw [List.lookup_cons, h2]

/-! ### What the handlers do to the queries -/

/-- The part of the state that concerns a query. -/
structure Same (q : Nat) (s t : State) : Prop where
  waiting : t.waiting.lookup q = s.waiting.lookup q
  pending : t.pending.lookup q = s.pending.lookup q
  queries : q ∈ t.queries ↔ q ∈ s.queries

theorem Same.refl (q : Nat) (s : State) : Same q s s := ⟨rfl, rfl, .rfl⟩

/-- What can happen to a query in a step. -/
inductive Change (q : Nat) (D : Prop) (s t : State) : List Out → Prop
  | same (h : Same q s t) (outs) (ho : scheduled q outs = []) : Change q D s t outs
  | arrive (client : Nat) (hn : q ∉ s.queries) (hw : t.waiting.lookup q = some (client, s.active.toList ++ s.unpersisted))
      (hp : t.pending.lookup q = s.pending.lookup q) (hq : q ∈ t.queries) : Change q D s t []
  | answer (client : Nat) (snap found ids : List Nat) (outs : List Out) (hw : s.waiting.lookup q = some (client, snap)) (hw' : t.waiting.lookup q = none)
      (hi : ids = sortUnique (snap ++ found)) (hp : if ids = [] then t.pending.lookup q = s.pending.lookup q else t.pending.lookup q = some ids)
      (hm : MetaReply.candidates q found ∈ s.toIndex) (hq : q ∈ t.queries ↔ q ∈ s.queries) (ho : scheduled q outs = []) : Change q D s t outs
  | drop (hd : D) (hw : t.waiting.lookup q = s.waiting.lookup q) (hp : t.pending.lookup q = none) (hq : q ∈ t.queries ↔ q ∈ s.queries) : Change q D s t []
  | schedule (w client n : Nat) (order cands : List Nat) (hn : n ≠ 0) (hw : t.waiting.lookup q = s.waiting.lookup q)
      (hc : s.pending.lookup q = some cands) (ho : order.Perm cands)
      (hp : t.pending.lookup q = if (collect (spinUp s) n order).2 = [] then none else some (collect (spinUp s) n order).2)
      (hq : q ∈ t.queries ↔ q ∈ s.queries) :
      Change q D s t [.batch w q (collect (spinUp s) n order).1 client]

local macro "same" : tactic => `(tactic| (refine Change.same ⟨?_, ?_, ?_⟩ _ ?_ <;> first | rfl | exact Iff.rfl))

theorem onRequest_change (q : Nat) (s : State) (q' c n : Nat) (order : List Nat) :
    Change q (q' = q ∧ n = 0) s (onRequest s q' c n order).1 (onRequest s q' c n order).2 := by
  rw [onRequest]
  by_cases h0 : n = 0
  · rw [if_pos h0]
    by_cases hq : q = q'
    · subst hq
      exact .drop ⟨rfl, h0⟩ rfl (lookup_filter_self q _) .rfl
    · refine .same ⟨?_, ?_, ?_⟩ _ ?_
      · rfl
      · exact lookup_filter_ne hq _
      · exact .rfl
      · rfl
  · rw [if_neg h0]
    cases hc : s.pending.lookup q' with
    | none => same
    | some cands =>
      simp only
      cases hi : s.idle with
      | nil => same
      | cons w ws =>
        simp only
        by_cases hp : order.isPerm cands = true
        · rw [if_pos hp]
          rw [List.isPerm_iff] at hp
          by_cases hq : q = q'
          · subst hq
            cases h2 : (collect (spinUp s) n order).2 with
            | nil =>
              exact .schedule w c n order cands h0 rfl hc hp (by rw [if_pos h2]; exact lookup_filter_self q _) .rfl
            | cons id ids =>
              exact .schedule w c n order cands h0 rfl hc hp (by rw [if_neg (by rw [h2]; simp), h2]; exact lookup_cons_self q _ _) .rfl
          · cases h2 : (collect (spinUp s) n order).2 with
            | nil =>
              refine .same ⟨?_, ?_, ?_⟩ _ ?_
              · rfl
              · exact lookup_filter_ne hq _
              · exact .rfl
              · simp [scheduled, Ne.symm hq]
            | cons id ids =>
              refine .same ⟨?_, ?_, ?_⟩ _ ?_
              · rfl
              · simp only; rw [lookup_cons_ne hq]; exact lookup_filter_ne hq _
              · exact .rfl
              · simp [scheduled, Ne.symm hq]
        · rw [if_neg hp]
          same

theorem onCandidates_change (q : Nat) (D : Prop) (s₀ s : State) (hs : Same q s₀ s) (q' : Nat) (found : List Nat) (hm : MetaReply.candidates q' found ∈ s₀.toIndex) :
    Change q D s₀ (onCandidates s q' found).1 (onCandidates s q' found).2 := by
  rw [onCandidates]
  cases hw : s.waiting.lookup q' with
  | none => refine .same hs _ ?_; rfl
  | some x =>
    obtain ⟨client, snap⟩ := x
    simp only
    by_cases hq : q = q'
    · subst hq
      have hw' := hs.waiting.symm.trans hw
      cases hi : sortUnique (snap ++ found) with
      | nil => exact .answer client snap found [] _ hw' (lookup_filter_self q _) hi.symm (by rw [if_pos rfl]; exact hs.pending) hm hs.queries rfl
      | cons id ids =>
        exact .answer client snap found (id :: ids) _ hw' (lookup_filter_self q _) hi.symm (by rw [if_neg (by simp)]; exact lookup_cons_self q _ _) hm hs.queries rfl
    · cases hi : sortUnique (snap ++ found) with
      | nil =>
        refine .same ⟨?_, ?_, ?_⟩ _ ?_
        · exact (lookup_filter_ne hq _).trans hs.waiting
        · exact hs.pending
        · exact hs.queries
        · rfl
      | cons id ids =>
        refine .same ⟨?_, ?_, ?_⟩ _ ?_
        · exact (lookup_filter_ne hq _).trans hs.waiting
        · exact (lookup_cons_ne hq _ _).trans hs.pending
        · exact hs.queries
        · rfl

theorem step_change (mm : Nat → Nat → Bool) (q : Nat) (s : State) (e : Ev) : Change q (∃ c order, e = .request q c 0 order) s (step mm s e).1 (step mm s e).2 := by
  cases e with
  | create id =>
    rw [step, create]
    by_cases h : s.active = none ∧ id ∉ s.used
    · rw [if_pos h]; same
    · rw [if_neg h]; same
  | decommission =>
    rw [step, decommission]
    cases s.active <;> same
  | persisted id =>
    rw [step, onPersisted]
    by_cases h : id ∈ s.persisting
    · rw [if_pos h]; same
    · rw [if_neg h]; same
  | erase id f =>
    rw [step, onErase]
    by_cases h : id ∈ s.persisted ∨ f = true
    · rw [if_pos h]; same
    · rw [if_neg h]; same
  | deliverMeta i =>
    rw [step]
    cases s.toMeta[i]? with
    | none => same
    | some m => cases m <;> same
  | deliverIndex i =>
    rw [step]
    cases hm : s.toIndex[i]? with
    | none => same
    | some m =>
      simp only
      cases m with
      | merged id => same
      | mergedAll => same
      | erased id => same
      | candidates q' found =>
        have hs : Same q s { s with toIndex := s.toIndex.eraseIdx i } := ⟨rfl, rfl, .rfl⟩
        exact onCandidates_change q _ s _ hs q' found (List.mem_of_getElem? hm)
  | query q' c =>
    rw [step, onQuery]
    by_cases h : s.accept = true ∧ s.idle ≠ [] ∧ q' ∉ s.queries
    · rw [if_pos h]
      by_cases hq : q = q'
      · subst hq
        exact .arrive c h.2.2 (lookup_cons_self q _ _) rfl (by simp)
      · refine .same ⟨?_, ?_, ?_⟩ _ ?_
        · exact lookup_cons_ne hq _ _
        · rfl
        · simp [hq]
        · rfl
    · rw [if_neg h]; same
  | request q' c n order =>
    have := onRequest_change q s q' c n order
    rw [step]
    generalize (onRequest s q' c n order).2 = o at this ⊢
    cases this with
    | same hs _ ho => exact .same hs _ ho
    | arrive client hn hw hp hq => exact .arrive client hn hw hp hq
    | answer client snap found ids _ hw hw' hi hp hm hq ho => exact .answer client snap found ids _ hw hw' hi hp hm hq ho
    | drop hd hw hp hq => exact .drop ⟨c, order, by rw [hd.1, hd.2]⟩ hw hp hq
    | schedule w client n' order' cands hn hw hc ho hp hq => exact .schedule w client n' order' cands hn hw hc ho hp hq
  | worker w => same

/-! ### At most once -/

def pendingOf (s : State) (q : Nat) : List Nat := (s.pending.lookup q).getD []

structure Once (q : Nat) (s : State) (outs : List Out) : Prop where
  nodup : (scheduled q outs ++ pendingOf s q).Nodup
  waiting : s.waiting.lookup q ≠ none → scheduled q outs = [] ∧ s.pending.lookup q = none
  fresh : q ∉ s.queries → s.waiting.lookup q = none ∧ s.pending.lookup q = none ∧ scheduled q outs = []

theorem once_change {q : Nat} {D : Prop} {s t : State} {outs o : List Out} (hc : Change q D s t o) (h : Once q s outs) : Once q t (outs ++ o) := by
  cases hc with
  | same hs _ ho =>
    refine ⟨?_, ?_, ?_⟩ <;> simp only [scheduled_append, ho, List.append_nil, pendingOf, hs.waiting, hs.pending, hs.queries]
    · exact h.nodup
    · exact h.waiting
    · exact h.fresh
  | arrive client hn hw hp hq =>
    obtain ⟨h1, h2, h3⟩ := h.fresh hn
    refine ⟨?_, ?_, fun hf => absurd hq hf⟩ <;> simp only [List.append_nil, pendingOf, hp, h3, h2]
    · simp
    · simp
  | answer client snap found ids _ hw hw' hi hp hm hq ho =>
    obtain ⟨h1, h2⟩ := h.waiting (by rw [hw]; simp)
    refine ⟨?_, fun hf => absurd hw' hf, fun hf => ?_⟩
    · rw [scheduled_append, ho, h1, pendingOf]
      by_cases he : ids = []
      · rw [if_pos he] at hp; rw [hp, h2]; simp
      · rw [if_neg he] at hp; rw [hp, hi]; simpa using sortUnique_nodup _
    · have := (h.fresh (fun h => hf (hq.2 h))).1
      rw [hw] at this; cases this
  | drop _ hw hp hq =>
    refine ⟨?_, ?_, ?_⟩
    · have := h.nodup
      rw [List.append_nil, pendingOf, hp]
      simp only [Option.getD_none, List.append_nil]
      exact (List.nodup_append.1 this).1
    · rw [hw, List.append_nil, hp]; exact fun hf => ⟨(h.waiting hf).1, rfl⟩
    · rw [hw, List.append_nil, hp]
      intro hf
      have := h.fresh (fun h => hf (hq.2 h))
      exact ⟨this.1, rfl, this.2.2⟩
  | schedule w client n order cands hn hw hc ho hp hq =>
    have hnd := h.nodup
    rw [pendingOf, hc, Option.getD_some] at hnd
    refine ⟨?_, ?_, ?_⟩
    · rw [scheduled_append, scheduled, if_pos rfl, scheduled, List.append_nil, List.append_assoc]
      have h2 : pendingOf t q = (collect (spinUp s) n order).2 := by
        rw [pendingOf, hp]
        by_cases he : (collect (spinUp s) n order).2 = []
        · rw [if_pos he, he]; rfl
        · rw [if_neg he]; rfl
      rw [h2]
      obtain ⟨sk, _, h3, _⟩ := collect_split (spinUp s) order n
      have h4 : ((collect (spinUp s) n order).1 ++ (collect (spinUp s) n order).2).Sublist
          ((collect (spinUp s) n order).1 ++ sk ++ (collect (spinUp s) n order).2) := by
        apply List.Sublist.append _ (List.Sublist.refl _)
        exact List.sublist_append_left _ _
      have h5 : (scheduled q outs ++ ((collect (spinUp s) n order).1 ++ sk ++ (collect (spinUp s) n order).2)).Nodup :=
        ((List.Perm.append_left _ (h3.trans ho)).nodup_iff).2 hnd
      exact h5.sublist (List.Sublist.append (List.Sublist.refl _) h4)
    · rw [hw]
      intro hf
      have := (h.waiting hf).2
      rw [hc] at this; cases this
    · intro hf
      have := (h.fresh (fun h => hf (hq.2 h))).2.1
      rw [hc] at this; cases this

theorem once_start (q taste : Nat) (disk : Option (List Nat)) : Once q (start taste disk) [] := by
  cases disk <;> exact ⟨by simp [start, scheduled, pendingOf], by simp [start], by simp [start, scheduled]⟩

theorem once_run (mm : Nat → Nat → Bool) (q taste : Nat) (disk : Option (List Nat)) (es : List Ev) :
    Once q (run mm (start taste disk) es).1 (run mm (start taste disk) es).2 := by
  have := run_inv (mm := mm) (I := Once q) (ok := fun _ => True) (fun s outs e _ h => once_change (step_change mm q s e) h) es
    (start taste disk) [] (fun _ _ => trivial) (once_start q taste disk)
  simpa using this

/-- C35: under every schedule, no partition is evaluated twice for a query. -/
theorem C35_at_most_once (mm : Nat → Nat → Bool) (taste : Nat) (disk : Option (List Nat)) (es : List Ev) (q : Nat) :
    (scheduled q (run mm (start taste disk) es).2).Nodup :=
  (List.nodup_append.1 (once_run mm q taste disk es).nodup).1

/-- C35: a request for `n` partitions schedules at most `n`, each of which the index has; it schedules fewer only if no
    candidate is left, and then the query is forgotten. -/
theorem C35_at_most_n (s : State) (q c n : Nat) (order : List Nat) (w q' c' : Nat) (ids : List Nat)
    (h : Out.batch w q' ids c' ∈ (onRequest s q c n order).2) :
    q' = q ∧ c' = c ∧ ids.length ≤ n ∧ (∀ id ∈ ids, Has s id) ∧
      (ids.length < n → (onRequest s q c n order).1.pending.lookup q = none) := by
  rw [onRequest] at h ⊢
  by_cases h0 : n = 0
  · rw [if_pos h0] at h; cases h
  · rw [if_neg h0] at h ⊢
    cases hc : s.pending.lookup q with
    | none => rw [hc] at h; simp at h
    | some cands =>
      rw [hc] at h
      simp only at h ⊢
      cases hi : s.idle with
      | nil => rw [hi] at h; cases h
      | cons w' ws =>
        rw [hi] at h
        simp only at h ⊢
        by_cases hp : order.isPerm cands = true
        · rw [if_pos hp] at h ⊢
          have hsp := collect_split (spinUp s) order n
          cases h2 : (collect (spinUp s) n order).2 with
          | nil =>
            rw [h2] at h
            simp only [List.mem_singleton] at h
            cases h
            refine ⟨rfl, rfl, collect_length _ _ _, ?_, fun _ => lookup_filter_self q _⟩
            obtain ⟨_, _, _, h3⟩ := hsp
            exact fun id hid => (spinUp_iff s id).1 (h3 id hid)
          | cons id ids' =>
            rw [h2] at h
            simp only [List.mem_singleton] at h
            cases h
            refine ⟨rfl, rfl, collect_length _ _ _, ?_, fun hl => ?_⟩
            · obtain ⟨_, _, _, h3⟩ := hsp
              exact fun id hid => (spinUp_iff s id).1 (h3 id hid)
            · rw [collect_short _ _ _ hl] at h2; cases h2
        · rw [if_neg hp] at h; cases h

/-- C35: the client of a query that is forgotten is told that it is done. -/
theorem C35_forgotten (s : State) (q c n : Nat) (order : List Nat) (hn : n ≠ 0) (h : s.pending.lookup q = none) :
    onRequest s q c n order = (s, [.done c]) := by
  rw [onRequest, if_neg hn, h]

/-! ### Completeness -/

/-- A partition `p` that is never erased: the meta index knows all persisted partitions. -/
structure Safe (p : Nat) (s : State) : Prop where
  merged : MetaReply.merged p ∈ s.toIndex → p ∈ s.metaContents
  persisted : s.accept = true ∨ MetaReply.mergedAll ∈ s.toIndex → p ∈ s.persisted → p ∈ s.metaContents
  mergeAll : ∀ ids, MetaMsg.mergeAll ids ∈ s.toMeta → p ∈ s.persisted → p ∈ s.metaContents ∨ p ∈ ids
  erase : MetaMsg.erase p ∉ s.toMeta
  erased : MetaReply.erased p ∉ s.toIndex

def NotErase (p : Nat) : Ev → Prop
  | .erase id _ => id ≠ p
  | _ => True

theorem safe_congr {p : Nat} {s t : State} (h : Safe p s) (h1 : t.toIndex = s.toIndex) (h2 : t.metaContents = s.metaContents)
    (h3 : t.persisted = s.persisted) (h4 : t.toMeta = s.toMeta) (h5 : t.accept = s.accept) : Safe p t := by
  refine ⟨?_, ?_, ?_, ?_, ?_⟩ <;> simp only [h1, h2, h3, h4, h5]
  · exact h.merged
  · exact h.persisted
  · exact h.mergeAll
  · exact h.erase
  · exact h.erased

theorem safe_send {p : Nat} {s t : State} {m : MetaMsg} (h : Safe p s) (hm : ∀ ids, m ≠ .mergeAll ids) (hm' : m ≠ .erase p)
    (h1 : t.toIndex = s.toIndex) (h2 : t.metaContents = s.metaContents)
    (h3 : t.persisted = s.persisted) (h4 : t.toMeta = s.toMeta ++ [m]) (h5 : t.accept = s.accept) : Safe p t := by
  refine ⟨?_, ?_, ?_, ?_, ?_⟩ <;> simp only [h1, h2, h3, h4, h5]
  · exact h.merged
  · exact h.persisted
  · intro ids hi
    rw [List.mem_append, List.mem_singleton] at hi
    rcases hi with hi | hi
    · exact h.mergeAll ids hi
    · exact absurd hi.symm (hm ids)
  · rw [List.mem_append, List.mem_singleton]
    rintro (hi | hi)
    · exact h.erase hi
    · exact hm' hi.symm
  · exact h.erased

theorem safe_step {mm : Nat → Nat → Bool} {p : Nat} {s : State} {e : Ev} (he : NotErase p e) (h : Safe p s) : Safe p (step mm s e).1 := by
  cases e with
  | create id =>
    rw [step, create]
    by_cases hc : s.active = none ∧ id ∉ s.used
    · rw [if_pos hc]; exact safe_congr h rfl rfl rfl rfl rfl
    · rw [if_neg hc]; exact h
  | decommission =>
    rw [step, decommission]
    cases s.active with
    | none => exact h
    | some _ => exact safe_congr h rfl rfl rfl rfl rfl
  | persisted id =>
    rw [step, onPersisted]
    by_cases hc : id ∈ s.persisting
    · rw [if_pos hc]; exact safe_send h (by simp) (by simp) rfl rfl rfl rfl rfl
    · rw [if_neg hc]; exact h
  | erase id f =>
    rw [step, onErase]
    by_cases hc : id ∈ s.persisted ∨ f = true
    · rw [if_pos hc]; exact safe_send h (by simp) (by rintro ⟨⟩; exact he rfl) rfl rfl rfl rfl rfl
    · rw [if_neg hc]; exact h
  | deliverMeta i =>
    rw [step]
    cases hm : s.toMeta[i]? with
    | none => exact h
    | some m =>
      have hmem := List.mem_of_getElem? hm
      simp only
      have herase : ∀ m', m' ∈ s.toMeta.eraseIdx i → m' ∈ s.toMeta := fun m' => List.mem_of_mem_eraseIdx
      cases m with
      | merge id =>
        refine ⟨?_, ?_, ?_, fun hx => h.erase (herase _ hx), ?_⟩ <;> simp only [onMeta, List.mem_append, List.mem_singleton, List.mem_cons, List.not_mem_nil, or_false]
        · rintro (hx | hx)
          · exact .inr (h.merged hx)
          · cases hx; exact .inl rfl
        · rintro (hx | hx | hx) hp
          · exact .inr (h.persisted (.inl hx) hp)
          · exact .inr (h.persisted (.inr hx) hp)
          · cases hx
        · intro ids hx hp
          rcases h.mergeAll ids (herase _ hx) hp with hx | hx
          · exact .inl (.inr hx)
          · exact .inr hx
        · rintro (hx | hx)
          · exact h.erased hx
          · cases hx
      | mergeAll ids' =>
        have hall : p ∈ s.persisted → p ∈ ids' ∨ p ∈ s.metaContents := fun hp => (h.mergeAll ids' hmem hp).symm
        refine ⟨?_, ?_, ?_, fun hx => h.erase (herase _ hx), ?_⟩ <;> simp only [onMeta, List.mem_append, List.mem_singleton]
        · rintro (hx | hx)
          · exact .inr (h.merged hx)
          · cases hx
        · exact fun _ hp => hall hp
        · exact fun ids _ hp => .inl (hall hp)
        · rintro (hx | hx)
          · exact h.erased hx
          · cases hx
      | erase id =>
        have hne : id ≠ p := by rintro rfl; exact h.erase hmem
        have hk : p ∈ s.metaContents → p ∈ s.metaContents.filter (· != id) := by
          intro hx
          rw [List.mem_filter]
          exact ⟨hx, by simpa using Ne.symm hne⟩
        refine ⟨?_, ?_, ?_, fun hx => h.erase (herase _ hx), ?_⟩ <;> simp only [onMeta, List.mem_append, List.mem_singleton]
        · rintro (hx | hx)
          · exact hk (h.merged hx)
          · cases hx
        · rintro (hx | hx | hx) hp
          · exact hk (h.persisted (.inl hx) hp)
          · exact hk (h.persisted (.inr hx) hp)
          · cases hx
        · intro ids hx hp
          rcases h.mergeAll ids (herase _ hx) hp with hx | hx
          · exact .inl (hk hx)
          · exact .inr hx
        · rintro (hx | hx)
          · exact h.erased hx
          · cases hx; exact hne rfl
      | lookup q =>
        refine ⟨?_, ?_, ?_, fun hx => h.erase (herase _ hx), ?_⟩ <;> simp only [onMeta, List.mem_append, List.mem_singleton]
        · rintro (hx | hx)
          · exact h.merged hx
          · cases hx
        · rintro (hx | hx | hx) hp
          · exact h.persisted (.inl hx) hp
          · exact h.persisted (.inr hx) hp
          · cases hx
        · intro ids hx hp
          exact h.mergeAll ids (herase _ hx) hp
        · rintro (hx | hx)
          · exact h.erased hx
          · cases hx
  | deliverIndex i =>
    rw [step]
    cases hm : s.toIndex[i]? with
    | none => exact h
    | some m =>
      have hmem := List.mem_of_getElem? hm
      simp only
      have herase : ∀ m', m' ∈ s.toIndex.eraseIdx i → m' ∈ s.toIndex := fun m' => List.mem_of_mem_eraseIdx
      have h0 : Safe p { s with toIndex := s.toIndex.eraseIdx i } := by
        refine ⟨fun hx => h.merged (herase _ hx), ?_, h.mergeAll, h.erase, fun hx => h.erased (herase _ hx)⟩
        rintro (hx | hx)
        · exact h.persisted (.inl hx)
        · exact h.persisted (.inr (herase _ hx))
      cases m with
      | merged id =>
        refine ⟨h0.merged, ?_, ?_, h0.erase, h0.erased⟩ <;> simp only [onReply, List.mem_cons]
        · rintro hx (rfl | hp)
          · exact h.merged hmem
          · exact h0.persisted hx hp
        · rintro ids hx (rfl | hp)
          · exact .inl (h.merged hmem)
          · exact h0.mergeAll ids hx hp
      | mergedAll =>
        refine ⟨h0.merged, ?_, h0.mergeAll, h0.erase, h0.erased⟩
        exact fun _ hp => h.persisted (.inr hmem) hp
      | erased id =>
        refine ⟨h0.merged, ?_, ?_, h0.erase, h0.erased⟩
        · intro hx hp
          exact h0.persisted hx (List.mem_filter.1 hp).1
        · intro ids hx hp
          exact h0.mergeAll ids hx (List.mem_filter.1 hp).1
      | candidates q found =>
        rw [onReply, onCandidates]
        cases s.waiting.lookup q with
        | none => exact h0
        | some x =>
          simp only
          cases sortUnique (x.2 ++ found) <;> exact safe_congr h0 rfl rfl rfl rfl rfl
  | query q c =>
    rw [step, onQuery]
    by_cases hc : s.accept = true ∧ s.idle ≠ [] ∧ q ∉ s.queries
    · rw [if_pos hc]; exact safe_send h (by simp) (by simp) rfl rfl rfl rfl rfl
    · rw [if_neg hc]; exact h
  | request q c n order =>
    rw [step, onRequest]
    by_cases h0 : n = 0
    · rw [if_pos h0]; exact safe_congr h rfl rfl rfl rfl rfl
    · rw [if_neg h0]
      cases s.pending.lookup q with
      | none => exact h
      | some cands =>
        simp only
        cases s.idle with
        | nil => exact h
        | cons w ws =>
          simp only
          by_cases hp : order.isPerm cands = true
          · rw [if_pos hp]
            cases (collect (spinUp s) n order).2 <;> exact safe_congr h rfl rfl rfl rfl rfl
          · rw [if_neg hp]; exact h
  | worker w => exact safe_congr h rfl rfl rfl rfl rfl

theorem safe_start (p taste : Nat) (disk : Option (List Nat)) : Safe p (start taste disk) := by
  cases disk with
  | none => exact ⟨by simp [start], by simp [start], by simp [start], by simp [start], by simp [start]⟩
  | some ids => exact ⟨by simp [start], by simp [start], by simp [start], by simp [start], by simp [start]⟩

/-- The parts of the state that the steps for queries do not touch. -/
theorem has_step {mm : Nat → Nat → Bool} {p : Nat} {s : State} {e : Ev} (hs : Safe p s) (h : Has s p) :
    Has (step mm s e).1 p := by
  cases e with
  | create id =>
    rw [step, create]
    by_cases hc : s.active = none ∧ id ∉ s.used
    · rw [if_pos hc]
      rcases h with h | h
      · rw [hc.1] at h; cases h
      · exact .inr h
    · rw [if_neg hc]; exact h
  | decommission =>
    rw [step, decommission]
    cases ha : s.active with
    | none => exact h
    | some id =>
      rcases h with h | h | h
      · rw [ha] at h; cases h; exact .inr (.inl (by simp))
      · exact .inr (.inl (by simp [h]))
      · exact .inr (.inr h)
  | persisted id =>
    rw [step, onPersisted]
    by_cases hc : id ∈ s.persisting
    · rw [if_pos hc]; exact h
    · rw [if_neg hc]; exact h
  | erase id f =>
    rw [step, onErase]
    by_cases hc : id ∈ s.persisted ∨ f = true
    · rw [if_pos hc]; exact h
    · rw [if_neg hc]; exact h
  | deliverMeta i =>
    rw [step]
    cases s.toMeta[i]? with
    | none => exact h
    | some m => cases m <;> exact h
  | deliverIndex i =>
    rw [step]
    cases hm : s.toIndex[i]? with
    | none => exact h
    | some m =>
      simp only
      cases m with
      | merged id =>
        rcases h with h | h | h
        · exact .inl h
        · by_cases hp : p = id
          · subst hp; exact .inr (.inr (by simp [onReply]))
          · exact .inr (.inl (by simp only [onReply, List.mem_filter]; exact ⟨h, by simpa using hp⟩))
        · exact .inr (.inr (by simp [onReply, h]))
      | mergedAll => exact h
      | erased id =>
        have hp : p ≠ id := by rintro rfl; exact hs.erased (List.mem_of_getElem? hm)
        rcases h with h | h | h
        · exact .inl h
        · exact .inr (.inl h)
        · exact .inr (.inr (by simp only [onReply, List.mem_filter]; exact ⟨h, by simpa using hp⟩))
      | candidates q found =>
        rw [onReply, onCandidates]
        cases s.waiting.lookup q with
        | none => exact h
        | some x =>
          simp only
          cases sortUnique (x.2 ++ found) <;> exact h
  | query q c =>
    rw [step, onQuery]
    by_cases hc : s.accept = true ∧ s.idle ≠ [] ∧ q ∉ s.queries
    · rw [if_pos hc]; exact h
    · rw [if_neg hc]; exact h
  | request q c n order =>
    rw [step, onRequest]
    by_cases h0 : n = 0
    · rw [if_pos h0]; exact h
    · rw [if_neg h0]
      cases s.pending.lookup q with
      | none => exact h
      | some cands =>
        simp only
        cases s.idle with
        | nil => exact h
        | cons w ws =>
          simp only
          by_cases hp : order.isPerm cands = true
          · rw [if_pos hp]
            cases (collect (spinUp s) n order).2 <;> exact h
          · rw [if_neg hp]; exact h
  | worker w => exact h

/-- The messages about a query that has not arrived yet: none. -/
def NoMessages (q : Nat) (s : State) : Prop :=
  q ∉ s.queries → (∀ ids, MetaReply.candidates q ids ∉ s.toIndex) ∧ MetaMsg.lookup q ∉ s.toMeta

/-- Messages that a step adds. -/
theorem step_candidates {mm : Nat → Nat → Bool} {s : State} {e : Ev} {q : Nat} {ids : List Nat}
    (h : MetaReply.candidates q ids ∈ (step mm s e).1.toIndex) :
    MetaReply.candidates q ids ∈ s.toIndex ∨ (MetaMsg.lookup q ∈ s.toMeta ∧ ids = s.metaContents.filter (mm q)) := by
  cases e with
  | create id =>
    rw [step, create] at h
    by_cases hc : s.active = none ∧ id ∉ s.used
    · rw [if_pos hc] at h; exact .inl h
    · rw [if_neg hc] at h; exact .inl h
  | decommission => rw [step, decommission] at h; cases ha : s.active <;> rw [ha] at h <;> exact .inl h
  | persisted id =>
    rw [step, onPersisted] at h
    by_cases hc : id ∈ s.persisting
    · rw [if_pos hc] at h; exact .inl h
    · rw [if_neg hc] at h; exact .inl h
  | erase id f =>
    rw [step, onErase] at h
    by_cases hc : id ∈ s.persisted ∨ f = true
    · rw [if_pos hc] at h; exact .inl h
    · rw [if_neg hc] at h; exact .inl h
  | deliverMeta i =>
    rw [step] at h
    cases hm : s.toMeta[i]? with
    | none => rw [hm] at h; exact .inl h
    | some m =>
      rw [hm] at h
      cases m <;> simp only [onMeta, List.mem_append, List.mem_singleton] at h
      all_goals
        rcases h with h | h
        · exact .inl h
        · cases h <;> exact .inr ⟨List.mem_of_getElem? hm, rfl⟩
  | deliverIndex i =>
    rw [step] at h
    cases hm : s.toIndex[i]? with
    | none => rw [hm] at h; exact .inl h
    | some m =>
      rw [hm] at h
      have herase : ∀ m', m' ∈ s.toIndex.eraseIdx i → m' ∈ s.toIndex := fun m' => List.mem_of_mem_eraseIdx
      cases m with
      | merged id => exact .inl (herase _ h)
      | mergedAll => exact .inl (herase _ h)
      | erased id => exact .inl (herase _ h)
      | candidates q' found =>
        simp only [onReply, onCandidates] at h
        cases hw : s.waiting.lookup q' with
        | none => rw [hw] at h; exact .inl (herase _ h)
        | some x =>
          rw [hw] at h
          simp only at h
          cases hs : sortUnique (x.2 ++ found) <;> rw [hs] at h <;> exact .inl (herase _ h)
  | query q c =>
    rw [step, onQuery] at h
    by_cases hc : s.accept = true ∧ s.idle ≠ [] ∧ q ∉ s.queries
    · rw [if_pos hc] at h; exact .inl h
    · rw [if_neg hc] at h; exact .inl h
  | request q c n order =>
    rw [step, onRequest] at h
    by_cases h0 : n = 0
    · rw [if_pos h0] at h; exact .inl h
    · rw [if_neg h0] at h
      cases hl : s.pending.lookup q with
      | none => rw [hl] at h; exact .inl h
      | some cands =>
        rw [hl] at h
        simp only at h
        cases hi : s.idle with
        | nil => rw [hi] at h; exact .inl h
        | cons w ws =>
          rw [hi] at h
          simp only at h
          by_cases hp : order.isPerm cands = true
          · rw [if_pos hp] at h
            cases hc : (collect (spinUp s) n order).2 <;> rw [hc] at h <;> exact .inl h
          · rw [if_neg hp] at h; exact .inl h
  | worker w => exact .inl h

theorem step_lookup {mm : Nat → Nat → Bool} {s : State} {e : Ev} {q : Nat} (h : MetaMsg.lookup q ∈ (step mm s e).1.toMeta) :
    MetaMsg.lookup q ∈ s.toMeta ∨ q ∈ (step mm s e).1.queries := by
  cases e with
  | create id =>
    rw [step, create] at h
    by_cases hc : s.active = none ∧ id ∉ s.used
    · rw [if_pos hc] at h; exact .inl h
    · rw [if_neg hc] at h; exact .inl h
  | decommission => rw [step, decommission] at h; cases ha : s.active <;> rw [ha] at h <;> exact .inl h
  | persisted id =>
    rw [step, onPersisted] at h
    by_cases hc : id ∈ s.persisting
    · rw [if_pos hc] at h; simp only [List.mem_append, List.mem_singleton] at h
      rcases h with h | h
      · exact .inl h
      · cases h
    · rw [if_neg hc] at h; exact .inl h
  | erase id f =>
    rw [step, onErase] at h
    by_cases hc : id ∈ s.persisted ∨ f = true
    · rw [if_pos hc] at h; simp only [List.mem_append, List.mem_singleton] at h
      rcases h with h | h
      · exact .inl h
      · cases h
    · rw [if_neg hc] at h; exact .inl h
  | deliverMeta i =>
    rw [step] at h
    cases hm : s.toMeta[i]? with
    | none => rw [hm] at h; exact .inl h
    | some m =>
      rw [hm] at h
      have herase : ∀ m', m' ∈ s.toMeta.eraseIdx i → m' ∈ s.toMeta := fun m' => List.mem_of_mem_eraseIdx
      cases m <;> exact .inl (herase _ h)
  | deliverIndex i =>
    rw [step] at h
    cases hm : s.toIndex[i]? with
    | none => rw [hm] at h; exact .inl h
    | some m =>
      rw [hm] at h
      cases m with
      | merged id => exact .inl h
      | mergedAll => exact .inl h
      | erased id => exact .inl h
      | candidates q' found =>
        simp only [onReply, onCandidates] at h
        cases hw : s.waiting.lookup q' with
        | none => rw [hw] at h; exact .inl h
        | some x =>
          rw [hw] at h
          simp only at h
          cases hs : sortUnique (x.2 ++ found) <;> rw [hs] at h <;> exact .inl h
  | query q' c =>
    rw [step, onQuery] at h ⊢
    by_cases hc : s.accept = true ∧ s.idle ≠ [] ∧ q' ∉ s.queries
    · rw [if_pos hc] at h ⊢
      simp only [List.mem_append, List.mem_singleton] at h
      rcases h with h | h
      · exact .inl h
      · cases h; exact .inr (by simp)
    · rw [if_neg hc] at h; exact .inl h
  | request q c n order =>
    rw [step, onRequest] at h
    by_cases h0 : n = 0
    · rw [if_pos h0] at h; exact .inl h
    · rw [if_neg h0] at h
      cases hl : s.pending.lookup q with
      | none => rw [hl] at h; exact .inl h
      | some cands =>
        rw [hl] at h
        simp only at h
        cases hi : s.idle with
        | nil => rw [hi] at h; exact .inl h
        | cons w ws =>
          rw [hi] at h
          simp only at h
          by_cases hp : order.isPerm cands = true
          · rw [if_pos hp] at h
            cases hc : (collect (spinUp s) n order).2 <;> rw [hc] at h <;> exact .inl h
          · rw [if_neg hp] at h; exact .inl h
  | worker w => exact .inl h

theorem queries_mono {mm : Nat → Nat → Bool} {s : State} {e : Ev} {q : Nat} (h : q ∈ s.queries) : q ∈ (step mm s e).1.queries := by
  have hc := step_change mm q s e
  generalize (step mm s e).2 = o at hc
  cases hc with
  | same hs _ _ => exact hs.queries.2 h
  | arrive _ hn _ _ _ => exact absurd h hn
  | answer _ _ _ _ _ _ _ _ _ _ hq _ => exact hq.2 h
  | drop _ _ _ hq => exact hq.2 h
  | schedule _ _ _ _ _ _ _ _ _ _ hq => exact hq.2 h

theorem noMessages_step {mm : Nat → Nat → Bool} {s : State} {e : Ev} {q : Nat} (h : NoMessages q s) : NoMessages q (step mm s e).1 := by
  intro hq
  have hq' : q ∉ s.queries := fun hx => hq (queries_mono hx)
  obtain ⟨h1, h2⟩ := h hq'
  constructor
  · intro ids hx
    rcases step_candidates hx with hx | hx
    · exact h1 ids hx
    · exact h2 hx.1
  · intro hx
    rcases step_lookup hx with hx | hx
    · exact h2 hx
    · exact hq hx

/-- A partition that has to be visited: it is in the snapshot, or will be found, or is a candidate, or is scheduled. -/
def Tracked (q p : Nat) (s : State) (outs : List Out) : Prop :=
  (∃ c snap, s.waiting.lookup q = some (c, snap) ∧ (p ∈ snap ∨ (p ∈ s.metaContents ∧ ∀ ids, MetaReply.candidates q ids ∈ s.toIndex → p ∈ ids))) ∨
  (∃ ids, s.pending.lookup q = some ids ∧ p ∈ ids) ∨ p ∈ scheduled q outs

/-- The client does not drop the query. -/
def NotDrop (q : Nat) (e : Ev) : Prop := ∀ c order, e ≠ .request q c 0 order

theorem metaContents_mono {mm : Nat → Nat → Bool} {p : Nat} {s : State} {e : Ev} (hs : Safe p s) (h : p ∈ s.metaContents) :
    p ∈ (step mm s e).1.metaContents := by
  cases e with
  | create id =>
    rw [step, create]
    by_cases hc : s.active = none ∧ id ∉ s.used
    · rw [if_pos hc]; exact h
    · rw [if_neg hc]; exact h
  | decommission => rw [step, decommission]; cases s.active <;> exact h
  | persisted id =>
    rw [step, onPersisted]
    by_cases hc : id ∈ s.persisting
    · rw [if_pos hc]; exact h
    · rw [if_neg hc]; exact h
  | erase id f =>
    rw [step, onErase]
    by_cases hc : id ∈ s.persisted ∨ f = true
    · rw [if_pos hc]; exact h
    · rw [if_neg hc]; exact h
  | deliverMeta i =>
    rw [step]
    cases hm : s.toMeta[i]? with
    | none => exact h
    | some m =>
      simp only
      cases m with
      | merge id => simp [onMeta, h]
      | mergeAll ids => simp [onMeta, h]
      | erase id =>
        have hne : id ≠ p := by rintro rfl; exact hs.erase (List.mem_of_getElem? hm)
        simp only [onMeta, List.mem_filter]
        exact ⟨h, by simpa using Ne.symm hne⟩
      | lookup q => exact h
  | deliverIndex i =>
    rw [step]
    cases hm : s.toIndex[i]? with
    | none => exact h
    | some m =>
      simp only
      cases m with
      | merged id => exact h
      | mergedAll => exact h
      | erased id => exact h
      | candidates q found =>
        rw [onReply, onCandidates]
        cases s.waiting.lookup q with
        | none => exact h
        | some x =>
          simp only
          cases sortUnique (x.2 ++ found) <;> exact h
  | query q c =>
    rw [step, onQuery]
    by_cases hc : s.accept = true ∧ s.idle ≠ [] ∧ q ∉ s.queries
    · rw [if_pos hc]; exact h
    · rw [if_neg hc]; exact h
  | request q c n order =>
    rw [step, onRequest]
    by_cases h0 : n = 0
    · rw [if_pos h0]; exact h
    · rw [if_neg h0]
      cases s.pending.lookup q with
      | none => exact h
      | some cands =>
        simp only
        cases s.idle with
        | nil => exact h
        | cons w ws =>
          simp only
          by_cases hp : order.isPerm cands = true
          · rw [if_pos hp]
            cases (collect (spinUp s) n order).2 <;> exact h
          · rw [if_neg hp]; exact h
  | worker w => exact h

/-- All that is needed to follow a partition that is never erased. -/
structure Follow (mm : Nat → Nat → Bool) (q p : Nat) (s : State) (outs : List Out) : Prop where
  safe : Safe p s
  once : Once q s outs
  has : Has s p
  arrived : q ∈ s.queries
  tracked : Tracked q p s outs

theorem follow_step {mm : Nat → Nat → Bool} {q p : Nat} (hmm : mm q p = true) {s : State} {outs : List Out} {e : Ev}
    (he : NotErase p e ∧ NotDrop q e) (h : Follow mm q p s outs) : Follow mm q p (step mm s e).1 (outs ++ (step mm s e).2) := by
  refine ⟨safe_step he.1 h.safe, once_change (step_change mm q s e) h.once, has_step h.safe h.has, queries_mono h.arrived, ?_⟩
  have hcand : ∀ ids, MetaReply.candidates q ids ∈ (step mm s e).1.toIndex → p ∈ s.metaContents →
      (∀ ids, MetaReply.candidates q ids ∈ s.toIndex → p ∈ ids) → p ∈ ids := by
    intro ids hx hp hall
    rcases step_candidates hx with hx | ⟨_, rfl⟩
    · exact hall ids hx
    · rw [List.mem_filter]; exact ⟨hp, hmm⟩
  have hmono := fun hp => metaContents_mono (mm := mm) (e := e) h.safe hp
  have hc := step_change mm q s e
  rcases h.tracked with ⟨c, snap, hw, hp⟩ | ⟨ids, hp, hmem⟩ | hsch
  · generalize ho : (step mm s e).2 = o at hc ⊢
    cases hc with
    | same hs _ _ =>
      refine .inl ⟨c, snap, hs.waiting.trans hw, ?_⟩
      rcases hp with hp | ⟨hp, hall⟩
      · exact .inl hp
      · exact .inr ⟨hmono hp, fun ids hx => hcand ids hx hp hall⟩
    | arrive _ hn _ _ _ => exact absurd h.arrived hn
    | answer client snap' found ids _ hw' hw'' hi hpp hm hq _ =>
      rw [hw] at hw'; cases hw'
      have hin : p ∈ ids := by
        rw [hi, mem_sortUnique, List.mem_append]
        rcases hp with hp | ⟨_, hall⟩
        · exact .inl hp
        · exact .inr (hall found hm)
      rw [if_neg (by rintro rfl; cases hin)] at hpp
      exact .inr (.inl ⟨ids, hpp, hin⟩)
    | drop hd _ _ _ =>
      obtain ⟨c', order, rfl⟩ := hd
      exact absurd rfl (he.2 c' order)
    | schedule w client n order cands hn hw' _ _ _ _ =>
      refine .inl ⟨c, snap, hw'.trans hw, ?_⟩
      rcases hp with hp | ⟨hp, hall⟩
      · exact .inl hp
      · exact .inr ⟨hmono hp, fun ids hx => hcand ids hx hp hall⟩
  · generalize ho : (step mm s e).2 = o at hc ⊢
    cases hc with
    | same hs _ _ => exact .inr (.inl ⟨ids, hs.pending.trans hp, hmem⟩)
    | arrive _ hn _ _ _ => exact absurd h.arrived hn
    | answer client snap' found ids' _ hw' hw'' hi hpp hm hq _ =>
      by_cases hne : ids' = []
      · rw [if_pos hne] at hpp
        exact .inr (.inl ⟨ids, hpp.trans hp, hmem⟩)
      · rw [if_neg hne] at hpp
        have := (h.once.waiting (by rw [hw']; simp)).2
        rw [hp] at this; cases this
    | drop hd _ _ _ =>
      obtain ⟨c', order, rfl⟩ := hd
      exact absurd rfl (he.2 c' order)
    | schedule w client n order cands hn hw' hc ho' hpp _ =>
      rw [hp] at hc; cases hc
      obtain ⟨sk, h1, h2, _⟩ := collect_split (spinUp s) order n
      have hin : p ∈ (collect (spinUp s) n order).1 ++ sk ++ (collect (spinUp s) n order).2 :=
        (h2.trans ho').mem_iff.2 hmem
      rw [List.mem_append, List.mem_append] at hin
      rcases hin with (hin | hin) | hin
      · refine .inr (.inr ?_)
        rw [scheduled_append, scheduled, if_pos rfl]
        simp [hin]
      · have := h1 p hin
        rw [(spinUp_iff s p).2 h.has] at this; cases this
      · refine .inr (.inl ⟨_, ?_, hin⟩)
        rw [hpp, if_neg (by intro h; rw [h] at hin; cases hin)]
  · refine .inr (.inr ?_)
    rw [scheduled_append]
    exact List.mem_append_left _ hsch

theorem mem_safe_run (mm : Nat → Nat → Bool) (p taste : Nat) (disk : Option (List Nat)) (es : List Ev) (he : ∀ e ∈ es, NotErase p e) :
    Safe p (run mm (start taste disk) es).1 :=
  run_inv (mm := mm) (I := fun s _ => Safe p s) (ok := NotErase p) (fun _ _ _ he h => safe_step he h) es (start taste disk) [] he
    (safe_start p taste disk)

theorem noMessages_run (mm : Nat → Nat → Bool) (q taste : Nat) (disk : Option (List Nat)) (es : List Ev) :
    NoMessages q (run mm (start taste disk) es).1 := by
  refine run_inv (mm := mm) (I := fun s _ => NoMessages q s) (ok := fun _ => True) (fun _ _ _ _ h => noMessages_step h) es (start taste disk) []
    (fun _ _ => trivial) ?_
  intro _
  cases disk <;> simp [start]

/-- The index takes the query (rather than to handle it later). -/
def Accepts (s : State) (q : Nat) : Prop := s.accept = true ∧ s.idle ≠ [] ∧ q ∉ s.queries

/-- C35: under every schedule, once a query is over (its candidates are known and none is left to be scheduled, without the
    client having dropped it), every partition that the index had when the query arrived was scheduled exactly once, unless
    it was erased or the meta index has ruled it out. This holds whatever else happens meanwhile: partitions being created,
    persisted and erased, other queries, and any order of messages. Missing for the full statement: schedules with a request
    for zero partitions, which drops the query (see `C35_taste_zero_refuted`), and partitions that are erased meanwhile. -/
theorem C35_exactly_once_partial (mm : Nat → Nat → Bool) (taste : Nat) (disk : Option (List Nat)) (before after : List Ev) (q c p : Nat)
    (ha : Accepts (run mm (start taste disk) before).1 q) (hp : Has (run mm (start taste disk) before).1 p) (hmm : mm q p = true)
    (he : ∀ e ∈ before ++ after, NotErase p e) (hd : ∀ e ∈ after, NotDrop q e)
    (hover : (run mm (start taste disk) (before ++ .query q c :: after)).1.waiting.lookup q = none ∧
      (run mm (start taste disk) (before ++ .query q c :: after)).1.pending.lookup q = none) :
    (scheduled q (run mm (start taste disk) (before ++ .query q c :: after)).2).count p = 1 := by
  have hnd := C35_at_most_once mm taste disk (before ++ .query q c :: after) q
  have hsafe := mem_safe_run mm p taste disk before fun e h => he e (by simp [h])
  have honce := once_run mm q taste disk before
  have hnm := noMessages_run mm q taste disk before
  rw [run_append] at hover hnd ⊢
  generalize hs : run mm (start taste disk) before = r at ha hp hover hsafe honce hnm hnd ⊢
  obtain ⟨s, outs⟩ := r
  simp only [Accepts] at ha hp hover hsafe honce hnm hnd ⊢
  have hstep : step mm s (.query q c) =
      ({ s with queries := q :: s.queries, waiting := (q, c, s.active.toList ++ s.unpersisted) :: s.waiting, toMeta := s.toMeta ++ [.lookup q] }, []) := by
    rw [step, onQuery, if_pos ha]
  have hf : Follow mm q p (step mm s (.query q c)).1 (outs ++ (step mm s (.query q c)).2) := by
    refine ⟨safe_step trivial hsafe, once_change (step_change mm q s _) honce, has_step hsafe hp, by rw [hstep]; simp, .inl ?_⟩
    rw [hstep]
    refine ⟨c, _, lookup_cons_self q _ _, ?_⟩
    rcases hp with hp | hp | hp
    · exact .inl (by simp [hp])
    · exact .inl (by simp [hp])
    · exact .inr ⟨hsafe.persisted (.inl ha.1) hp, fun ids hx => absurd hx ((hnm ha.2.2).1 ids)⟩
  have hrun := run_inv (mm := mm) (I := Follow mm q p) (ok := fun e => NotErase p e ∧ NotDrop q e) (fun s outs e he h => follow_step hmm he h)
    after _ _ (fun e h => ⟨he e (by simp [h]), hd e h⟩) hf
  rw [run] at hover hnd ⊢
  simp only at hover hnd ⊢
  rw [← List.append_assoc] at hnd ⊢
  rcases hrun.tracked with ⟨_, _, hw, _⟩ | ⟨_, hw, _⟩ | hmem
  · rw [hw] at hover; cases hover.1
  · rw [hw] at hover; cases hover.2
  · have h1 := List.nodup_iff_count.1 hnd p
    have h2 := List.count_pos_iff.2 hmem
    omega

/-! ### Every query is answered -/

theorem mem_or_mem_eraseIdx {α : Type} {l : List α} {i : Nat} {m x : α} (hm : l[i]? = some m) (hx : x ∈ l) : x = m ∨ x ∈ l.eraseIdx i := by
  induction l generalizing i with
  | nil => cases hx
  | cons a l ih =>
    cases i with
    | zero =>
      cases hm
      rw [List.eraseIdx_cons_zero]
      exact List.mem_cons.1 hx
    | succ i =>
      rw [List.eraseIdx_cons_succ, List.mem_cons]
      rcases List.mem_cons.1 hx with rfl | hx
      · exact .inr (.inl rfl)
      · rcases ih hm hx with h | h
        · exact .inl h
        · exact .inr (.inr h)

/-- The lookup of a query that waits is on its way, or the reply is. -/
def Awaits (s : State) : Prop :=
  ∀ q, s.waiting.lookup q ≠ none → MetaMsg.lookup q ∈ s.toMeta ∨ ∃ ids, MetaReply.candidates q ids ∈ s.toIndex

/-- What a step does to the messages. -/
theorem awaits_step {mm : Nat → Nat → Bool} {s : State} {e : Ev} (h : Awaits s) : Awaits (step mm s e).1 := by
  cases e with
  | create id =>
    rw [step, create]
    by_cases hc : s.active = none ∧ id ∉ s.used
    · rw [if_pos hc]; exact h
    · rw [if_neg hc]; exact h
  | decommission => rw [step, decommission]; cases s.active <;> exact h
  | persisted id =>
    rw [step, onPersisted]
    by_cases hc : id ∈ s.persisting
    · rw [if_pos hc]
      intro q hq
      rcases h q hq with h | h
      · exact .inl (List.mem_append_left _ h)
      · exact .inr h
    · rw [if_neg hc]; exact h
  | erase id f =>
    rw [step, onErase]
    by_cases hc : id ∈ s.persisted ∨ f = true
    · rw [if_pos hc]
      intro q hq
      rcases h q hq with h | h
      · exact .inl (List.mem_append_left _ h)
      · exact .inr h
    · rw [if_neg hc]; exact h
  | deliverMeta i =>
    rw [step]
    cases hm : s.toMeta[i]? with
    | none => exact h
    | some m =>
      simp only
      have herase : ∀ m', m' ∈ s.toMeta → m' = m ∨ m' ∈ s.toMeta.eraseIdx i := by
        intro m' hm'
        exact mem_or_mem_eraseIdx hm hm'
      intro q hq
      have hq' : s.waiting.lookup q ≠ none := by cases m <;> exact hq
      rcases h q hq' with h | ⟨ids, h⟩
      · rcases herase _ h with rfl | h
        · exact .inr ⟨_, by simp only [onMeta]; exact List.mem_append_right _ (List.mem_singleton.2 rfl)⟩
        · refine .inl ?_
          cases m <;> exact h
      · refine .inr ⟨ids, ?_⟩
        cases m <;> exact List.mem_append_left _ h
  | deliverIndex i =>
    rw [step]
    cases hm : s.toIndex[i]? with
    | none => exact h
    | some m =>
      simp only
      have herase : ∀ m', m' ∈ s.toIndex → m' = m ∨ m' ∈ s.toIndex.eraseIdx i := by
        intro m' hm'
        exact mem_or_mem_eraseIdx hm hm'
      cases m with
      | merged id =>
        intro q hq
        rcases h q hq with h | ⟨ids, h⟩
        · exact .inl h
        · rcases herase _ h with h | h
          · cases h
          · exact .inr ⟨ids, h⟩
      | mergedAll =>
        intro q hq
        rcases h q hq with h | ⟨ids, h⟩
        · exact .inl h
        · rcases herase _ h with h | h
          · cases h
          · exact .inr ⟨ids, h⟩
      | erased id =>
        intro q hq
        rcases h q hq with h | ⟨ids, h⟩
        · exact .inl h
        · rcases herase _ h with h | h
          · cases h
          · exact .inr ⟨ids, h⟩
      | candidates q' found =>
        rw [onReply, onCandidates]
        cases hw : s.waiting.lookup q' with
        | none =>
          intro q hq
          rcases h q hq with h | ⟨ids, h⟩
          · exact .inl h
          · rcases herase _ h with h | h
            · cases h; exact absurd hw hq
            · exact .inr ⟨ids, h⟩
        | some x =>
          simp only
          have key : ∀ q, (s.waiting.filter (·.1 != q')).lookup q ≠ none → MetaMsg.lookup q ∈ s.toMeta ∨ ∃ ids, MetaReply.candidates q ids ∈ s.toIndex.eraseIdx i := by
            intro q hq
            by_cases hqq : q = q'
            · subst hqq; exact absurd (lookup_filter_self q _) hq
            · rw [lookup_filter_ne hqq] at hq
              rcases h q hq with h | ⟨ids, h⟩
              · exact .inl h
              · rcases herase _ h with h | h
                · cases h; exact absurd rfl hqq
                · exact .inr ⟨ids, h⟩
          cases sortUnique (x.2 ++ found) <;> exact key
  | query q c =>
    rw [step, onQuery]
    by_cases hc : s.accept = true ∧ s.idle ≠ [] ∧ q ∉ s.queries
    · rw [if_pos hc]
      intro q' hq'
      by_cases hqq : q' = q
      · subst hqq; exact .inl (by simp)
      · simp only at hq'
        rw [lookup_cons_ne hqq] at hq'
        rcases h q' hq' with h | h
        · exact .inl (List.mem_append_left _ h)
        · exact .inr h
    · rw [if_neg hc]; exact h
  | request q c n order =>
    rw [step, onRequest]
    by_cases h0 : n = 0
    · rw [if_pos h0]; exact h
    · rw [if_neg h0]
      cases s.pending.lookup q with
      | none => exact h
      | some cands =>
        simp only
        cases s.idle with
        | nil => exact h
        | cons w ws =>
          simp only
          by_cases hp : order.isPerm cands = true
          · rw [if_pos hp]
            cases (collect (spinUp s) n order).2 <;> exact h
          · rw [if_neg hp]; exact h
  | worker w => exact h

/-- C35: no query waits for its candidates once all messages are handled. -/
theorem C35_answered (mm : Nat → Nat → Bool) (taste : Nat) (disk : Option (List Nat)) (es : List Ev) (q : Nat)
    (h1 : (run mm (start taste disk) es).1.toMeta = []) (h2 : (run mm (start taste disk) es).1.toIndex = []) :
    (run mm (start taste disk) es).1.waiting.lookup q = none := by
  have := run_inv (mm := mm) (I := fun s _ => Awaits s) (ok := fun _ => True) (fun _ _ _ _ h => awaits_step h) es (start taste disk) []
    (fun _ _ => trivial) (by intro q hq; cases disk <;> exact absurd rfl hq)
  apply Classical.byContradiction
  intro hne
  rcases this q hne with h | ⟨_, h⟩
  · rw [h1] at h; cases h
  · rw [h2] at h; cases h

/-! ### Workers -/

theorem offers_append (w : Nat) (a b : List Ev) : offers w (a ++ b) = offers w a + offers w b := by
  induction a with
  | nil => simp [offers]
  | cons e a ih => cases e <;> simp only [List.cons_append, offers, ih] <;> omega

theorem step_workers (mm : Nat → Nat → Bool) (w : Nat) (s : State) (e : Ev) :
    batches w (step mm s e).2 + (step mm s e).1.idle.count w = s.idle.count w + offers w [e] := by
  cases e with
  | create id =>
    rw [step, create]
    by_cases hc : s.active = none ∧ id ∉ s.used
    · rw [if_pos hc]; simp [batches, offers]
    · rw [if_neg hc]; simp [batches, offers]
  | decommission => rw [step, decommission]; cases s.active <;> simp [batches, offers]
  | persisted id =>
    rw [step, onPersisted]
    by_cases hc : id ∈ s.persisting
    · rw [if_pos hc]; simp [batches, offers]
    · rw [if_neg hc]; simp [batches, offers]
  | erase id f =>
    rw [step, onErase]
    by_cases hc : id ∈ s.persisted ∨ f = true
    · rw [if_pos hc]; simp [batches, offers]
    · rw [if_neg hc]; simp [batches, offers]
  | deliverMeta i =>
    rw [step]
    cases s.toMeta[i]? with
    | none => simp [batches, offers]
    | some m => cases m <;> simp [batches, offers, onMeta]
  | deliverIndex i =>
    rw [step]
    cases s.toIndex[i]? with
    | none => simp [batches, offers]
    | some m =>
      simp only
      cases m with
      | merged id => simp [batches, offers, onReply]
      | mergedAll => simp [batches, offers, onReply]
      | erased id => simp [batches, offers, onReply]
      | candidates q found =>
        rw [onReply, onCandidates]
        cases s.waiting.lookup q with
        | none => simp [batches, offers]
        | some x =>
          simp only
          cases sortUnique (x.2 ++ found) <;> simp [batches, offers]
  | query q c =>
    rw [step, onQuery]
    by_cases hc : s.accept = true ∧ s.idle ≠ [] ∧ q ∉ s.queries
    · rw [if_pos hc]; simp [batches, offers]
    · rw [if_neg hc]; simp [batches, offers]
  | request q c n order =>
    rw [step, onRequest]
    by_cases h0 : n = 0
    · rw [if_pos h0]; simp [batches, offers]
    · rw [if_neg h0]
      cases s.pending.lookup q with
      | none => simp [batches, offers]
      | some cands =>
        simp only
        cases hi : s.idle with
        | nil => simp [batches, offers, hi]
        | cons w' ws =>
          simp only
          by_cases hp : order.isPerm cands = true
          · rw [if_pos hp]
            cases (collect (spinUp s) n order).2 <;> simp [batches, offers, List.count_cons] <;> omega
          · rw [if_neg hp]; simp [batches, offers, hi]
  | worker w' => simp [step, batches, offers, List.count_cons]

/-- C35: a worker gets at most as many batches as it has offered itself, so it is never given a batch before it is done with
    the previous one (as C40 requires). -/
theorem C35_workers (mm : Nat → Nat → Bool) (taste : Nat) (disk : Option (List Nat)) (es : List Ev) (w : Nat) :
    batches w (run mm (start taste disk) es).2 ≤ offers w es := by
  have h : ∀ (es : List Ev) (s : State), batches w (run mm s es).2 + (run mm s es).1.idle.count w = s.idle.count w + offers w es := by
    intro es
    induction es with
    | nil => intro s; simp [run, batches, offers]
    | cons e es ih =>
      intro s
      rw [run]
      simp only [batches_append]
      have h1 := ih (step mm s e).1
      have h2 := step_workers mm w s e
      have h3 := offers_append w [e] es
      rw [List.singleton_append] at h3
      omega
  have := h es (start taste disk)
  have h0 : (start taste disk).idle.count w = 0 := by cases disk <;> rfl
  omega

/-! ### An example -/

/-- Partitions 1 and 2 are on disk, 3 is being persisted and 4 is active when the query arrives. The first request is for two
    partitions; partition 3 is persisted before the meta index sees the query, and partition 2 erased before the second
    request. -/
def sampleBefore : List Ev := [.deliverMeta 0, .deliverIndex 0, .create 3, .decommission, .create 4, .worker 7, .worker 8]

def sampleAfter : List Ev := [.persisted 3, .deliverMeta 1, .deliverIndex 0, .deliverMeta 0, .deliverIndex 0,
  .request 5 9 2 [4, 1, 2, 3], .erase 2 true, .deliverMeta 0, .deliverIndex 0, .request 5 9 3 [2, 3]]

example : (run (fun _ _ => true) (start 2 (some [1, 2])) (sampleBefore ++ .query 5 9 :: sampleAfter)).2 =
    [.response 5 9 4 2, .batch 8 5 [4, 1] 9, .batch 7 5 [3] 9] := by decide

example : Accepts (run (fun _ _ => true) (start 2 (some [1, 2])) sampleBefore).1 5 ∧
    (∀ p ∈ [1, 3, 4], Has (run (fun _ _ => true) (start 2 (some [1, 2])) sampleBefore).1 p ∧
      ∀ e ∈ sampleBefore ++ sampleAfter, NotErase p e) ∧ (∀ e ∈ sampleAfter, NotDrop 5 e) ∧
    (run (fun _ _ => true) (start 2 (some [1, 2])) (sampleBefore ++ .query 5 9 :: sampleAfter)).1.waiting.lookup 5 = none ∧
    (run (fun _ _ => true) (start 2 (some [1, 2])) (sampleBefore ++ .query 5 9 :: sampleAfter)).1.pending.lookup 5 = none := by
  refine ⟨by unfold Accepts; decide, ?_, ?_, by decide, by decide⟩
  · intro p hp
    simp only [List.mem_cons, List.not_mem_nil, or_false] at hp
    rcases hp with rfl | rfl | rfl <;>
      exact ⟨by unfold Has; decide, by simp [sampleBefore, sampleAfter, NotErase]⟩
  · simp [sampleAfter, NotDrop]

/-- C35 fails if the number of taste partitions is zero: the index itself then requests zero partitions right after it has
    announced a candidate (`index.cpp` 850), which drops the query. The candidate is never evaluated, and the client is not
    told. -/
theorem C35_taste_zero_refuted : ∃ es : List Ev, es = [.worker 1, .create 5, .query 7 9, .deliverMeta 0, .deliverIndex 0, .request 7 9 0 []] ∧
    Out.response 7 9 1 0 ∈ (run (fun _ _ => true) (start 0 none) es).2 ∧
    (run (fun _ _ => true) (start 0 none) es).1.pending.lookup 7 = none ∧
    scheduled 7 (run (fun _ _ => true) (start 0 none) es).2 = [] ∧
    Out.done 9 ∉ (run (fun _ _ => true) (start 0 none) es).2 := ⟨_, rfl, by decide, by decide, by decide, by decide⟩

end Verif.Scheduler
