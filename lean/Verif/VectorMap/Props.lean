import Verif.VectorMap.Lemmas
/-!
# Keyed collections (C158–C160)
-/
namespace Verif.VectorMap

variable {κ β : Type} [DecidableEq κ]

/-! ## C158: collections that keep the order of insertion -/

/-- After any operations, a stable map finds exactly what a function that was changed likewise gives. -/
theorem C158_find (d : β) (ops : List (Op κ β)) (k : κ) : find stable (run stable d ops) k = Spec.run ops k := by
  obtain ⟨h1, h2⟩ := run_sound stable _ stable_sound d ops
  rw [find_assoc _ _ h1 (stable_good _ h1), h2]

/-- And each operation reports whether something was inserted or erased. -/
theorem C158_reports (d : β) (ops : List (Op κ β)) (o : Op κ β) : (step stable d (run stable d ops) o).2 = Spec.result (Spec.run ops) o := by
  obtain ⟨h1, h2⟩ := run_sound stable _ stable_sound d ops
  rw [(step_sound stable _ stable_sound d _ h1 o).2.2, show assoc (run stable d ops) = Spec.run ops from funext h2]

/-- Its keys are in the order in which they were inserted, each once. -/
theorem C158_order (d : β) (ops : List (Op κ β)) : (run stable d ops).map (·.1) = Spec.keys ops ∧ (Spec.keys ops).Nodup := by
  have hstep : ∀ (xs : List (κ × β)) (o : Op κ β), (xs.map (·.1)).Nodup → (step stable d xs o).1.map (·.1) = match o with
      | .insert k _ | .assign k _ => if k ∈ xs.map (·.1) then xs.map (·.1) else xs.map (·.1) ++ [k]
      | .erase k _ => (xs.map (·.1)).filter (· ≠ k) := by
    intro xs o hn
    have hadd : ∀ x : κ × β, (stable.add xs x).1.map (·.1) = if x.1 ∈ xs.map (·.1) then xs.map (·.1) else xs.map (·.1) ++ [x.1] := by
      intro x
      have hl := lookup_none stable xs (stable_good xs hn) x.1
      change xs.findIdx? (·.1 = x.1) = none ↔ _ at hl
      show List.map (fun e : κ × β => e.1) (match xs.findIdx? (fun e : κ × β => decide (e.1 = x.1)) with | none => (xs ++ [x], true) | some _ => (xs, false)).1 = _
      cases h : xs.findIdx? (·.1 = x.1) with
      | none => rw [if_neg (hl.1 h)]; simp
      | some i =>
        rw [if_pos]
        by_cases hm : x.1 ∈ xs.map (·.1)
        · exact hm
        · rw [hl.2 hm] at h; cases h
    cases o with
    | insert k v => exact hadd (k, v)
    | assign k v =>
      simp only [step, assign]
      cases hl : stable.lookup xs k with
      | some i =>
        have hm : k ∈ xs.map (·.1) := List.mem_of_getElem? ((stable_good xs hn k i).1 hl)
        simp only [put_keys, if_pos hm]
      | none =>
        simp only []
        split
        · rw [put_keys]; exact hadd (k, d)
        · exact hadd (k, d)
    | erase k junk =>
      simp only [step]
      rw [erase_eq junk xs hn k]
      simp only [List.filter_map]
      rfl
  have hrun : ∀ (ops : List (Op κ β)) (xs : List (κ × β)) (ks : List κ), (xs.map (·.1)).Nodup → xs.map (·.1) = ks →
      (ops.foldl (fun xs o => (step stable d xs o).1) xs).map (·.1) = ops.foldl (fun ks o => match o with
        | .insert k _ | .assign k _ => if k ∈ ks then ks else ks ++ [k]
        | .erase k _ => ks.filter (· ≠ k)) ks := by
    intro ops
    induction ops with
    | nil => intro xs ks _ h; exact h
    | cons o ops ih =>
      intro xs ks hn h
      subst h
      exact ih _ _ (step_sound stable _ stable_sound d xs hn o).1 (hstep xs o hn)
  have h := hrun ops [] [] List.nodup_nil rfl
  refine ⟨h, ?_⟩
  have h1 := (run_sound stable _ stable_sound d ops).1
  rw [show Spec.keys ops = (run stable d ops).map (·.1) from h.symm]
  exact h1

example : run stable 0 [.insert 5 1, .assign 3 2, .insert 5 7, .erase 9 [], .assign 5 8, .insert 4 4, .erase 3 []] = [(5, 8), (4, 4)] := by decide

example : Spec.run [.insert 5 1, .assign 3 2, .insert 5 7, .assign 5 8, .erase 3 []] 5 = some 8 := by decide

/-! ## C159: collections that keep their keys in order -/

/-- After any operations, a flat map finds exactly what a function that was changed likewise gives. -/
theorem C159_find (lt : κ → κ → Bool) (ho : Spec.Order lt) (d : β) (ops : List (Op κ β)) (k : κ) :
    find (flat lt) (run (flat lt) d ops) k = Spec.run ops k := by
  obtain ⟨h1, h2⟩ := run_sound (flat lt) _ (flat_sound lt ho) d ops
  rw [find_assoc _ _ (sorted_nodup lt ho _ h1) (flat_good lt ho _ h1), h2]

/-- And each operation reports whether something was inserted or erased. -/
theorem C159_reports (lt : κ → κ → Bool) (ho : Spec.Order lt) (d : β) (ops : List (Op κ β)) (o : Op κ β) :
    (step (flat lt) d (run (flat lt) d ops) o).2 = Spec.result (Spec.run ops) o := by
  obtain ⟨h1, h2⟩ := run_sound (flat lt) _ (flat_sound lt ho) d ops
  rw [(step_sound (flat lt) _ (flat_sound lt ho) d _ h1 o).2.2, show assoc (run (flat lt) d ops) = Spec.run ops from funext h2]

/-- Its keys are strictly ascending. -/
theorem C159_order (lt : κ → κ → Bool) (ho : Spec.Order lt) (d : β) (ops : List (Op κ β)) :
    ((run (flat lt) d ops).map (·.1)).Pairwise fun a b => lt a b = true := (run_sound (flat lt) _ (flat_sound lt ho) d ops).1

/-- Two flat maps are equal exactly if they have the same contents. -/
theorem C159_equal [DecidableEq β] (lt : κ → κ → Bool) (ho : Spec.Order lt) (d : β) (a b : List (Op κ β)) :
    equal (run (flat lt) d a) (run (flat lt) d b) = true ↔ ∀ k, Spec.run a k = Spec.run b k := by
  have hsame : ∀ (xs ys : List (κ × β)), (xs.map (·.1)).Pairwise (fun a b => lt a b = true) → (ys.map (·.1)).Pairwise (fun a b => lt a b = true) →
      (∀ k, assoc xs k = assoc ys k) → xs = ys := by
    intro xs
    induction xs with
    | nil =>
      intro ys _ _ h
      cases ys with
      | nil => rfl
      | cons y ys =>
        have := h y.1
        rw [assoc_nil, assoc_cons, if_pos rfl] at this
        cases this
    | cons x xs ih =>
      intro ys hx hy h
      cases ys with
      | nil =>
        have := h x.1
        rw [assoc_nil, assoc_cons, if_pos rfl] at this
        cases this
      | cons y ys =>
        simp only [List.map_cons] at hx hy
        have hx' := List.pairwise_cons.1 hx
        have hy' := List.pairwise_cons.1 hy
        have hkey : x.1 = y.1 := by
          by_cases hne : x.1 = y.1
          · exact hne
          · exfalso
            have m1 : x.1 ∈ ys.map (·.1) := by
              by_cases hm : x.1 ∈ (y :: ys).map (·.1)
              · rw [List.map_cons] at hm
                rcases List.mem_cons.1 hm with hm | hm
                · exact (hne hm).elim
                · exact hm
              · have h1 := (assoc_none (y :: ys) x.1).2 hm
                have := h x.1
                rw [h1, assoc_cons, if_pos rfl] at this
                cases this
            have m2 : y.1 ∈ xs.map (·.1) := by
              by_cases hm : y.1 ∈ (x :: xs).map (·.1)
              · rw [List.map_cons] at hm
                rcases List.mem_cons.1 hm with hm | hm
                · exact (hne hm.symm).elim
                · exact hm
              · have h1 := (assoc_none (x :: xs) y.1).2 hm
                have := h y.1
                rw [h1, assoc_cons, if_pos rfl] at this
                cases this
            have := ho.trans _ _ _ (hy'.1 _ m1) (hx'.1 _ m2)
            rw [ho.irrefl] at this
            cases this
        have hval : x.2 = y.2 := by
          have := h x.1
          rw [assoc_cons, assoc_cons, if_pos rfl, if_pos hkey.symm] at this
          injection this
        have hrest : xs = ys := by
          apply ih ys hx'.2 hy'.2
          intro k
          by_cases hk : x.1 = k
          · have n1 : k ∉ xs.map (·.1) := by
              intro hm
              have := hx'.1 _ hm
              rw [hk, ho.irrefl] at this; cases this
            have n2 : k ∉ ys.map (·.1) := by
              intro hm
              have := hy'.1 _ hm
              rw [← hkey, hk, ho.irrefl] at this; cases this
            rw [(assoc_none _ _).2 n1, (assoc_none _ _).2 n2]
          · have := h k
            rw [assoc_cons, assoc_cons, if_neg hk, if_neg (hkey ▸ hk)] at this
            exact this
        rw [hrest]
        congr 1
        exact Prod.ext hkey hval
  obtain ⟨a1, a2⟩ := run_sound (flat lt) _ (flat_sound lt ho) d a
  obtain ⟨b1, b2⟩ := run_sound (flat lt) _ (flat_sound lt ho) d b
  unfold equal
  rw [decide_eq_true_eq]
  constructor
  · intro h k
    rw [← a2 k, ← b2 k, h]
  · intro h
    exact hsame _ _ a1 b1 (fun k => by rw [a2, b2, h])

theorem order_nat : Spec.Order (fun a b : Nat => decide (a < b)) :=
  ⟨by simp, by intro a b c h1 h2; simp at *; omega, by intro a b h; simp; omega⟩

example : run (flat fun a b : Nat => decide (a < b)) 0 [.insert 5 1, .assign 3 2, .insert 9 0, .insert 5 7, .assign 5 8, .insert 4 4, .erase 3 []] =
    [(4, 4), (5, 8), (9, 0)] := by decide

/-! ## C160: maps and records as values -/

/-- Two stable maps are equal exactly if they have the same contents and their keys were inserted in the same order. -/
theorem C160_equal_partial [DecidableEq β] (d : β) (a b : List (Op κ β)) :
    equal (run stable d a) (run stable d b) = true ↔ (∀ k, Spec.run a k = Spec.run b k) ∧ Spec.keys a = Spec.keys b := by
  have hsame : ∀ (xs ys : List (κ × β)), (xs.map (·.1)).Nodup → xs.map (·.1) = ys.map (·.1) → (∀ k, assoc xs k = assoc ys k) → xs = ys := by
    intro xs
    induction xs with
    | nil => intro ys _ h _; cases ys with | nil => rfl | cons y ys => simp at h
    | cons x xs ih =>
      intro ys hn h hk
      cases ys with
      | nil => simp at h
      | cons y ys =>
        simp only [List.map_cons, List.cons.injEq] at h hn
        have hn' := List.nodup_cons.1 hn
        have hval : x.2 = y.2 := by
          have := hk x.1
          rw [assoc_cons, assoc_cons, if_pos rfl, if_pos h.1.symm] at this
          injection this
        rw [ih ys hn'.2 h.2 ?_, Prod.ext h.1 hval]
        intro k
        by_cases he : x.1 = k
        · rw [(assoc_none _ _).2 (he ▸ hn'.1), (assoc_none _ _).2 (h.2 ▸ he ▸ hn'.1)]
        · have := hk k
          rw [assoc_cons, assoc_cons, if_neg he, if_neg (h.1 ▸ he)] at this
          exact this
  obtain ⟨a1, a2⟩ := run_sound stable _ stable_sound d a
  obtain ⟨_, b2⟩ := run_sound stable _ stable_sound d b
  unfold equal
  rw [decide_eq_true_eq, ← (C158_order d a).1, ← (C158_order d b).1]
  constructor
  · intro h
    exact ⟨fun k => by rw [← a2 k, ← b2 k, h], by rw [h]⟩
  · rintro ⟨h1, h2⟩
    exact hsame _ _ a1 h2 (fun k => by rw [a2, b2, h1])

/-- Two stable maps with the same contents need not be equal: the order of insertion counts. -/
theorem C160_equal_refuted : ∃ a b : List (Op Nat Nat), (∀ k, find stable (run stable 0 a) k = find stable (run stable 0 b) k) ∧
    equal (run stable 0 a) (run stable 0 b) = false := by
  refine ⟨[.insert 1 10, .insert 2 20], [.insert 2 20, .insert 1 10], ?_, by decide⟩
  intro k
  rw [C158_find, C158_find]
  simp only [Spec.run, List.foldl, Spec.step]
  by_cases h1 : k = 1
  · simp [h1]
  · by_cases h2 : k = 2 <;> simp [h2, h1]

/-- A record made of unnamed fields has its key more than once: `<1, 2, 3>`.  Erasing that key leaves entries that were moved from, so
that the key can still be there. -/
theorem C160_unnamed_refuted (x y z : β) : let xs := [("", x), ("", y), ("", z)]
    ∃ junk, (erase junk xs "").2 = 1 ∧ find stable (erase junk xs "").1 "" = some x := by
  exact ⟨[("", x), ("", x), ("", x)], rfl, rfl⟩

end Verif.VectorMap
