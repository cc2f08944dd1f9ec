import Verif.SetOps.Model
/-
C50: sorted-set operations on partition IDs are set operations.
-/
namespace Verif.SetOps

theorem mem_stdSetIntersection (xs ys : List Nat) (hx : SortedSet xs) (hy : SortedSet ys) (a : Nat) :
    a ∈ stdSetIntersection xs ys ↔ a ∈ xs ∧ a ∈ ys := by
  induction xs, ys using stdSetIntersection.induct with
  | case1 ys => simp [stdSetIntersection]
  | case2 x xs => simp [stdSetIntersection]
  | case3 x xs y ys h ih =>
    rw [stdSetIntersection, if_pos h, ih (List.pairwise_cons.1 hx).2 hy]
    have := (List.pairwise_cons.1 hy).1
    simp only [List.mem_cons]
    grind
  | case4 x xs y ys h1 h2 ih =>
    rw [stdSetIntersection, if_neg h1, if_pos h2, ih hx (List.pairwise_cons.1 hy).2]
    have := (List.pairwise_cons.1 hx).1
    simp only [List.mem_cons]
    grind
  | case5 x xs y ys h1 h2 ih =>
    have hxy : x = y := by omega
    subst hxy
    rw [stdSetIntersection, if_neg h1, if_neg h2, List.mem_cons,
      ih (List.pairwise_cons.1 hx).2 (List.pairwise_cons.1 hy).2]
    have := (List.pairwise_cons.1 hx).1
    have := (List.pairwise_cons.1 hy).1
    simp only [List.mem_cons]
    grind

theorem sorted_stdSetIntersection (xs ys : List Nat) (hx : SortedSet xs) (hy : SortedSet ys) :
    SortedSet (stdSetIntersection xs ys) := by
  induction xs, ys using stdSetIntersection.induct with
  | case1 ys => simp [stdSetIntersection, SortedSet]
  | case2 x xs => simp [stdSetIntersection, SortedSet]
  | case3 x xs y ys h ih =>
    rw [stdSetIntersection, if_pos h]; exact ih (List.pairwise_cons.1 hx).2 hy
  | case4 x xs y ys h1 h2 ih =>
    rw [stdSetIntersection, if_neg h1, if_pos h2]; exact ih hx (List.pairwise_cons.1 hy).2
  | case5 x xs y ys h1 h2 ih =>
    rw [stdSetIntersection, if_neg h1, if_neg h2]
    have hx' := List.pairwise_cons.1 hx
    have hy' := List.pairwise_cons.1 hy
    refine List.pairwise_cons.2 ⟨?_, ih hx'.2 hy'.2⟩
    intro a ha
    exact hx'.1 a ((mem_stdSetIntersection xs ys hx'.2 hy'.2 a).1 ha).1

theorem inplaceIntersectLoop_eq (xs ys kept : List Nat) :
    inplaceIntersectLoop kept xs ys = kept ++ stdSetIntersection xs ys := by
  induction xs, ys using stdSetIntersection.induct generalizing kept with
  | case1 ys => simp [stdSetIntersection, inplaceIntersectLoop]
  | case2 x xs => simp [stdSetIntersection, inplaceIntersectLoop]
  | case3 x xs y ys h ih =>
    rw [stdSetIntersection, if_pos h, inplaceIntersectLoop, if_pos h, ih]
  | case4 x xs y ys h1 h2 ih =>
    rw [stdSetIntersection, if_neg h1, if_pos h2, inplaceIntersectLoop, if_neg h1, if_pos h2, ih]
  | case5 x xs y ys h1 h2 ih =>
    have hxy : ¬ x > y := by omega
    rw [stdSetIntersection, if_neg h1, if_neg h2, inplaceIntersectLoop, if_neg h1, if_neg hxy, ih]
    simp

theorem mem_stdSetUnion (xs ys : List Nat) (a : Nat) :
    a ∈ stdSetUnion xs ys ↔ a ∈ xs ∨ a ∈ ys := by
  induction xs, ys using stdSetUnion.induct with
  | case1 ys => simp [stdSetUnion]
  | case2 x xs => simp [stdSetUnion]
  | case3 x xs y ys h ih =>
    rw [stdSetUnion, if_pos h, List.mem_cons, ih]; simp only [List.mem_cons]; grind
  | case4 x xs y ys h1 h2 ih =>
    rw [stdSetUnion, if_neg h1, if_pos h2, List.mem_cons, ih]; simp only [List.mem_cons]; grind
  | case5 x xs y ys h1 h2 ih =>
    rw [stdSetUnion, if_neg h1, if_neg h2, List.mem_cons, ih]; simp only [List.mem_cons]; grind

theorem sorted_stdSetUnion (xs ys : List Nat) (hx : SortedSet xs) (hy : SortedSet ys) :
    SortedSet (stdSetUnion xs ys) := by
  induction xs, ys using stdSetUnion.induct with
  | case1 ys => simpa [stdSetUnion] using hy
  | case2 x xs => simpa [stdSetUnion] using hx
  | case3 x xs y ys h ih =>
    have hx' := List.pairwise_cons.1 hx
    have hy' := List.pairwise_cons.1 hy
    rw [stdSetUnion, if_pos h]
    refine List.pairwise_cons.2 ⟨?_, ih hx'.2 hy⟩
    intro a ha
    rcases (mem_stdSetUnion _ _ a).1 ha with h' | h'
    · exact hx'.1 a h'
    · rcases List.mem_cons.1 h' with rfl | h'
      · exact h
      · exact Nat.lt_trans h (hy'.1 a h')
  | case4 x xs y ys h1 h2 ih =>
    have hx' := List.pairwise_cons.1 hx
    have hy' := List.pairwise_cons.1 hy
    rw [stdSetUnion, if_neg h1, if_pos h2]
    refine List.pairwise_cons.2 ⟨?_, ih hx hy'.2⟩
    intro a ha
    rcases (mem_stdSetUnion _ _ a).1 ha with h' | h'
    · rcases List.mem_cons.1 h' with rfl | h'
      · exact h2
      · exact Nat.lt_trans h2 (hx'.1 a h')
    · exact hy'.1 a h'
  | case5 x xs y ys h1 h2 ih =>
    have hx' := List.pairwise_cons.1 hx
    have hy' := List.pairwise_cons.1 hy
    have hxy : x = y := by omega
    subst hxy
    rw [stdSetUnion, if_neg h1, if_neg h2]
    refine List.pairwise_cons.2 ⟨?_, ih hx'.2 hy'.2⟩
    intro a ha
    rcases (mem_stdSetUnion _ _ a).1 ha with h' | h'
    · exact hx'.1 a h'
    · exact hy'.1 a h'

theorem mem_stdMerge (xs ys : List Nat) (a : Nat) :
    a ∈ stdMerge xs ys ↔ a ∈ xs ∨ a ∈ ys := by
  induction xs, ys using stdMerge.induct with
  | case1 ys => simp [stdMerge]
  | case2 x xs => simp [stdMerge]
  | case3 x xs y ys h ih =>
    rw [stdMerge, if_pos h, List.mem_cons, ih]; simp only [List.mem_cons]; grind
  | case4 x xs y ys h ih =>
    rw [stdMerge, if_neg h, List.mem_cons, ih]; simp only [List.mem_cons]; grind

theorem sorted_stdMerge (xs ys : List Nat) (hx : xs.Pairwise (· ≤ ·)) (hy : ys.Pairwise (· ≤ ·)) :
    (stdMerge xs ys).Pairwise (· ≤ ·) := by
  induction xs, ys using stdMerge.induct with
  | case1 ys => simpa [stdMerge] using hy
  | case2 x xs => simpa [stdMerge] using hx
  | case3 x xs y ys h ih =>
    have hx' := List.pairwise_cons.1 hx
    have hy' := List.pairwise_cons.1 hy
    rw [stdMerge, if_pos h]
    refine List.pairwise_cons.2 ⟨?_, ih hx hy'.2⟩
    intro a ha
    rcases (mem_stdMerge _ _ a).1 ha with h' | h'
    · rcases List.mem_cons.1 h' with rfl | h'
      · omega
      · have := hx'.1 a h'; omega
    · exact hy'.1 a h'
  | case4 x xs y ys h ih =>
    have hx' := List.pairwise_cons.1 hx
    have hy' := List.pairwise_cons.1 hy
    rw [stdMerge, if_neg h]
    refine List.pairwise_cons.2 ⟨?_, ih hx'.2 hy⟩
    intro a ha
    rcases (mem_stdMerge _ _ a).1 ha with h' | h'
    · exact hx'.1 a h'
    · rcases List.mem_cons.1 h' with rfl | h'
      · omega
      · have := hy'.1 a h'; omega

theorem mem_stdUnique (xs : List Nat) (a : Nat) : a ∈ stdUnique xs ↔ a ∈ xs := by
  induction xs using stdUnique.induct with
  | case1 => simp [stdUnique]
  | case2 x => simp [stdUnique]
  | case3 x rest ih => rw [stdUnique, if_pos rfl, ih]; simp
  | case4 x y rest h ih => rw [stdUnique, if_neg h, List.mem_cons, ih]; simp

theorem sorted_stdUnique (xs : List Nat) (hx : xs.Pairwise (· ≤ ·)) : SortedSet (stdUnique xs) := by
  induction xs using stdUnique.induct with
  | case1 => simp [stdUnique, SortedSet]
  | case2 x => simp [stdUnique, SortedSet]
  | case3 x rest ih =>
    rw [stdUnique, if_pos rfl]
    exact ih (List.pairwise_cons.1 hx).2
  | case4 x y rest h ih =>
    have hx' := List.pairwise_cons.1 hx
    rw [stdUnique, if_neg h]
    refine List.pairwise_cons.2 ⟨?_, ih hx'.2⟩
    intro a ha
    rw [mem_stdUnique] at ha
    have h1 := hx'.1 y (by simp)
    rcases List.mem_cons.1 ha with rfl | ha
    · omega
    · have := (List.pairwise_cons.1 hx'.2).1 a ha; omega

theorem SortedSet.le {xs : List Nat} (h : SortedSet xs) : xs.Pairwise (· ≤ ·) :=
  h.imp (fun h => Nat.le_of_lt h)

/-- C50. `intersect` of two sorted sets is the sorted set of their common elements. -/
theorem C50_intersect (xs ys : List Nat) (hx : SortedSet xs) (hy : SortedSet ys) :
    SortedSet (intersect xs ys) ∧ ∀ a, a ∈ intersect xs ys ↔ a ∈ xs ∧ a ∈ ys :=
  ⟨sorted_stdSetIntersection xs ys hx hy, mem_stdSetIntersection xs ys hx hy⟩

/-- C50. `inplace_intersect` leaves the sorted set of common elements in `result`. -/
theorem C50_inplace_intersect (result xs : List Nat) (hr : SortedSet result) (hx : SortedSet xs) :
    SortedSet (inplaceIntersect result xs) ∧
      ∀ a, a ∈ inplaceIntersect result xs ↔ a ∈ result ∧ a ∈ xs := by
  rw [inplaceIntersect, inplaceIntersectLoop_eq]
  exact C50_intersect result xs hr hx

/-- C50. `unify` of two sorted sets is the sorted set of all their elements. -/
theorem C50_unify (xs ys : List Nat) (hx : SortedSet xs) (hy : SortedSet ys) :
    SortedSet (unify xs ys) ∧ ∀ a, a ∈ unify xs ys ↔ a ∈ xs ∨ a ∈ ys :=
  ⟨sorted_stdSetUnion xs ys hx hy, mem_stdSetUnion xs ys⟩

/-- C50. `inplace_unify` leaves the sorted set of all elements in `result`. -/
theorem C50_inplace_unify (result xs : List Nat) (hr : SortedSet result) (hx : SortedSet xs) :
    SortedSet (inplaceUnify result xs) ∧
      ∀ a, a ∈ inplaceUnify result xs ↔ a ∈ result ∨ a ∈ xs := by
  refine ⟨sorted_stdUnique _ (sorted_stdMerge _ _ hr.le hx.le), fun a => ?_⟩
  rw [inplaceUnify, mem_stdUnique, mem_stdMerge]

/-- C50. Two sorted sets with the same elements are the same sequence; hence the
in-place variants return the same sequence as the copying ones. -/
theorem C50_sorted_set_ext (xs ys : List Nat) (hx : SortedSet xs) (hy : SortedSet ys)
    (h : ∀ a, a ∈ xs ↔ a ∈ ys) : xs = ys := by
  induction xs generalizing ys with
  | nil =>
    cases ys with
    | nil => rfl
    | cons y ys => exact absurd ((h y).2 (by simp)) (by simp)
  | cons x xs ih =>
    cases ys with
    | nil => exact absurd ((h x).1 (by simp)) (by simp)
    | cons y ys =>
      have hx' := List.pairwise_cons.1 hx
      have hy' := List.pairwise_cons.1 hy
      have hxy : x = y := by
        have h1 := (h x).1 (by simp)
        have h2 := (h y).2 (by simp)
        rcases List.mem_cons.1 h1 with h1 | h1
        · exact h1
        · rcases List.mem_cons.1 h2 with h2 | h2
          · exact h2.symm
          · have := hx'.1 y h2; have := hy'.1 x h1; omega
      subst hxy
      congr 1
      apply ih ys hx'.2 hy'.2
      intro a
      have := h a
      simp only [List.mem_cons] at this
      constructor
      · intro ha
        rcases this.1 (Or.inr ha) with rfl | h'
        · exact absurd (hx'.1 _ ha) (by omega)
        · exact h'
      · intro ha
        rcases this.2 (Or.inr ha) with rfl | h'
        · exact absurd (hy'.1 _ ha) (by omega)
        · exact h'

example : SortedSet [1, 4, 7, 9] ∧ SortedSet [2, 4, 9, 11] ∧
    intersect [1, 4, 7, 9] [2, 4, 9, 11] = [4, 9] ∧
    inplaceUnify [1, 4, 7, 9] [2, 4, 9, 11] = [1, 2, 4, 7, 9, 11] := by
  refine ⟨by simp [SortedSet], by simp [SortedSet], ?_, ?_⟩
  · simp [intersect, stdSetIntersection]
  · simp [inplaceUnify, stdMerge, stdUnique]

end Verif.SetOps
