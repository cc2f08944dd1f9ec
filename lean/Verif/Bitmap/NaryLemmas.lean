import Verif.Bitmap.AlgoLemmas

/-!
# Lemmas for n-ary evaluation
-/

namespace Verif.Bitmap

open Spec

theorem maxLen_perm {xs ys : List (List Bool)} (h : xs.Perm ys) :
    xs.foldr (fun x n => max x.length n) 0 = ys.foldr (fun x n => max x.length n) 0 := by
  induction h with
  | nil => rfl
  | cons x _ ih => simp [ih]
  | swap x y l => simp only [List.foldr_cons]; omega
  | trans _ _ ih1 ih2 => rw [ih1, ih2]

/-- What makes the order of evaluation irrelevant. -/
structure Folds (f : Bool → Bool → Bool) (g : List Bool → Bool) : Prop where
  perm : ∀ {l l' : List Bool}, l.Perm l' → g l = g l'
  single : ∀ p, g [p] = p
  cons2 : ∀ p q l, g (p :: q :: l) = g (f p q :: l)

theorem pointwiseAll_perm {f : Bool → Bool → Bool} {g : List Bool → Bool} (hg : Folds f g)
    {xs ys : List (List Bool)} (h : xs.Perm ys) : pointwiseAll g xs = pointwiseAll g ys := by
  rw [pointwiseAll, pointwiseAll, maxLen_perm h]
  apply List.map_congr_left
  intro i _
  exact hg.perm (h.map _)

theorem pointwise_length (f : Bool → Bool → Bool) (x y : List Bool) :
    (pointwise f x y).length = max x.length y.length := by simp [pointwise]

theorem pointwise_getD {f : Bool → Bool → Bool} (h0 : f false false = false) (x y : List Bool) (i : Nat) :
    (pointwise f x y).getD i false = f (x.getD i false) (y.getD i false) := by
  by_cases h : i < max x.length y.length
  · simp [pointwise, List.getD, h]
  · have h1 : x[i]? = none := List.getElem?_eq_none (by omega)
    have h2 : y[i]? = none := List.getElem?_eq_none (by omega)
    simp [pointwise, List.getD, h1, h2, h0, List.getElem?_eq_none (l := List.range (max x.length y.length)) (i := i) (by simpa using h)]

theorem pointwiseAll_cons2 {f : Bool → Bool → Bool} {g : List Bool → Bool} (hg : Folds f g)
    (h0 : f false false = false) (x y : List Bool) (l : List (List Bool)) :
    pointwiseAll g (x :: y :: l) = pointwiseAll g (pointwise f x y :: l) := by
  rw [pointwiseAll, pointwiseAll]
  have : (x :: y :: l).foldr (fun x n => max x.length n) 0
      = (pointwise f x y :: l).foldr (fun x n => max x.length n) 0 := by
    simp only [List.foldr_cons, pointwise_length]; omega
  rw [this]
  apply List.map_congr_left
  intro i _
  simp only [List.map_cons]
  rw [hg.cons2, pointwise_getD h0]

theorem pointwiseAll_single {f : Bool → Bool → Bool} {g : List Bool → Bool} (hg : Folds f g) (x : List Bool) :
    pointwiseAll g [x] = x := by
  rw [pointwiseAll]
  apply List.ext_getElem?
  intro i
  rw [List.getElem?_map]
  by_cases h : i < x.length
  · have h' : i < [x].foldr (fun x n => max x.length n) 0 := by simpa using h
    rw [List.getElem?_range h', List.getElem?_eq_getElem h]
    simp [hg.single, List.getD, h]
  · rw [List.getElem?_eq_none (by simpa using h), List.getElem?_eq_none (by omega)]; rfl

/-- Choosing an element and removing it. -/
theorem zip_pick {α β : Type} {R : α → β → Prop} : ∀ {xs : List α} {ys : List β},
    xs.length = ys.length → (∀ p ∈ xs.zip ys, R p.1 p.2) → ∀ (i : Nat) (hi : i < xs.length) (d : α),
    ∃ y, R (xs.getD i d) y ∧ (y :: ys.eraseIdx i).Perm ys
      ∧ (∀ p ∈ (xs.eraseIdx i).zip (ys.eraseIdx i), R p.1 p.2)
      ∧ (xs.eraseIdx i).length = (ys.eraseIdx i).length
  | [], _, _, _, i, hi, _ => by simp at hi
  | x :: xs, [], h, _, _, _, _ => by simp at h
  | x :: xs, y :: ys, h, hR, 0, hi, d => by
    refine ⟨y, hR (x, y) (by simp), List.Perm.refl _, fun p hp => hR p ?_, by simpa using h⟩
    simp only [List.eraseIdx_cons_zero] at hp
    simp [hp]
  | x :: xs, y :: ys, h, hR, i + 1, hi, d => by
    obtain ⟨z, h1, h2, h3, h4⟩ := zip_pick (xs := xs) (ys := ys) (by simpa using h)
      (fun p hp => hR p (by simp [hp])) i (by simpa using hi) d
    refine ⟨z, by simpa using h1, ?_, ?_, by simpa using h4⟩
    · simp only [List.eraseIdx_cons_succ]
      exact (List.Perm.swap y z _).trans (h2.cons y)
    · intro p hp
      simp only [List.eraseIdx_cons_succ, List.zip_cons_cons, List.mem_cons] at hp
      rcases hp with hp | hp
      · subst hp; exact hR _ (by simp)
      · exact h3 p hp

theorem naryEval_rep {f : Bool → Bool → Bool} {g : List Bool → Bool} (hg : Folds f g)
    (h0 : f false false = false) {op : EwahBitmap → EwahBitmap → Option EwahBitmap}
    (hop : ∀ {x y a b}, Represents x a → Represents y b →
      ∃ z, op x y = some z ∧ Represents z (pointwise f a b))
    (pick : List EwahBitmap → Nat) : ∀ (fuel : Nat) (queue : List EwahBitmap) (ls : List (List Bool)),
    queue.length ≤ fuel → queue.length = ls.length → (∀ p ∈ queue.zip ls, Represents p.1 p.2) →
    ∃ z, naryEval op pick fuel queue = some z ∧ Represents z (pointwiseAll g ls)
  | 0, queue, ls, hf, hlen, _ => by
    have : ls = [] := List.eq_nil_of_length_eq_zero (by omega)
    subst this
    exact ⟨{}, rfl, Or.inl ⟨rfl, rfl⟩⟩
  | fuel + 1, [], ls, hf, hlen, _ => by
    have : ls = [] := List.eq_nil_of_length_eq_zero (by simpa using hlen.symm)
    subst this
    exact ⟨{}, rfl, Or.inl ⟨rfl, rfl⟩⟩
  | fuel + 1, q :: qs, ls, hf, hlen, hR => by
    rw [naryEval]
    simp only
    have hi : pick (q :: qs) % (q :: qs).length < (q :: qs).length := Nat.mod_lt _ (by simp)
    generalize hidef : pick (q :: qs) % (q :: qs).length = i at hi
    obtain ⟨a, ha1, ha2, ha3, ha4⟩ := zip_pick hlen hR i hi q
    have hel : ((q :: qs).eraseIdx i).length = qs.length := by
      rw [List.length_eraseIdx, if_pos hi]; rfl
    generalize hq1 : (q :: qs).eraseIdx i = q1 at ha3 ha4 hel
    generalize hl1 : ls.eraseIdx i = l1 at ha2 ha3 ha4
    cases q1 with
    | nil =>
      have : l1 = [] := List.eq_nil_of_length_eq_zero (by simpa using ha4.symm)
      subst this
      refine ⟨_, rfl, ?_⟩
      rw [← pointwiseAll_perm hg ha2, pointwiseAll_single hg]
      exact ha1
    | cons q' qs' =>
      simp only
      have hj : pick (q' :: qs') % (q' :: qs').length < (q' :: qs').length := Nat.mod_lt _ (by simp)
      generalize hjdef : pick (q' :: qs') % (q' :: qs').length = j at hj
      obtain ⟨b, hb1, hb2, hb3, hb4⟩ := zip_pick ha4 ha3 j hj q'
      have hel2 : ((q' :: qs').eraseIdx j).length = qs'.length := by
        rw [List.length_eraseIdx, if_pos hj]; rfl
      obtain ⟨z, hz1, hz2⟩ := hop ha1 hb1
      rw [hz1]
      simp only
      obtain ⟨r, hr1, hr2⟩ := naryEval_rep hg h0 hop pick fuel (z :: (q' :: qs').eraseIdx j)
        (pointwise f a b :: l1.eraseIdx j)
        (by simp only [List.length_cons, hel2] at hf hel ⊢; omega)
        (by simp only [List.length_cons, hb4])
        (by
          intro p hp
          simp only [List.zip_cons_cons, List.mem_cons] at hp
          rcases hp with hp | hp
          · subst hp; exact hz2
          · exact hb3 p hp)
      refine ⟨r, hr1, ?_⟩
      rw [← pointwiseAll_cons2 hg h0, pointwiseAll_perm hg ((hb2.cons a).trans ha2)] at hr2
      exact hr2

theorem folds_all : Folds (· && ·) (fun l => l.all id) where
  perm h := h.all_eq
  single p := by simp
  cons2 p q l := by simp [Bool.and_assoc]

theorem folds_any : Folds (· || ·) (fun l => l.any id) where
  perm h := h.any_eq
  single p := by simp
  cons2 p q l := by simp [Bool.or_assoc]

theorem folds_parity : Folds Bool.xor parity where
  perm h := by
    induction h with
    | nil => rfl
    | cons x _ ih => simp only [parity, List.foldr_cons] at ih ⊢; rw [ih]
    | swap x y l => simp only [parity, List.foldr_cons]; rw [Bool.xor_left_comm]
    | trans _ _ ih1 ih2 => rw [ih1, ih2]
  single p := by simp [parity]
  cons2 p q l := by simp [parity, Bool.xor_assoc]

/-- Evaluating several expressions. -/
theorem evalAll_rep : ∀ {es : List Expr}, (∀ e ∈ es, e.valid) →
    ∃ bms, es.mapM Expr.eval = some bms ∧ bms.length = (es.map Expr.bits).length
      ∧ ∀ p ∈ bms.zip (es.map Expr.bits), Represents p.1 p.2
  | [], _ => ⟨[], rfl, rfl, by simp⟩
  | e :: es, h => by
    obtain ⟨bm, h1, h2⟩ := eval_rep (h e (by simp))
    obtain ⟨bms, h3, h4, h5⟩ := evalAll_rep (es := es) (fun e' he => h e' (by simp [he]))
    refine ⟨bm :: bms, ?_, by simpa using h4, ?_⟩
    · simp [List.mapM_cons, h1, h3]
    · intro p hp
      simp only [List.map_cons, List.zip_cons_cons, List.mem_cons] at hp
      rcases hp with hp | hp
      · subst hp; exact h2
      · exact h5 p hp

end Verif.Bitmap
