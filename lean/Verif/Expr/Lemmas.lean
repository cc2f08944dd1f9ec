import Verif.Expr.Spec
import Verif.Data.Props
namespace Verif.Expr
open Verif.Data

variable {τ : Type}

section equality
variable [DecidableEq τ]

theorem Operand.eq_sound {a b : Operand τ} (h : a.eq b = true) : a = b := by
  cases a <;> cases b <;> simp_all [Operand.eq]
  exact Data.eq_sound h

theorem Pred.eq_sound {p q : Pred τ} (h : p.eq q = true) : p = q := by
  obtain ⟨a, b, c⟩ := p
  obtain ⟨a', b', c'⟩ := q
  simp only [Pred.eq, Bool.and_eq_true, decide_eq_true_eq] at h
  obtain ⟨⟨h1, h2⟩, h3⟩ := h
  rw [Operand.eq_sound h1, h2, Operand.eq_sound h3]

mutual
theorem Expr.eq_sound : ∀ {a b : Expr τ}, a.eq b = true → a = b
  | .none, b, h => by cases b <;> simp_all [Expr.eq]
  | .pred p, b, h => by
    cases b <;> simp [Expr.eq] at h
    rw [Pred.eq_sound h]
  | .conj xs, b, h => by
    cases b <;> simp [Expr.eq] at h
    rw [Expr.eqList_sound h]
  | .disj xs, b, h => by
    cases b <;> simp [Expr.eq] at h
    rw [Expr.eqList_sound h]
  | .neg x, b, h => by
    cases b <;> simp [Expr.eq] at h
    rw [Expr.eq_sound h]
theorem Expr.eqList_sound : ∀ {xs ys : List (Expr τ)}, Expr.eqList xs ys = true → xs = ys
  | [], ys, h => by cases ys <;> simp_all [Expr.eqList]
  | x :: xs, ys, h => by
    cases ys with
    | nil => simp [Expr.eqList] at h
    | cons y ys =>
      simp [Expr.eqList] at h
      rw [Expr.eq_sound h.1, Expr.eqList_sound h.2]
end
end equality

section lists

theorem evalAll_append (pv : Pred τ → Bool) (xs ys : List (Expr τ)) :
    Expr.evalAll pv (xs ++ ys) = (Expr.evalAll pv xs && Expr.evalAll pv ys) := by
  induction xs with
  | nil => simp [Expr.evalAll]
  | cons x xs ih => simp [Expr.evalAll, ih, Bool.and_assoc]

theorem evalAny_append (pv : Pred τ → Bool) (xs ys : List (Expr τ)) :
    Expr.evalAny pv (xs ++ ys) = (Expr.evalAny pv xs || Expr.evalAny pv ys) := by
  induction xs with
  | nil => simp [Expr.evalAny]
  | cons x xs ih => simp [Expr.evalAny, ih, Bool.or_assoc]

theorem evalAll_eq_true (pv : Pred τ → Bool) (xs : List (Expr τ)) :
    Expr.evalAll pv xs = true ↔ ∀ x ∈ xs, x.eval pv = true := by
  induction xs with
  | nil => simp [Expr.evalAll]
  | cons x xs ih => simp [Expr.evalAll, ih]

theorem evalAny_eq_true (pv : Pred τ → Bool) (xs : List (Expr τ)) :
    Expr.evalAny pv xs = true ↔ ∃ x ∈ xs, x.eval pv = true := by
  induction xs with
  | nil => simp [Expr.evalAny]
  | cons x xs ih => simp [Expr.evalAny, ih]

theorem mem_predsAll (p : Pred τ) (xs : List (Expr τ)) :
    p ∈ Expr.predsAll xs ↔ ∃ x ∈ xs, p ∈ x.preds := by
  induction xs with
  | nil => simp [Expr.predsAll]
  | cons x xs ih => simp [Expr.predsAll, ih]

theorem noNilAll_iff (xs : List (Expr τ)) : Expr.noNilAll xs ↔ ∀ x ∈ xs, x.noNil := by
  induction xs with
  | nil => simp [Expr.noNilAll]
  | cons x xs ih => simp [Expr.noNilAll, ih]

theorem noNegAll_iff (xs : List (Expr τ)) : Expr.noNegAll xs ↔ ∀ x ∈ xs, x.noNeg := by
  induction xs with
  | nil => simp [Expr.noNegAll]
  | cons x xs ih => simp [Expr.noNegAll, ih]

theorem noSingleAll_iff (xs : List (Expr τ)) : Expr.noSingleAll xs ↔ ∀ x ∈ xs, x.noSingle := by
  induction xs with
  | nil => simp [Expr.noSingleAll]
  | cons x xs ih => simp [Expr.noSingleAll, ih]

theorem noEmptyAll_iff (xs : List (Expr τ)) : Expr.noEmptyAll xs ↔ ∀ x ∈ xs, x.noEmpty := by
  induction xs with
  | nil => simp [Expr.noEmptyAll]
  | cons x xs ih => simp [Expr.noEmptyAll, ih]

end lists

/-! ### hoist -/

theorem eval_collapse_conj (pv : Pred τ → Bool) (xs : List (Expr τ)) :
    (collapse .conj xs).eval pv = Expr.evalAll pv xs := by
  match xs with
  | [] => simp [collapse, Expr.eval]
  | [x] => simp [collapse, Expr.evalAll]
  | x :: y :: xs => simp [collapse, Expr.eval]

theorem eval_collapse_disj (pv : Pred τ → Bool) (xs : List (Expr τ)) :
    (collapse .disj xs).eval pv = Expr.evalAny pv xs := by
  match xs with
  | [] => simp [collapse, Expr.eval]
  | [x] => simp [collapse, Expr.evalAny]
  | x :: y :: xs => simp [collapse, Expr.eval]

mutual
theorem eval_hoist (pv : Pred τ → Bool) : ∀ e : Expr τ, (hoist e).eval pv = e.eval pv
  | .none => by simp [hoist]
  | .pred p => by simp [hoist]
  | .conj xs => by rw [hoist, eval_collapse_conj, evalAll_hoistConj pv xs, Expr.eval]
  | .disj xs => by rw [hoist, eval_collapse_disj, evalAny_hoistDisj pv xs, Expr.eval]
  | .neg x => by simp [hoist, Expr.eval, eval_hoist pv x]

theorem evalAll_hoistConj (pv : Pred τ → Bool) :
    ∀ xs : List (Expr τ), Expr.evalAll pv (hoistConj xs) = Expr.evalAll pv xs
  | [] => by simp [hoistConj]
  | .conj ys :: xs => by
    simp [hoistConj, evalAll_append, Expr.evalAll, Expr.eval, evalAll_hoistAll pv ys,
      evalAll_hoistConj pv xs]
  | .none :: xs => by simp [hoistConj, hoist, Expr.evalAll, evalAll_hoistConj pv xs]
  | .pred p :: xs => by simp [hoistConj, hoist, Expr.evalAll, evalAll_hoistConj pv xs]
  | .disj ys :: xs => by
    simp [hoistConj, Expr.evalAll, Expr.eval, evalAll_hoistConj pv xs, eval_collapse_disj,
      evalAny_hoistDisj pv ys]
  | .neg y :: xs => by
    simp [hoistConj, Expr.evalAll, Expr.eval, evalAll_hoistConj pv xs, eval_hoist pv y]

theorem evalAny_hoistDisj (pv : Pred τ → Bool) :
    ∀ xs : List (Expr τ), Expr.evalAny pv (hoistDisj xs) = Expr.evalAny pv xs
  | [] => by simp [hoistDisj]
  | .disj ys :: xs => by
    simp [hoistDisj, evalAny_append, Expr.evalAny, Expr.eval, evalAny_hoistAll pv ys,
      evalAny_hoistDisj pv xs]
  | .none :: xs => by simp [hoistDisj, hoist, Expr.evalAny, evalAny_hoistDisj pv xs]
  | .pred p :: xs => by simp [hoistDisj, hoist, Expr.evalAny, evalAny_hoistDisj pv xs]
  | .conj ys :: xs => by
    simp [hoistDisj, Expr.evalAny, Expr.eval, evalAny_hoistDisj pv xs, eval_collapse_conj,
      evalAll_hoistConj pv ys]
  | .neg y :: xs => by
    simp [hoistDisj, Expr.evalAny, Expr.eval, evalAny_hoistDisj pv xs, eval_hoist pv y]

theorem evalAll_hoistAll (pv : Pred τ → Bool) :
    ∀ xs : List (Expr τ), Expr.evalAll pv (hoistAll xs) = Expr.evalAll pv xs
  | [] => by simp [hoistAll]
  | x :: xs => by simp [hoistAll, Expr.evalAll, eval_hoist pv x, evalAll_hoistAll pv xs]

theorem evalAny_hoistAll (pv : Pred τ → Bool) :
    ∀ xs : List (Expr τ), Expr.evalAny pv (hoistAll xs) = Expr.evalAny pv xs
  | [] => by simp [hoistAll]
  | x :: xs => by simp [hoistAll, Expr.evalAny, eval_hoist pv x, evalAny_hoistAll pv xs]
end

/-- A property of expressions that holds of every node separately and is
inherited by operands. -/
structure Local (P : Expr τ → Prop) : Prop where
  conj : ∀ xs, P (.conj xs) ↔ ∀ x ∈ xs, P x
  disj : ∀ xs, P (.disj xs) ↔ ∀ x ∈ xs, P x
  neg : ∀ x y, (P x → P y) → P (.neg x) → P (.neg y)

theorem Local.collapse_conj {P : Expr τ → Prop} (h : Local P) (xs : List (Expr τ))
    (hx : ∀ x ∈ xs, P x) : P (collapse .conj xs) := by
  match xs with
  | [] => exact (h.conj []).2 hx
  | [x] => exact hx x (by simp)
  | x :: y :: xs => exact (h.conj _).2 hx

theorem Local.collapse_disj {P : Expr τ → Prop} (h : Local P) (xs : List (Expr τ))
    (hx : ∀ x ∈ xs, P x) : P (collapse .disj xs) := by
  match xs with
  | [] => exact (h.disj []).2 hx
  | [x] => exact hx x (by simp)
  | x :: y :: xs => exact (h.disj _).2 hx

mutual
theorem hoist_local {P : Expr τ → Prop} (h : Local P) :
    ∀ e : Expr τ, P e → P (hoist e)
  | .none, he => by simpa [hoist] using he
  | .pred p, he => by simpa [hoist] using he
  | .conj xs, he => by
    rw [hoist]; exact h.collapse_conj _ (hoistConj_local h xs ((h.conj xs).1 he))
  | .disj xs, he => by
    rw [hoist]; exact h.collapse_disj _ (hoistDisj_local h xs ((h.disj xs).1 he))
  | .neg x, he => by
    rw [hoist]; exact h.neg x (hoist x) (hoist_local h x) he

theorem hoistConj_local {P : Expr τ → Prop} (h : Local P) :
    ∀ xs : List (Expr τ), (∀ x ∈ xs, P x) → ∀ x ∈ hoistConj xs, P x
  | [], _ => by simp [hoistConj]
  | .conj ys :: xs, he => by
    simp only [hoistConj, List.mem_append]
    rintro x (hx | hx)
    · exact hoistAll_local h ys ((h.conj ys).1 (he _ (by simp))) x hx
    · exact hoistConj_local h xs (fun y hy => he y (by simp [hy])) x hx
  | .none :: xs, he => by
    simp only [hoistConj, hoist, List.mem_cons]
    rintro x (hx | hx)
    · rw [hx]; exact he _ (by simp)
    · exact hoistConj_local h xs (fun y hy => he y (by simp [hy])) x hx
  | .pred p :: xs, he => by
    simp only [hoistConj, hoist, List.mem_cons]
    rintro x (hx | hx)
    · rw [hx]; exact he _ (by simp)
    · exact hoistConj_local h xs (fun y hy => he y (by simp [hy])) x hx
  | .disj ys :: xs, he => by
    simp only [hoistConj, List.mem_cons]
    rintro x (hx | hx)
    · rw [hx]
      exact h.collapse_disj _ (hoistDisj_local h ys ((h.disj ys).1 (he _ (by simp))))
    · exact hoistConj_local h xs (fun y hy => he y (by simp [hy])) x hx
  | .neg y :: xs, he => by
    simp only [hoistConj, List.mem_cons]
    rintro x (hx | hx)
    · rw [hx]; exact h.neg y (hoist y) (hoist_local h y) (he _ (by simp))
    · exact hoistConj_local h xs (fun y hy => he y (by simp [hy])) x hx

theorem hoistDisj_local {P : Expr τ → Prop} (h : Local P) :
    ∀ xs : List (Expr τ), (∀ x ∈ xs, P x) → ∀ x ∈ hoistDisj xs, P x
  | [], _ => by simp [hoistDisj]
  | .disj ys :: xs, he => by
    simp only [hoistDisj, List.mem_append]
    rintro x (hx | hx)
    · exact hoistAll_local h ys ((h.disj ys).1 (he _ (by simp))) x hx
    · exact hoistDisj_local h xs (fun y hy => he y (by simp [hy])) x hx
  | .none :: xs, he => by
    simp only [hoistDisj, hoist, List.mem_cons]
    rintro x (hx | hx)
    · rw [hx]; exact he _ (by simp)
    · exact hoistDisj_local h xs (fun y hy => he y (by simp [hy])) x hx
  | .pred p :: xs, he => by
    simp only [hoistDisj, hoist, List.mem_cons]
    rintro x (hx | hx)
    · rw [hx]; exact he _ (by simp)
    · exact hoistDisj_local h xs (fun y hy => he y (by simp [hy])) x hx
  | .conj ys :: xs, he => by
    simp only [hoistDisj, List.mem_cons]
    rintro x (hx | hx)
    · rw [hx]
      exact h.collapse_conj _ (hoistConj_local h ys ((h.conj ys).1 (he _ (by simp))))
    · exact hoistDisj_local h xs (fun y hy => he y (by simp [hy])) x hx
  | .neg y :: xs, he => by
    simp only [hoistDisj, List.mem_cons]
    rintro x (hx | hx)
    · rw [hx]; exact h.neg y (hoist y) (hoist_local h y) (he _ (by simp))
    · exact hoistDisj_local h xs (fun y hy => he y (by simp [hy])) x hx

theorem hoistAll_local {P : Expr τ → Prop} (h : Local P) :
    ∀ xs : List (Expr τ), (∀ x ∈ xs, P x) → ∀ x ∈ hoistAll xs, P x
  | [], _ => by simp [hoistAll]
  | x :: xs, he => by
    simp only [hoistAll, List.mem_cons]
    rintro y (hy | hy)
    · rw [hy]; exact hoist_local h x (he x (by simp))
    · exact hoistAll_local h xs (fun z hz => he z (by simp [hz])) y hy
end


theorem local_noNil : Local (Expr.noNil (τ := τ)) where
  conj xs := by rw [Expr.noNil, noNilAll_iff]
  disj xs := by rw [Expr.noNil, noNilAll_iff]
  neg x y h := by simpa only [Expr.noNil] using h

theorem local_noNeg : Local (Expr.noNeg (τ := τ)) where
  conj xs := by rw [Expr.noNeg, noNegAll_iff]
  disj xs := by rw [Expr.noNeg, noNegAll_iff]
  neg x y h := by simp [Expr.noNeg]

/-- All predicates of an expression satisfy `Q`. -/
def AllPreds (Q : Pred τ → Prop) (e : Expr τ) : Prop := ∀ p ∈ e.preds, Q p

theorem allPreds_list (Q : Pred τ → Prop) (xs : List (Expr τ)) :
    (∀ p ∈ Expr.predsAll xs, Q p) ↔ ∀ x ∈ xs, AllPreds Q x := by
  constructor
  · intro h x hx p hp
    exact h p ((mem_predsAll p xs).2 ⟨x, hx, hp⟩)
  · intro h p hp
    obtain ⟨x, hx, hp⟩ := (mem_predsAll p xs).1 hp
    exact h x hx p hp

theorem local_allPreds (Q : Pred τ → Prop) : Local (AllPreds Q) where
  conj xs := by unfold AllPreds; rw [Expr.preds]; exact allPreds_list Q xs
  disj xs := by unfold AllPreds; rw [Expr.preds]; exact allPreds_list Q xs
  neg x y h := by unfold AllPreds at *; rw [Expr.preds, Expr.preds]; exact h

theorem collapse_conj_noSingle (xs : List (Expr τ)) (h : ∀ x ∈ xs, x.noSingle) :
    (collapse .conj xs).noSingle := by
  match xs with
  | [] => simp [collapse, Expr.noSingle, Expr.noSingleAll]
  | [x] => simpa [collapse] using h
  | x :: y :: xs =>
    rw [collapse, Expr.noSingle, noSingleAll_iff]
    · exact ⟨by simp, h⟩
    · simp

theorem collapse_disj_noSingle (xs : List (Expr τ)) (h : ∀ x ∈ xs, x.noSingle) :
    (collapse .disj xs).noSingle := by
  match xs with
  | [] => simp [collapse, Expr.noSingle, Expr.noSingleAll]
  | [x] => simpa [collapse] using h
  | x :: y :: xs =>
    rw [collapse, Expr.noSingle, noSingleAll_iff]
    · exact ⟨by simp, h⟩
    · simp

mutual
theorem hoist_noSingle : ∀ e : Expr τ, (hoist e).noSingle
  | .none => by simp [hoist, Expr.noSingle]
  | .pred p => by simp [hoist, Expr.noSingle]
  | .conj xs => by rw [hoist]; exact collapse_conj_noSingle _ (hoistConj_noSingle xs)
  | .disj xs => by rw [hoist]; exact collapse_disj_noSingle _ (hoistDisj_noSingle xs)
  | .neg x => by rw [hoist, Expr.noSingle]; exact hoist_noSingle x

theorem hoistConj_noSingle : ∀ xs : List (Expr τ), ∀ x ∈ hoistConj xs, x.noSingle
  | [] => by simp [hoistConj]
  | .conj ys :: xs => by
    simp only [hoistConj, List.mem_append]
    rintro x (hx | hx)
    · exact hoistAll_noSingle ys x hx
    · exact hoistConj_noSingle xs x hx
  | .none :: xs => by
    simp only [hoistConj, hoist, List.mem_cons]
    rintro x (hx | hx)
    · rw [hx]; simp [Expr.noSingle]
    · exact hoistConj_noSingle xs x hx
  | .pred p :: xs => by
    simp only [hoistConj, hoist, List.mem_cons]
    rintro x (hx | hx)
    · rw [hx]; simp [Expr.noSingle]
    · exact hoistConj_noSingle xs x hx
  | .disj ys :: xs => by
    simp only [hoistConj, List.mem_cons]
    rintro x (hx | hx)
    · rw [hx]; exact collapse_disj_noSingle _ (hoistDisj_noSingle ys)
    · exact hoistConj_noSingle xs x hx
  | .neg y :: xs => by
    simp only [hoistConj, List.mem_cons]
    rintro x (hx | hx)
    · rw [hx, Expr.noSingle]; exact hoist_noSingle y
    · exact hoistConj_noSingle xs x hx

theorem hoistDisj_noSingle : ∀ xs : List (Expr τ), ∀ x ∈ hoistDisj xs, x.noSingle
  | [] => by simp [hoistDisj]
  | .disj ys :: xs => by
    simp only [hoistDisj, List.mem_append]
    rintro x (hx | hx)
    · exact hoistAll_noSingle ys x hx
    · exact hoistDisj_noSingle xs x hx
  | .none :: xs => by
    simp only [hoistDisj, hoist, List.mem_cons]
    rintro x (hx | hx)
    · rw [hx]; simp [Expr.noSingle]
    · exact hoistDisj_noSingle xs x hx
  | .pred p :: xs => by
    simp only [hoistDisj, hoist, List.mem_cons]
    rintro x (hx | hx)
    · rw [hx]; simp [Expr.noSingle]
    · exact hoistDisj_noSingle xs x hx
  | .conj ys :: xs => by
    simp only [hoistDisj, List.mem_cons]
    rintro x (hx | hx)
    · rw [hx]; exact collapse_conj_noSingle _ (hoistConj_noSingle ys)
    · exact hoistDisj_noSingle xs x hx
  | .neg y :: xs => by
    simp only [hoistDisj, List.mem_cons]
    rintro x (hx | hx)
    · rw [hx, Expr.noSingle]; exact hoist_noSingle y
    · exact hoistDisj_noSingle xs x hx

theorem hoistAll_noSingle : ∀ xs : List (Expr τ), ∀ x ∈ hoistAll xs, x.noSingle
  | [] => by simp [hoistAll]
  | x :: xs => by
    simp only [hoistAll, List.mem_cons]
    rintro y (hy | hy)
    · rw [hy]; exact hoist_noSingle x
    · exact hoistAll_noSingle xs y hy
end

/-! ### align -/

mutual
theorem eval_align (pv : Pred τ → Bool) : ∀ e : Expr τ,
    AllPreds (fun p => pv (alignPred p) = pv p) e → (align e).eval pv = e.eval pv
  | .none, _ => by simp [align]
  | .pred p, h => by
    simp only [align, Expr.eval]; exact h p (by simp [Expr.preds])
  | .conj xs, h => by
    simp only [align, Expr.eval]
    exact (eval_alignAll pv xs (((local_allPreds _).conj xs).1 h)).1
  | .disj xs, h => by
    simp only [align, Expr.eval]
    exact (eval_alignAll pv xs (((local_allPreds _).disj xs).1 h)).2
  | .neg x, h => by
    simp only [align, Expr.eval]
    rw [eval_align pv x (by intro p hp; exact h p (by simpa [Expr.preds] using hp))]

theorem eval_alignAll (pv : Pred τ → Bool) : ∀ xs : List (Expr τ),
    (∀ x ∈ xs, AllPreds (fun p => pv (alignPred p) = pv p) x) →
    Expr.evalAll pv (alignAll xs) = Expr.evalAll pv xs ∧
    Expr.evalAny pv (alignAll xs) = Expr.evalAny pv xs
  | [], _ => by simp [alignAll]
  | x :: xs, h => by
    have h1 := eval_align pv x (h x (by simp))
    have h2 := eval_alignAll pv xs (fun y hy => h y (by simp [hy]))
    simp [alignAll, Expr.evalAll, Expr.evalAny, h1, h2.1, h2.2]
end

mutual
theorem align_noNil : ∀ e : Expr τ, e.noNil → (align e).noNil
  | .none, h => by simp [Expr.noNil] at h
  | .pred p, _ => by simp [align, Expr.noNil]
  | .conj xs, h => by
    rw [align, Expr.noNil]; exact alignAll_noNil xs (by simpa [Expr.noNil] using h)
  | .disj xs, h => by
    rw [align, Expr.noNil]; exact alignAll_noNil xs (by simpa [Expr.noNil] using h)
  | .neg x, h => by
    rw [align, Expr.noNil]; exact align_noNil x (by simpa [Expr.noNil] using h)
theorem alignAll_noNil : ∀ xs : List (Expr τ), Expr.noNilAll xs → Expr.noNilAll (alignAll xs)
  | [], _ => by simp [alignAll, Expr.noNilAll]
  | x :: xs, h => by
    simp only [Expr.noNilAll] at h
    simp only [alignAll, Expr.noNilAll]
    exact ⟨align_noNil x h.1, alignAll_noNil xs h.2⟩
end

mutual
theorem align_noNeg : ∀ e : Expr τ, e.noNeg → (align e).noNeg
  | .none, _ => by simp [align, Expr.noNeg]
  | .pred p, _ => by simp [align, Expr.noNeg]
  | .conj xs, h => by
    rw [align, Expr.noNeg]; exact alignAll_noNeg xs (by simpa [Expr.noNeg] using h)
  | .disj xs, h => by
    rw [align, Expr.noNeg]; exact alignAll_noNeg xs (by simpa [Expr.noNeg] using h)
  | .neg x, h => by simp [Expr.noNeg] at h
theorem alignAll_noNeg : ∀ xs : List (Expr τ), Expr.noNegAll xs → Expr.noNegAll (alignAll xs)
  | [], _ => by simp [alignAll, Expr.noNegAll]
  | x :: xs, h => by
    simp only [Expr.noNegAll] at h
    simp only [alignAll, Expr.noNegAll]
    exact ⟨align_noNeg x h.1, alignAll_noNeg xs h.2⟩
end

mutual
theorem align_preds : ∀ e : Expr τ, (align e).preds = e.preds.map alignPred
  | .none => by simp [align, Expr.preds]
  | .pred p => by simp [align, Expr.preds]
  | .conj xs => by simp only [align, Expr.preds]; exact alignAll_preds xs
  | .disj xs => by simp only [align, Expr.preds]; exact alignAll_preds xs
  | .neg x => by simp only [align, Expr.preds]; exact align_preds x
theorem alignAll_preds : ∀ xs : List (Expr τ),
    Expr.predsAll (alignAll xs) = (Expr.predsAll xs).map alignPred
  | [] => by simp [alignAll, Expr.predsAll]
  | x :: xs => by
    simp [alignAll, Expr.predsAll, align_preds x, alignAll_preds xs]
end

theorem alignPred_aligned (p : Pred τ) : (alignPred p).aligned := by
  unfold alignPred Pred.aligned
  split
  · next h =>
    intro hr
    simpa [hr] using h
  · next h =>
    intro _
    simp at h
    exact h.2

/-! ### denegate -/

mutual
theorem eval_denegate (pv : Pred τ → Bool)
    (hpv : ∀ p : Pred τ, pv ⟨p.lhs, p.op.negate, p.rhs⟩ = !pv p) :
    ∀ (e : Expr τ) (b : Bool), e.noNil → (denegate b e).eval pv = (b ^^ e.eval pv)
  | .none, _, h => by simp [Expr.noNil] at h
  | .pred p, b, _ => by
    cases b <;> simp [denegate, Expr.eval, hpv]
  | .conj xs, b, h => by
    have hx := eval_denegateAll pv hpv xs b (by simpa [Expr.noNil] using h)
    cases b <;> simp_all [denegate, Expr.eval]
  | .disj xs, b, h => by
    have hx := eval_denegateAll pv hpv xs b (by simpa [Expr.noNil] using h)
    cases b <;> simp_all [denegate, Expr.eval]
  | .neg (.neg x), b, h => by
    have hx := eval_denegate pv hpv x b (by simpa [Expr.noNil] using h)
    simp [denegate, Expr.eval, hx]
  | .neg .none, _, h => by simp [Expr.noNil] at h
  | .neg (.pred p), b, h => by
    have hx := eval_denegate pv hpv (.pred p) (!b) (by simpa [Expr.noNil] using h)
    rw [denegate, hx] <;> simp [Expr.eval]
  | .neg (.conj xs), b, h => by
    have hx := eval_denegate pv hpv (.conj xs) (!b) (by simpa [Expr.noNil] using h)
    rw [denegate, hx] <;> simp [Expr.eval]
  | .neg (.disj xs), b, h => by
    have hx := eval_denegate pv hpv (.disj xs) (!b) (by simpa [Expr.noNil] using h)
    rw [denegate, hx] <;> simp [Expr.eval]

theorem eval_denegateAll (pv : Pred τ → Bool)
    (hpv : ∀ p : Pred τ, pv ⟨p.lhs, p.op.negate, p.rhs⟩ = !pv p) :
    ∀ (xs : List (Expr τ)) (b : Bool), Expr.noNilAll xs →
    (if b then Expr.evalAny pv (denegateAll b xs) = !Expr.evalAll pv xs ∧
        Expr.evalAll pv (denegateAll b xs) = !Expr.evalAny pv xs
     else Expr.evalAll pv (denegateAll b xs) = Expr.evalAll pv xs ∧
        Expr.evalAny pv (denegateAll b xs) = Expr.evalAny pv xs)
  | [], b, _ => by cases b <;> simp [denegateAll, Expr.evalAll, Expr.evalAny]
  | x :: xs, b, h => by
    simp only [Expr.noNilAll] at h
    have h1 := eval_denegate pv hpv x b h.1
    have h2 := eval_denegateAll pv hpv xs b h.2
    cases b <;> simp_all [denegateAll, Expr.evalAll, Expr.evalAny]
end

mutual
theorem denegate_noNeg : ∀ (e : Expr τ) (b : Bool), (denegate b e).noNeg
  | .none, _ => by simp [denegate, Expr.noNeg]
  | .pred p, _ => by simp [denegate, Expr.noNeg]
  | .conj xs, b => by cases b <;> simp [denegate, Expr.noNeg, denegateAll_noNeg xs]
  | .disj xs, b => by cases b <;> simp [denegate, Expr.noNeg, denegateAll_noNeg xs]
  | .neg (.neg x), b => by rw [denegate]; exact denegate_noNeg x b
  | .neg .none, b => by simp [denegate, Expr.noNeg]
  | .neg (.pred p), b => by simp [denegate, Expr.noNeg]
  | .neg (.conj xs), b => by cases b <;> simp [denegate, Expr.noNeg, denegateAll_noNeg xs]
  | .neg (.disj xs), b => by cases b <;> simp [denegate, Expr.noNeg, denegateAll_noNeg xs]
theorem denegateAll_noNeg : ∀ (xs : List (Expr τ)) (b : Bool), Expr.noNegAll (denegateAll b xs)
  | [], _ => by simp [denegateAll, Expr.noNegAll]
  | x :: xs, b => by
    simp only [denegateAll, Expr.noNegAll]
    exact ⟨denegate_noNeg x b, denegateAll_noNeg xs b⟩
end

mutual
theorem denegate_aligned : ∀ (e : Expr τ) (b : Bool),
    AllPreds Pred.aligned e → AllPreds Pred.aligned (denegate b e)
  | .none, _, _ => by simp [denegate, AllPreds, Expr.preds]
  | .pred p, b, h => by
    have := h p (by simp [Expr.preds])
    intro q hq
    simp [denegate, Expr.preds] at hq
    subst hq
    exact this
  | .conj xs, b, h => by
    have := denegateAll_aligned xs b (((local_allPreds _).conj xs).1 h)
    cases b
    · rw [denegate]; exact ((local_allPreds _).conj _).2 this
    · rw [denegate]; exact ((local_allPreds _).disj _).2 this
  | .disj xs, b, h => by
    have := denegateAll_aligned xs b (((local_allPreds _).disj xs).1 h)
    cases b
    · rw [denegate]; exact ((local_allPreds _).disj _).2 this
    · rw [denegate]; exact ((local_allPreds _).conj _).2 this
  | .neg (.neg x), b, h => by
    rw [denegate]
    exact denegate_aligned x b (by simpa [AllPreds, Expr.preds] using h)
  | .neg .none, b, _ => by simp [denegate, AllPreds, Expr.preds]
  | .neg (.pred p), b, h => by
    rw [denegate]
    · exact denegate_aligned (.pred p) (!b) (by simpa [AllPreds, Expr.preds] using h)
    · simp
  | .neg (.conj xs), b, h => by
    rw [denegate]
    · exact denegate_aligned (.conj xs) (!b) (by simpa [AllPreds, Expr.preds] using h)
    · simp
  | .neg (.disj xs), b, h => by
    rw [denegate]
    · exact denegate_aligned (.disj xs) (!b) (by simpa [AllPreds, Expr.preds] using h)
    · simp
theorem denegateAll_aligned : ∀ (xs : List (Expr τ)) (b : Bool),
    (∀ x ∈ xs, AllPreds Pred.aligned x) → ∀ x ∈ denegateAll b xs, AllPreds Pred.aligned x
  | [], _, _ => by simp [denegateAll]
  | x :: xs, b, h => by
    simp only [denegateAll, List.mem_cons]
    rintro y (hy | hy)
    · rw [hy]; exact denegate_aligned x b (h x (by simp))
    · exact denegateAll_aligned xs b (fun z hz => h z (by simp [hz])) y hy
end

/-! ### dedup -/

section
variable [DecidableEq τ]

theorem any_eq_mem (xs : List (Expr τ)) (e : Expr τ) (h : xs.any (fun y => Expr.eq y e) = true) :
    e ∈ xs := by
  rw [List.any_eq_true] at h
  obtain ⟨y, hy, he⟩ := h
  rw [← Expr.eq_sound he]; exact hy

mutual
theorem eval_dedup (pv : Pred τ → Bool) : ∀ e : Expr τ, e.noNeg → (dedup e).eval pv = e.eval pv
  | .none, _ => by simp [dedup]
  | .pred p, _ => by simp [dedup]
  | .conj xs, h => by
    have := (eval_dedupAll pv xs [] (by simpa [Expr.noNeg] using h)).1
    simpa [dedup, Expr.eval, Expr.evalAll] using this
  | .disj xs, h => by
    have := (eval_dedupAll pv xs [] (by simpa [Expr.noNeg] using h)).2
    simpa [dedup, Expr.eval, Expr.evalAny] using this
  | .neg x, h => by simp [Expr.noNeg] at h

theorem eval_dedupAll (pv : Pred τ → Bool) : ∀ (xs acc : List (Expr τ)), Expr.noNegAll xs →
    Expr.evalAll pv (dedupAll acc xs) = (Expr.evalAll pv acc && Expr.evalAll pv xs) ∧
    Expr.evalAny pv (dedupAll acc xs) = (Expr.evalAny pv acc || Expr.evalAny pv xs)
  | [], acc, _ => by simp [dedupAll, Expr.evalAll, Expr.evalAny]
  | x :: xs, acc, h => by
    simp only [Expr.noNegAll] at h
    have hx := eval_dedup pv x h.1
    rw [dedupAll]
    split
    · next hm =>
      have hmem := any_eq_mem _ _ hm
      have ih := eval_dedupAll pv xs acc h.2
      rw [ih.1, ih.2]
      simp only [Expr.evalAll, Expr.evalAny]
      rw [← hx]
      constructor
      · cases hc : Expr.evalAll pv acc
        · simp
        · simp [(evalAll_eq_true pv acc).1 hc _ hmem]
      · cases hc : (dedup x).eval pv
        · simp
        · rw [(evalAny_eq_true pv acc).2 ⟨_, hmem, hc⟩]; simp
    · have ih := eval_dedupAll pv xs (acc ++ [dedup x]) h.2
      rw [ih.1, ih.2, evalAll_append, evalAny_append]
      simp [Expr.evalAll, Expr.evalAny, hx, Bool.and_assoc, Bool.or_assoc]
end

mutual
/-- `dedup` keeps node-wise properties. -/
theorem dedup_local {P : Expr τ → Prop} (h : Local P) (hneg : ∀ x, P (.neg x) → P x) :
    ∀ e : Expr τ, P e → P (dedup e)
  | .none, he => by simpa [dedup] using he
  | .pred p, he => by simpa [dedup] using he
  | .conj xs, he => by
    rw [dedup]
    exact (h.conj _).2 (dedupAll_local h hneg xs [] (by simp) ((h.conj xs).1 he))
  | .disj xs, he => by
    rw [dedup]
    exact (h.disj _).2 (dedupAll_local h hneg xs [] (by simp) ((h.disj xs).1 he))
  | .neg x, he => by rw [dedup]; exact dedup_local h hneg x (hneg x he)

theorem dedupAll_local {P : Expr τ → Prop} (h : Local P) (hneg : ∀ x, P (.neg x) → P x) :
    ∀ (xs acc : List (Expr τ)), (∀ x ∈ acc, P x) → (∀ x ∈ xs, P x) →
      ∀ x ∈ dedupAll acc xs, P x
  | [], acc, ha, _ => by simpa [dedupAll] using ha
  | x :: xs, acc, ha, hx => by
    have h1 := dedup_local h hneg x (hx x (by simp))
    rw [dedupAll]
    split
    · exact dedupAll_local h hneg xs acc ha (fun y hy => hx y (by simp [hy]))
    · refine dedupAll_local h hneg xs _ ?_ (fun y hy => hx y (by simp [hy]))
      intro y hy
      rcases List.mem_append.1 hy with hy | hy
      · exact ha y hy
      · simp at hy; rw [hy]; exact h1
end
end


/-! ### Fixpoints of normalize -/

mutual
theorem hoist_fix : ∀ e : Expr τ, e.noSingle → e.flat → hoist e = e
  | .none, _, _ => by simp [hoist]
  | .pred p, _, _ => by simp [hoist]
  | .conj xs, h, hf => by
    simp only [Expr.noSingle] at h
    simp only [Expr.flat] at hf
    rw [hoist, hoistConj_fix xs h.2 hf.1 hf.2]
    match xs, h with
    | [], _ => rfl
    | [x], h => simp at h
    | x :: y :: xs, _ => rfl
  | .disj xs, h, hf => by
    simp only [Expr.noSingle] at h
    simp only [Expr.flat] at hf
    rw [hoist, hoistDisj_fix xs h.2 hf.1 hf.2]
    match xs, h with
    | [], _ => rfl
    | [x], h => simp at h
    | x :: y :: xs, _ => rfl
  | .neg x, h, hf => by
    simp only [Expr.noSingle] at h
    simp only [Expr.flat] at hf
    rw [hoist, hoist_fix x h hf]

theorem hoistConj_fix : ∀ xs : List (Expr τ), Expr.noSingleAll xs →
    (∀ ys, Expr.conj ys ∉ xs) → Expr.flatAll xs → hoistConj xs = xs
  | [], _, _, _ => by simp [hoistConj]
  | .conj ys :: xs, _, h, _ => by exact absurd (by simp) (h ys)
  | .none :: xs, h1, h2, h3 => by
    simp only [Expr.noSingleAll] at h1; simp only [Expr.flatAll] at h3
    simp only [hoistConj, hoist]
    rw [hoistConj_fix xs h1.2 (fun ys hy => h2 ys (by simp [hy])) h3.2]
  | .pred p :: xs, h1, h2, h3 => by
    simp only [Expr.noSingleAll] at h1; simp only [Expr.flatAll] at h3
    simp only [hoistConj, hoist]
    rw [hoistConj_fix xs h1.2 (fun ys hy => h2 ys (by simp [hy])) h3.2]
  | .disj ys :: xs, h1, h2, h3 => by
    simp only [Expr.noSingleAll] at h1; simp only [Expr.flatAll] at h3
    have := hoist_fix (.disj ys) h1.1 h3.1
    rw [hoist] at this
    simp only [hoistConj]
    rw [this, hoistConj_fix xs h1.2 (fun ys hy => h2 ys (by simp [hy])) h3.2]
  | .neg y :: xs, h1, h2, h3 => by
    simp only [Expr.noSingleAll] at h1; simp only [Expr.flatAll] at h3
    have := hoist_fix (.neg y) h1.1 h3.1
    rw [hoist] at this
    simp only [hoistConj]
    rw [this, hoistConj_fix xs h1.2 (fun ys hy => h2 ys (by simp [hy])) h3.2]

theorem hoistDisj_fix : ∀ xs : List (Expr τ), Expr.noSingleAll xs →
    (∀ ys, Expr.disj ys ∉ xs) → Expr.flatAll xs → hoistDisj xs = xs
  | [], _, _, _ => by simp [hoistDisj]
  | .disj ys :: xs, _, h, _ => by exact absurd (by simp) (h ys)
  | .none :: xs, h1, h2, h3 => by
    simp only [Expr.noSingleAll] at h1; simp only [Expr.flatAll] at h3
    simp only [hoistDisj, hoist]
    rw [hoistDisj_fix xs h1.2 (fun ys hy => h2 ys (by simp [hy])) h3.2]
  | .pred p :: xs, h1, h2, h3 => by
    simp only [Expr.noSingleAll] at h1; simp only [Expr.flatAll] at h3
    simp only [hoistDisj, hoist]
    rw [hoistDisj_fix xs h1.2 (fun ys hy => h2 ys (by simp [hy])) h3.2]
  | .conj ys :: xs, h1, h2, h3 => by
    simp only [Expr.noSingleAll] at h1; simp only [Expr.flatAll] at h3
    have := hoist_fix (.conj ys) h1.1 h3.1
    rw [hoist] at this
    simp only [hoistDisj]
    rw [this, hoistDisj_fix xs h1.2 (fun ys hy => h2 ys (by simp [hy])) h3.2]
  | .neg y :: xs, h1, h2, h3 => by
    simp only [Expr.noSingleAll] at h1; simp only [Expr.flatAll] at h3
    have := hoist_fix (.neg y) h1.1 h3.1
    rw [hoist] at this
    simp only [hoistDisj]
    rw [this, hoistDisj_fix xs h1.2 (fun ys hy => h2 ys (by simp [hy])) h3.2]
end

theorem alignPred_fix (p : Pred τ) (h : p.aligned) : alignPred p = p := by
  unfold alignPred Pred.aligned at *
  split
  · rfl
  · next hn => simp at hn; simp [hn] at h

mutual
theorem align_fix : ∀ e : Expr τ, AllPreds Pred.aligned e → align e = e
  | .none, _ => by simp [align]
  | .pred p, h => by rw [align, alignPred_fix p (h p (by simp [Expr.preds]))]
  | .conj xs, h => by rw [align, alignAll_fix xs (((local_allPreds _).conj xs).1 h)]
  | .disj xs, h => by rw [align, alignAll_fix xs (((local_allPreds _).disj xs).1 h)]
  | .neg x, h => by
    rw [align, align_fix x (by intro p hp; exact h p (by simpa [Expr.preds] using hp))]
theorem alignAll_fix : ∀ xs : List (Expr τ), (∀ x ∈ xs, AllPreds Pred.aligned x) →
    alignAll xs = xs
  | [], _ => by simp [alignAll]
  | x :: xs, h => by
    rw [alignAll, align_fix x (h x (by simp)), alignAll_fix xs (fun y hy => h y (by simp [hy]))]
end

mutual
theorem denegate_fix : ∀ e : Expr τ, e.noNeg → denegate false e = e
  | .none, _ => by simp [denegate]
  | .pred p, _ => by simp [denegate]
  | .conj xs, h => by
    simp only [Expr.noNeg] at h
    simp [denegate, denegateAll_fix xs h]
  | .disj xs, h => by
    simp only [Expr.noNeg] at h
    simp [denegate, denegateAll_fix xs h]
  | .neg x, h => by simp [Expr.noNeg] at h
theorem denegateAll_fix : ∀ xs : List (Expr τ), Expr.noNegAll xs → denegateAll false xs = xs
  | [], _ => by simp [denegateAll]
  | x :: xs, h => by
    simp only [Expr.noNegAll] at h
    rw [denegateAll, denegate_fix x h.1, denegateAll_fix xs h.2]
end

section
variable [DecidableEq τ]
mutual
theorem dedup_fix : ∀ e : Expr τ, e.noNeg → e.noDup → dedup e = e
  | .none, _, _ => by simp [dedup]
  | .pred p, _, _ => by simp [dedup]
  | .conj xs, h, hd => by
    simp only [Expr.noNeg] at h; simp only [Expr.noDup] at hd
    rw [dedup, dedupAll_fix xs [] h hd.2 (by simpa using hd.1)]; simp
  | .disj xs, h, hd => by
    simp only [Expr.noNeg] at h; simp only [Expr.noDup] at hd
    rw [dedup, dedupAll_fix xs [] h hd.2 (by simpa using hd.1)]; simp
  | .neg x, h, _ => by simp [Expr.noNeg] at h
theorem dedupAll_fix : ∀ (xs acc : List (Expr τ)), Expr.noNegAll xs → Expr.noDupAll xs →
    (acc ++ xs).Nodup → dedupAll acc xs = acc ++ xs
  | [], acc, _, _, _ => by simp [dedupAll]
  | x :: xs, acc, h, hd, hn => by
    simp only [Expr.noNegAll] at h; simp only [Expr.noDupAll] at hd
    rw [dedupAll, dedup_fix x h.1 hd.1]
    split
    · next hm =>
      have := any_eq_mem _ _ hm
      rw [List.nodup_append] at hn
      exact absurd rfl (hn.2.2 x this x (by simp))
    · rw [dedupAll_fix xs (acc ++ [x]) h.2 hd.2 (by simpa using hn)]; simp
end
end

end Verif.Expr
