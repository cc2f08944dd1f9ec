import Verif.MetaIndex.Spec
import Verif.Expr.Lemmas
import Verif.SetOps.Props
/-
Helper lemmas for C21.
-/
namespace Verif.MetaIndex
open Verif.Data Verif.Expr Verif.SetOps

variable {τ σ : Type} [DecidableEq τ]

/-- Partition IDs ascend. -/
def Sorted (cat : Catalog τ σ) : Prop := SortedSet (allPartitions cat)

omit [DecidableEq τ] in
theorem sorted_filter {cat : Catalog τ σ} (h : Sorted cat) (q : Nat × PartSyn τ σ → Bool) :
    SortedSet ((cat.filter q).map (·.1)) := by
  unfold Sorted SortedSet allPartitions at h
  unfold SortedSet
  exact h.sublist ((List.filter_sublist (l := cat)).map _)

omit [DecidableEq τ] in
theorem mem_filter_ids {cat : Catalog τ σ} (q : Nat × PartSyn τ σ → Bool) (id : Nat) :
    id ∈ (cat.filter q).map (·.1) ↔ ∃ ps, (id, ps) ∈ cat ∧ q (id, ps) = true := by
  simp only [List.mem_map, List.mem_filter, Prod.exists]
  constructor
  · rintro ⟨a, ps, ⟨h1, h2⟩, rfl⟩; exact ⟨ps, h1, h2⟩
  · rintro ⟨ps, h1, h2⟩; exact ⟨id, ps, ⟨h1, h2⟩, rfl⟩

omit [DecidableEq τ] in
theorem mem_all {cat : Catalog τ σ} (id : Nat) :
    id ∈ allPartitions cat ↔ ∃ ps, (id, ps) ∈ cat := by
  simp [allPartitions]

theorem search_sorted (ops : SynOps τ σ) {cat : Catalog τ σ} (h : Sorted cat)
    (m : Field τ → Bool) (op : RelOp) (d : Data) : SortedSet (search ops cat m op d) :=
  sorted_filter h _

theorem lookupPred_sorted (R : Regex) (T : TypeSys τ) (ops : SynOps τ σ) {cat : Catalog τ σ}
    (h : Sorted cat) (p : Pred τ) :
    SortedSet (lookupPred R T ops cat p) ∧
      ∀ id ∈ lookupPred R T ops cat p, id ∈ allPartitions cat := by
  have hs : ∀ m op d, SortedSet (search ops cat m op d) ∧
      ∀ id ∈ search ops cat m op d, id ∈ allPartitions cat := by
    intro m op d
    refine ⟨search_sorted ops h m op d, fun id hid => ?_⟩
    obtain ⟨ps, h1, _⟩ := (mem_filter_ids _ id).1 hid
    exact (mem_all id).2 ⟨ps, h1⟩
  have hf : ∀ q, SortedSet ((cat.filter q).map (·.1)) ∧
      ∀ id ∈ (cat.filter q).map (·.1), id ∈ allPartitions cat := by
    intro q
    refine ⟨sorted_filter h q, fun id hid => ?_⟩
    obtain ⟨ps, h1, _⟩ := (mem_filter_ids _ id).1 hid
    exact (mem_all id).2 ⟨ps, h1⟩
  have ha : SortedSet (allPartitions cat) ∧ ∀ id ∈ allPartitions cat, id ∈ allPartitions cat :=
    ⟨h, fun _ h => h⟩
  unfold lookupPred
  split
  · exact hf _
  · split
    · exact hf _
    · exact ⟨List.Pairwise.nil, by simp⟩
  · exact hs _ _ _
  · exact hs _ _ _
  · simp only
    split
    · obtain ⟨h1, h2⟩ := C50_inplace_unify _ _ (hs _ _ _).1 (hs _ _ _).1
      refine ⟨h1, fun id hid => ?_⟩
      rcases (h2 id).1 hid with h | h
      · exact (hs _ _ _).2 id h
      · exact (hs _ _ _).2 id h
    · exact hs _ _ _
  · exact ha

/-- What every lookup result satisfies. -/
def Good (cat : Catalog τ σ) (ids : List Nat) : Prop :=
  SortedSet ids ∧ ∀ id ∈ ids, id ∈ allPartitions cat

mutual
theorem lookupImpl_good (R : Regex) (T : TypeSys τ) (ops : SynOps τ σ) {cat : Catalog τ σ}
    (h : Sorted cat) : ∀ e : Expr τ, Good cat (lookupImpl R T ops cat e)
  | .none => ⟨h, fun _ h => h⟩
  | .pred p => by rw [lookupImpl]; exact lookupPred_sorted R T ops h p
  | .conj xs => by rw [lookupImpl]; exact lookupConj_good R T ops h xs
  | .disj xs => by
    rw [lookupImpl]; exact lookupDisj_good R T ops h xs [] ⟨List.Pairwise.nil, by simp⟩
  | .neg _ => by rw [lookupImpl]; exact ⟨h, fun _ h => h⟩

theorem lookupConj_good (R : Regex) (T : TypeSys τ) (ops : SynOps τ σ) {cat : Catalog τ σ}
    (h : Sorted cat) : ∀ xs : List (Expr τ), Good cat (lookupConj R T ops cat xs)
  | [] => by rw [lookupConj]; exact ⟨List.Pairwise.nil, by simp⟩
  | x :: xs => by
    rw [lookupConj]
    split
    · exact lookupImpl_good R T ops h x
    · exact lookupConjRest_good R T ops h xs _ (lookupImpl_good R T ops h x)

theorem lookupConjRest_good (R : Regex) (T : TypeSys τ) (ops : SynOps τ σ) {cat : Catalog τ σ}
    (h : Sorted cat) : ∀ (xs : List (Expr τ)) (r : List Nat), Good cat r →
      Good cat (lookupConjRest R T ops cat r xs)
  | [], r, hr => by rw [lookupConjRest]; exact hr
  | x :: xs, r, hr => by
    have hx := lookupImpl_good R T ops h x
    rw [lookupConjRest]
    split
    · exact hx
    · apply lookupConjRest_good R T ops h xs
      obtain ⟨h1, h2⟩ := C50_inplace_intersect _ _ hr.1 hx.1
      exact ⟨h1, fun id hid => hr.2 id ((h2 id).1 hid).1⟩

theorem lookupDisj_good (R : Regex) (T : TypeSys τ) (ops : SynOps τ σ) {cat : Catalog τ σ}
    (h : Sorted cat) : ∀ (xs : List (Expr τ)) (r : List Nat), Good cat r →
      Good cat (lookupDisj R T ops cat r xs)
  | [], r, hr => by rw [lookupDisj]; exact hr
  | x :: xs, r, hr => by
    have hx := lookupImpl_good R T ops h x
    rw [lookupDisj]
    split
    · exact hx
    · apply lookupDisj_good R T ops h xs
      obtain ⟨h1, h2⟩ := C50_inplace_unify _ _ hr.1 hx.1
      refine ⟨h1, fun id hid => ?_⟩
      rcases (h2 id).1 hid with h | h
      · exact hr.2 id h
      · exact hx.2 id h
end

omit [DecidableEq τ] in
/-- A sorted set of partitions of full length is the set of all of them. -/
theorem good_full {cat : Catalog τ σ} {ids : List Nat} (h : Sorted cat) (hg : Good cat ids)
    (hl : ids.length = cat.length) (id : Nat) (hid : id ∈ allPartitions cat) : id ∈ ids := by
  have key : ∀ (xs ys : List Nat), SortedSet xs → SortedSet ys → (∀ a ∈ xs, a ∈ ys) →
      xs.length = ys.length → xs = ys := by
    intro xs
    induction xs with
    | nil => intro ys _ _ _ hl; exact (List.eq_nil_of_length_eq_zero hl.symm).symm
    | cons x xs ih =>
      intro ys hx hy hsub hl
      cases ys with
      | nil => simp at hl
      | cons y ys =>
        have hx' := List.pairwise_cons.1 hx
        have hy' := List.pairwise_cons.1 hy
        have hlen : ∀ (as bs : List Nat), SortedSet as → SortedSet bs → (∀ a ∈ as, a ∈ bs) →
            as.length ≤ bs.length := by
          intro as
          induction as with
          | nil => intros; simp
          | cons a as ih2 =>
            intro bs ha hb hs
            have hab := hs a (by simp)
            have ha' := List.pairwise_cons.1 ha
            have : as.length ≤ (bs.filter (fun b => decide (a < b))).length := by
              apply ih2 _ ha'.2 (hb.sublist List.filter_sublist)
              intro c hc
              rw [List.mem_filter]
              exact ⟨hs c (by simp [hc]), by simpa using ha'.1 c hc⟩
            have h2 : (bs.filter (fun b => decide (a < b))).length < bs.length := by
              rw [List.length_filter_lt_length_iff_exists]
              exact ⟨a, hab, by simp⟩
            simp only [List.length_cons]
            omega
        have hxy : x = y := by
          rcases List.mem_cons.1 (hsub x (by simp)) with h | h
          · exact h
          · exfalso
            have h1 := hy'.1 x h
            have : (x :: xs).length ≤ ys.length := by
              apply hlen _ _ hx hy'.2
              intro a ha
              rcases List.mem_cons.1 (hsub a ha) with rfl | h'
              · rcases List.mem_cons.1 ha with rfl | h3
                · omega
                · have := hx'.1 _ h3; omega
              · exact h'
            simp only [List.length_cons] at this hl
            omega
        subst hxy
        congr 1
        apply ih ys hx'.2 hy'.2
        · intro a ha
          rcases List.mem_cons.1 (hsub a (by simp [ha])) with rfl | h'
          · have := hx'.1 _ ha; omega
          · exact h'
        · simpa using hl
  have := key ids (allPartitions cat) hg.1 h hg.2 (by simpa [allPartitions] using hl)
  rw [this]; exact hid

section Soundness
variable (R : Regex) (T : TypeSys τ) (ops : SynOps τ σ) (cat : Catalog τ σ)
  (id : Nat) (ps : PartSyn τ σ) (slices : List (Slice τ))

theorem search_sound (hc : (id, ps) ∈ cat) (s : Slice τ) (hs : s ∈ slices) (row : Row)
    (hrow : row ∈ s.rows) (op : RelOp) (d : Data)
    (hn : NoFalseNegative R ops ps slices op d) (sel : Column τ → Bool) (m : Field τ → Bool)
    (hm : ∀ c, sel c = true → m ⟨s.layout.name, c.name, c.type⟩ = true)
    (hsat : columnsSatisfy R s.layout row sel op d = true) : id ∈ search ops cat m op d := by
  -- some selected column satisfies the comparison
  have : ∃ c ∈ s.layout.indexed, sel c.1 = true ∧ evaluate R (row.getD c.2 .none) op d = true := by
    unfold columnsSatisfy at hsat
    simp only [Bool.and_eq_true, Bool.not_eq_true', List.isEmpty_eq_false_iff] at hsat
    obtain ⟨hne, hv⟩ := hsat
    split at hv
    · obtain ⟨v, hv'⟩ := List.exists_mem_of_ne_nil _ hne
      have h1 := List.all_eq_true.1 hv v hv'
      obtain ⟨c, hc', rfl⟩ := List.mem_map.1 hv'
      obtain ⟨h2, h3⟩ := List.mem_filter.1 hc'
      exact ⟨c, h2, h3, h1⟩
    · obtain ⟨v, hv', h1⟩ := List.any_eq_true.1 hv
      obtain ⟨c, hc', rfl⟩ := List.mem_map.1 hv'
      obtain ⟨h2, h3⟩ := List.mem_filter.1 hc'
      exact ⟨c, h2, h3, h1⟩
  obtain ⟨c, hcm, hsel, hev⟩ := this
  obtain ⟨syn, hf, hmay⟩ := hn s hs c hcm
  unfold search
  rw [mem_filter_ids]
  refine ⟨ps, hc, ?_⟩
  simp only [List.any_eq_true, Bool.and_eq_true]
  exact ⟨_, hf, hm c.1 hsel, hmay row hrow hev⟩

theorem lookupPred_sound (hsorted : Sorted cat) (hc : (id, ps) ∈ cat) (s : Slice τ)
    (hs : s ∈ slices) (row : Row) (hrow : row ∈ s.rows)
    (hcols : s.layout.columns ≠ []) (p : Pred τ) (hp : Pred.plain T p)
    (hn : ∀ d, p.rhs = .data d → NoFalseNegative R ops ps slices p.op d)
    (hsat : satPred R T s.layout row p = true) : id ∈ lookupPred R T ops cat p := by
  have hall : id ∈ allPartitions cat := (mem_all id).2 ⟨ps, hc⟩
  obtain ⟨lhs, op, rhs⟩ := p
  have hentry : ∀ d, rhs = .data d → ∀ c ∈ s.layout.columns, ∃ syn,
      ((⟨s.layout.name, c.name, c.type⟩ : Field τ), syn) ∈ ps.fields := by
    intro d hd c hcm
    obtain ⟨i, hi, rfl⟩ := List.getElem_of_mem hcm
    have : (s.layout.columns[i], i) ∈ s.layout.indexed := by
      unfold Layout.indexed
      exact List.mem_zipIdx_iff_getElem?.2 (by simp [hi])
    obtain ⟨syn, h1, _⟩ := hn d hd s hs _ this
    exact ⟨syn, h1⟩
  cases rhs with
  | data d =>
    cases lhs with
    | metaType =>
      simp only [satPred] at hsat
      simp only [lookupPred, mem_filter_ids]
      obtain ⟨c, hcm⟩ := List.exists_mem_of_ne_nil _ hcols
      obtain ⟨syn, hf⟩ := hentry d rfl c hcm
      exact ⟨ps, hc, List.any_eq_true.2 ⟨_, hf, hsat⟩⟩
    | metaField =>
      cases d <;> simp only [satPred, Bool.false_eq_true] at hsat
      next str =>
        have hneg := hp.2 rfl
        simp only at hneg
        simp only [hneg, Bool.false_bne] at hsat
        obtain ⟨c, hcm, he⟩ := List.any_eq_true.1 hsat
        obtain ⟨syn, hf⟩ := hentry _ rfl c hcm
        simp only [lookupPred, mem_filter_ids, hneg]
        refine ⟨ps, hc, ?_⟩
        have : (ps.fields.any fun x => endsWith x.1.fqn str) = true :=
          List.any_eq_true.2 ⟨_, hf, he⟩
        simp [this]
    | field k =>
      simp only [satPred] at hsat
      simp only [lookupPred]
      refine search_sound R ops cat id ps slices hc s hs row hrow op d (hn d rfl) _ _ ?_ hsat
      intro c hsel
      simp only [Bool.and_eq_true] at hsel
      exact hp.1 k rfl _ hsel.1
    | type t =>
      simp only [satPred] at hsat
      simp only [lookupPred]
      exact search_sound R ops cat id ps slices hc s hs row hrow op d (hn d rfl) _ _
        (fun c h => h) hsat
    | typeName n =>
      simp only [satPred, Bool.or_eq_true, Bool.and_eq_true] at hsat
      simp only [lookupPred]
      have hA := search_sound R ops cat id ps slices hc s hs row hrow op d (hn d rfl)
        (fun c => T.named n c.type op d) (fun f => T.named n f.type op d) (fun c h => h)
      have hB := search_sound R ops cat id ps slices hc s hs row hrow op d (hn d rfl)
        (fun c => T.timestamp c.type) (fun f => T.timestamp f.type) (fun c h => h)
      split
      · obtain ⟨_, h2⟩ := C50_inplace_unify _ _
          (search_sorted ops hsorted (fun f => T.named n f.type op d) op d)
          (search_sorted ops hsorted (fun f => T.timestamp f.type) op d)
        rw [h2]
        rcases hsat with h | h
        · exact .inl (hA h)
        · exact .inr (hB h.2)
      · next hne =>
        rcases hsat with h | h
        · exact hA h
        · exact absurd h.1 hne
    | column _ _ => exact hall
    | data _ => exact hall
  | _ => cases lhs <;> exact hall

end Soundness

mutual
/-- `eval` with every negation (and nil) taken for true: what the catalog can
tell about an expression. -/
def weak (pv : Pred τ → Bool) : Expr τ → Bool
  | .none => true
  | .pred p => pv p
  | .conj xs => weakAll pv xs
  | .disj xs => weakAny pv xs
  | .neg _ => true

/-- `weak` of all. -/
def weakAll (pv : Pred τ → Bool) : List (Expr τ) → Bool
  | [] => true
  | x :: xs => weak pv x && weakAll pv xs

/-- `weak` of any. -/
def weakAny (pv : Pred τ → Bool) : List (Expr τ) → Bool
  | [] => false
  | x :: xs => weak pv x || weakAny pv xs
end

section SoundnessExpr
variable (R : Regex) (T : TypeSys τ) (ops : SynOps τ σ) (cat : Catalog τ σ)
  (id : Nat)

mutual
theorem lookupImpl_sound (pv : Pred τ → Bool) (hsorted : Sorted cat)
    (hid : id ∈ allPartitions cat) : ∀ e : Expr τ,
    (∀ p ∈ e.preds, pv p = true → id ∈ lookupPred R T ops cat p) →
    weak pv e = true → (∀ xs, e = .conj xs → xs ≠ []) → e.noEmpty → id ∈ lookupImpl R T ops cat e
  | .none, _, _, _, _ => by rw [lookupImpl]; exact hid
  | .pred p, hp, h, _, _ => by
    rw [lookupImpl]; exact hp p (by simp [Expr.preds]) (by simpa [weak] using h)
  | .conj xs, hp, h, _, he => by
    rw [lookupImpl]
    simp only [Expr.preds] at hp
    simp only [weak] at h
    simp only [Expr.noEmpty] at he
    exact lookupConj_sound pv hsorted hid xs he.1 hp h he.2
  | .disj xs, hp, h, _, he => by
    rw [lookupImpl]
    simp only [Expr.preds] at hp
    simp only [weak] at h
    simp only [Expr.noEmpty] at he
    exact lookupDisj_sound pv hsorted hid xs [] ⟨List.Pairwise.nil, by simp⟩ hp (.inr h) he.2
  | .neg x, _, _, _, _ => by rw [lookupImpl]; exact hid

theorem lookupConj_sound (pv : Pred τ → Bool) (hsorted : Sorted cat)
    (hid : id ∈ allPartitions cat) : ∀ xs : List (Expr τ), xs ≠ [] →
    (∀ p ∈ Expr.predsAll xs, pv p = true → id ∈ lookupPred R T ops cat p) →
    weakAll pv xs = true → Expr.noEmptyAll xs → id ∈ lookupConj R T ops cat xs
  | [], h, _, _, _ => absurd rfl h
  | x :: xs, _, hp, h, he => by
    simp only [weakAll, Bool.and_eq_true] at h
    simp only [Expr.noEmptyAll] at he
    simp only [Expr.predsAll, List.mem_append] at hp
    have hx := lookupImpl_sound pv hsorted hid x (fun p h => hp p (.inl h)) h.1
      (by intro ys hy; subst hy; simp only [Expr.noEmpty] at he; exact he.1.1) he.1
    rw [lookupConj]
    split
    · exact hx
    · exact lookupConjRest_sound pv hsorted hid xs _ (lookupImpl_good R T ops hsorted x) hx
        (fun p h => hp p (.inr h)) h.2 he.2

theorem lookupConjRest_sound (pv : Pred τ → Bool) (hsorted : Sorted cat)
    (hid : id ∈ allPartitions cat) : ∀ (xs : List (Expr τ)) (r : List Nat), Good cat r → id ∈ r →
    (∀ p ∈ Expr.predsAll xs, pv p = true → id ∈ lookupPred R T ops cat p) →
    weakAll pv xs = true → Expr.noEmptyAll xs → id ∈ lookupConjRest R T ops cat r xs
  | [], r, _, hr, _, _, _ => by rw [lookupConjRest]; exact hr
  | x :: xs, r, hg, hr, hp, h, he => by
    simp only [weakAll, Bool.and_eq_true] at h
    simp only [Expr.noEmptyAll] at he
    simp only [Expr.predsAll, List.mem_append] at hp
    have hx := lookupImpl_sound pv hsorted hid x (fun p h => hp p (.inl h)) h.1
      (by intro ys hy; subst hy; simp only [Expr.noEmpty] at he; exact he.1.1) he.1
    have hgx := lookupImpl_good R T ops hsorted x
    rw [lookupConjRest]
    split
    · exact hx
    · obtain ⟨h1, h2⟩ := C50_inplace_intersect _ _ hg.1 hgx.1
      exact lookupConjRest_sound pv hsorted hid xs _
        ⟨h1, fun i hi => hg.2 i ((h2 i).1 hi).1⟩ ((h2 id).2 ⟨hr, hx⟩)
        (fun p h => hp p (.inr h)) h.2 he.2

theorem lookupDisj_sound (pv : Pred τ → Bool) (hsorted : Sorted cat)
    (hid : id ∈ allPartitions cat) : ∀ (xs : List (Expr τ)) (r : List Nat), Good cat r →
    (∀ p ∈ Expr.predsAll xs, pv p = true → id ∈ lookupPred R T ops cat p) →
    (id ∈ r ∨ weakAny pv xs = true) → Expr.noEmptyAll xs → id ∈ lookupDisj R T ops cat r xs
  | [], r, _, _, h, _ => by
    rw [lookupDisj]
    rcases h with h | h
    · exact h
    · simp [weakAny] at h
  | x :: xs, r, hg, hp, h, he => by
    simp only [Expr.noEmptyAll] at he
    simp only [Expr.predsAll, List.mem_append] at hp
    have hgx := lookupImpl_good R T ops hsorted x
    rw [lookupDisj]
    split
    · next hl => exact good_full hsorted hgx (by simpa using hl) id hid
    · obtain ⟨h1, h2⟩ := C50_inplace_unify _ _ hg.1 hgx.1
      have hgood : Good cat (inplaceUnify r (lookupImpl R T ops cat x)) := by
        refine ⟨h1, fun i hi => ?_⟩
        rcases (h2 i).1 hi with h | h
        · exact hg.2 i h
        · exact hgx.2 i h
      refine lookupDisj_sound pv hsorted hid xs _ hgood (fun p h => hp p (.inr h)) ?_ he.2
      rcases h with h | h
      · exact .inl ((h2 id).2 (.inl h))
      · simp only [weakAny, Bool.or_eq_true] at h
        rcases h with h | h
        · left
          exact (h2 id).2 (.inr (lookupImpl_sound pv hsorted hid x (fun p h => hp p (.inl h)) h
            (by intro ys hy; subst hy; simp only [Expr.noEmpty] at he; exact he.1.1) he.1))
        · exact .inr h
end

end SoundnessExpr

/-! ### Hoisting and pruning -/

omit [DecidableEq τ]

mutual
theorem weak_of_eval (pv : Pred τ → Bool) : ∀ e : Expr τ, e.eval pv = true → weak pv e = true
  | .none, _ => rfl
  | .pred p, h => by simpa [Expr.eval, weak] using h
  | .conj xs, h => by
    rw [weak]; exact weakAll_of_eval pv xs (by simpa [Expr.eval] using h)
  | .disj xs, h => by
    rw [weak]; exact weakAny_of_eval pv xs (by simpa [Expr.eval] using h)
  | .neg _, _ => rfl
theorem weakAll_of_eval (pv : Pred τ → Bool) : ∀ xs : List (Expr τ),
    Expr.evalAll pv xs = true → weakAll pv xs = true
  | [], _ => rfl
  | x :: xs, h => by
    simp only [Expr.evalAll, Bool.and_eq_true] at h
    simp [weakAll, weak_of_eval pv x h.1, weakAll_of_eval pv xs h.2]
theorem weakAny_of_eval (pv : Pred τ → Bool) : ∀ xs : List (Expr τ),
    Expr.evalAny pv xs = true → weakAny pv xs = true
  | [], h => by simp [Expr.evalAny] at h
  | x :: xs, h => by
    simp only [Expr.evalAny, Bool.or_eq_true] at h
    rcases h with h | h
    · simp [weakAny, weak_of_eval pv x h]
    · simp [weakAny, weakAny_of_eval pv xs h]
end

theorem weakAll_append (pv : Pred τ → Bool) (xs ys : List (Expr τ)) :
    weakAll pv (xs ++ ys) = (weakAll pv xs && weakAll pv ys) := by
  induction xs with
  | nil => simp [weakAll]
  | cons x xs ih => simp [weakAll, ih, Bool.and_assoc]

theorem weakAny_append (pv : Pred τ → Bool) (xs ys : List (Expr τ)) :
    weakAny pv (xs ++ ys) = (weakAny pv xs || weakAny pv ys) := by
  induction xs with
  | nil => simp [weakAny]
  | cons x xs ih => simp [weakAny, ih, Bool.or_assoc]

theorem weak_collapse_conj (pv : Pred τ → Bool) (xs : List (Expr τ)) :
    weak pv (collapse .conj xs) = weakAll pv xs := by
  match xs with
  | [] => simp [collapse, weak]
  | [x] => simp [collapse, weakAll]
  | x :: y :: xs => simp [collapse, weak]

theorem weak_collapse_disj (pv : Pred τ → Bool) (xs : List (Expr τ)) :
    weak pv (collapse .disj xs) = weakAny pv xs := by
  match xs with
  | [] => simp [collapse, weak]
  | [x] => simp [collapse, weakAny]
  | x :: y :: xs => simp [collapse, weak]

mutual
theorem weak_hoist (pv : Pred τ → Bool) : ∀ e : Expr τ, weak pv (hoist e) = weak pv e
  | .none => by simp [hoist]
  | .pred p => by simp [hoist]
  | .conj xs => by rw [hoist, weak_collapse_conj, weakAll_hoistConj pv xs, weak]
  | .disj xs => by rw [hoist, weak_collapse_disj, weakAny_hoistDisj pv xs, weak]
  | .neg x => by simp [hoist, weak]

theorem weakAll_hoistConj (pv : Pred τ → Bool) :
    ∀ xs : List (Expr τ), weakAll pv (hoistConj xs) = weakAll pv xs
  | [] => by simp [hoistConj]
  | .conj ys :: xs => by
    simp [hoistConj, weakAll_append, weakAll, weak, weakAll_hoistAll pv ys,
      weakAll_hoistConj pv xs]
  | .none :: xs => by simp [hoistConj, hoist, weakAll, weakAll_hoistConj pv xs]
  | .pred p :: xs => by simp [hoistConj, hoist, weakAll, weakAll_hoistConj pv xs]
  | .disj ys :: xs => by
    simp [hoistConj, weakAll, weak, weakAll_hoistConj pv xs, weak_collapse_disj,
      weakAny_hoistDisj pv ys]
  | .neg y :: xs => by
    simp [hoistConj, weakAll, weak, weakAll_hoistConj pv xs]

theorem weakAny_hoistDisj (pv : Pred τ → Bool) :
    ∀ xs : List (Expr τ), weakAny pv (hoistDisj xs) = weakAny pv xs
  | [] => by simp [hoistDisj]
  | .disj ys :: xs => by
    simp [hoistDisj, weakAny_append, weakAny, weak, weakAny_hoistAll pv ys,
      weakAny_hoistDisj pv xs]
  | .none :: xs => by simp [hoistDisj, hoist, weakAny, weakAny_hoistDisj pv xs]
  | .pred p :: xs => by simp [hoistDisj, hoist, weakAny, weakAny_hoistDisj pv xs]
  | .conj ys :: xs => by
    simp [hoistDisj, weakAny, weak, weakAny_hoistDisj pv xs, weak_collapse_conj,
      weakAll_hoistConj pv ys]
  | .neg y :: xs => by
    simp [hoistDisj, weakAny, weak, weakAny_hoistDisj pv xs]

theorem weakAll_hoistAll (pv : Pred τ → Bool) :
    ∀ xs : List (Expr τ), weakAll pv (hoistAll xs) = weakAll pv xs
  | [] => by simp [hoistAll]
  | x :: xs => by simp [hoistAll, weakAll, weak_hoist pv x, weakAll_hoistAll pv xs]

theorem weakAny_hoistAll (pv : Pred τ → Bool) :
    ∀ xs : List (Expr τ), weakAny pv (hoistAll xs) = weakAny pv xs
  | [] => by simp [hoistAll]
  | x :: xs => by simp [hoistAll, weakAny, weak_hoist pv x, weakAny_hoistAll pv xs]
end

theorem predsAll_append (xs ys : List (Expr τ)) :
    Expr.predsAll (xs ++ ys) = Expr.predsAll xs ++ Expr.predsAll ys := by
  induction xs with
  | nil => simp [Expr.predsAll]
  | cons x xs ih => simp [Expr.predsAll, ih]

theorem preds_collapse_conj (xs : List (Expr τ)) :
    (collapse .conj xs).preds = Expr.predsAll xs := by
  match xs with
  | [] => simp [collapse, Expr.preds]
  | [x] => simp [collapse, Expr.predsAll]
  | x :: y :: xs => simp [collapse, Expr.preds]

theorem preds_collapse_disj (xs : List (Expr τ)) :
    (collapse .disj xs).preds = Expr.predsAll xs := by
  match xs with
  | [] => simp [collapse, Expr.preds]
  | [x] => simp [collapse, Expr.predsAll]
  | x :: y :: xs => simp [collapse, Expr.preds]

mutual
theorem preds_hoist : ∀ e : Expr τ, (hoist e).preds = e.preds
  | .none => by simp [hoist]
  | .pred p => by simp [hoist]
  | .conj xs => by rw [hoist, preds_collapse_conj, preds_hoistConj xs, Expr.preds]
  | .disj xs => by rw [hoist, preds_collapse_disj, preds_hoistDisj xs, Expr.preds]
  | .neg x => by simp [hoist, Expr.preds, preds_hoist x]

theorem preds_hoistConj : ∀ xs : List (Expr τ), Expr.predsAll (hoistConj xs) = Expr.predsAll xs
  | [] => by simp [hoistConj]
  | .conj ys :: xs => by
    simp [hoistConj, predsAll_append, Expr.predsAll, Expr.preds, preds_hoistAll ys,
      preds_hoistConj xs]
  | .none :: xs => by simp [hoistConj, hoist, Expr.predsAll, preds_hoistConj xs]
  | .pred p :: xs => by simp [hoistConj, hoist, Expr.predsAll, preds_hoistConj xs]
  | .disj ys :: xs => by
    simp [hoistConj, Expr.predsAll, Expr.preds, preds_hoistConj xs, preds_collapse_disj,
      preds_hoistDisj ys]
  | .neg y :: xs => by
    simp [hoistConj, Expr.predsAll, Expr.preds, preds_hoistConj xs, preds_hoist y]

theorem preds_hoistDisj : ∀ xs : List (Expr τ), Expr.predsAll (hoistDisj xs) = Expr.predsAll xs
  | [] => by simp [hoistDisj]
  | .disj ys :: xs => by
    simp [hoistDisj, predsAll_append, Expr.predsAll, Expr.preds, preds_hoistAll ys,
      preds_hoistDisj xs]
  | .none :: xs => by simp [hoistDisj, hoist, Expr.predsAll, preds_hoistDisj xs]
  | .pred p :: xs => by simp [hoistDisj, hoist, Expr.predsAll, preds_hoistDisj xs]
  | .conj ys :: xs => by
    simp [hoistDisj, Expr.predsAll, Expr.preds, preds_hoistDisj xs, preds_collapse_conj,
      preds_hoistConj ys]
  | .neg y :: xs => by
    simp [hoistDisj, Expr.predsAll, Expr.preds, preds_hoistDisj xs, preds_hoist y]

theorem preds_hoistAll : ∀ xs : List (Expr τ), Expr.predsAll (hoistAll xs) = Expr.predsAll xs
  | [] => by simp [hoistAll]
  | x :: xs => by simp [hoistAll, Expr.predsAll, preds_hoist x, preds_hoistAll xs]
end

mutual
theorem preds_prune : ∀ e : Expr τ, (prune e).preds.Sublist e.preds
  | .none => by simp [prune]
  | .pred p => by simp [prune]
  | .conj xs => by simpa [prune, Expr.preds] using preds_pruneRun [] xs
  | .disj xs => by simpa [prune, Expr.preds] using preds_pruneRun [] xs
  | .neg x => by simpa [prune, Expr.preds] using preds_prune x

theorem preds_pruneRun : ∀ (memo : List Str) (xs : List (Expr τ)),
    (Expr.predsAll (pruneRun memo xs)).Sublist (Expr.predsAll xs)
  | _, [] => by simp [pruneRun]
  | memo, x :: xs => by
    rw [pruneRun]
    split
    · split
      · exact (preds_pruneRun memo xs).trans (by simp [Expr.predsAll])
      · simp only [Expr.predsAll]
        exact (List.Sublist.refl _).append (preds_pruneRun _ xs)
    · simp only [Expr.predsAll]
      exact (preds_prune x).append (preds_pruneRun memo xs)
end

/-- The string literals of a list of expressions. -/
def literals (xs : List (Expr τ)) : List Str :=
  (Expr.predsAll xs).filterMap fun p => stringLiteral (.pred p)

theorem stringLiteral_mem {x : Expr τ} {s : Str} (h : stringLiteral x = some s) :
    x.preds.filterMap (fun p => stringLiteral (.pred p)) = [s] := by
  cases x <;> simp [stringLiteral] at h
  next p => simp [Expr.preds, stringLiteral, h]

mutual
theorem weak_prune (pv : Pred τ → Bool) : ∀ e : Expr τ, stringsDistinct e →
    weak pv e = true → weak pv (prune e) = true
  | .none, _, _ => rfl
  | .pred p, _, h => h
  | .conj xs, hd, h => by
    rw [prune, weak]
    exact weakAll_pruneRun pv [] xs (by simpa [stringsDistinct] using hd) (by simpa [weak] using h)
  | .disj xs, hd, h => by
    rw [prune, weak]
    simp only [stringsDistinct] at hd
    exact weakAny_pruneRun pv [] xs hd.2 hd.1 (by simp) (by simpa [weak] using h)
  | .neg _, _, _ => rfl

theorem weakAll_pruneRun (pv : Pred τ → Bool) : ∀ (memo : List Str) (xs : List (Expr τ)),
    stringsDistinctAll xs → weakAll pv xs = true → weakAll pv (pruneRun memo xs) = true
  | _, [], _, _ => by simp [pruneRun, weakAll]
  | memo, x :: xs, hd, h => by
    simp only [weakAll, Bool.and_eq_true] at h
    simp only [stringsDistinctAll] at hd
    rw [pruneRun]
    split
    · split
      · exact weakAll_pruneRun pv _ xs hd.2 h.2
      · simp [weakAll, h.1, weakAll_pruneRun pv _ xs hd.2 h.2]
    · simp [weakAll, weak_prune pv x hd.1 h.1, weakAll_pruneRun pv _ xs hd.2 h.2]

theorem weakAny_pruneRun (pv : Pred τ → Bool) : ∀ (memo : List Str) (xs : List (Expr τ)),
    stringsDistinctAll xs → (literals xs).Nodup → (∀ s ∈ memo, s ∉ literals xs) →
    weakAny pv xs = true → weakAny pv (pruneRun memo xs) = true
  | _, [], _, _, _, h => by simp [weakAny] at h
  | memo, x :: xs, hd, hn, hm, h => by
    simp only [weakAny, Bool.or_eq_true] at h
    simp only [stringsDistinctAll] at hd
    simp only [literals, Expr.predsAll, List.filterMap_append] at hn hm
    have hn2 : (literals xs).Nodup := (List.nodup_append.1 hn).2.1
    rw [pruneRun]
    split
    · next s hs =>
      rw [stringLiteral_mem hs] at hn hm
      split
      · next hc => exact absurd (hm s (by simpa using hc)) (by simp)
      · rw [weakAny, Bool.or_eq_true]
        rcases h with h | h
        · exact .inl h
        · refine .inr (weakAny_pruneRun pv _ xs hd.2 hn2 ?_ h)
          intro s' hs'
          rcases List.mem_cons.1 hs' with rfl | hs'
          · exact (List.nodup_cons.1 hn).1
          · intro h'
            exact hm s' hs' (List.mem_append_right _ h')
    · rw [weakAny, Bool.or_eq_true]
      rcases h with h | h
      · exact .inl (weak_prune pv x hd.1 h)
      · refine .inr (weakAny_pruneRun pv _ xs hd.2 hn2 ?_ h)
        intro s' hs' h'
        exact hm s' hs' (List.mem_append_right _ h')
end

theorem stringsDistinctAll_iff (xs : List (Expr τ)) :
    stringsDistinctAll xs ↔ ∀ x ∈ xs, stringsDistinct x := by
  induction xs with
  | nil => simp [stringsDistinctAll]
  | cons x xs ih => simp [stringsDistinctAll, ih]

mutual
theorem stringsDistinct_prune : ∀ e : Expr τ, stringsDistinct e → stringsDistinct (prune e)
  | .none, h => h
  | .pred _, h => h
  | .conj xs, h => by
    rw [prune, stringsDistinct]
    exact stringsDistinct_pruneRun [] xs (by simpa [stringsDistinct] using h)
  | .disj xs, h => by
    rw [prune]
    simp only [stringsDistinct] at h ⊢
    exact ⟨((preds_pruneRun [] xs).filterMap _).nodup h.1, stringsDistinct_pruneRun [] xs h.2⟩
  | .neg x, h => by
    rw [prune, stringsDistinct]
    exact stringsDistinct_prune x (by simpa [stringsDistinct] using h)
theorem stringsDistinct_pruneRun : ∀ (memo : List Str) (xs : List (Expr τ)),
    stringsDistinctAll xs → stringsDistinctAll (pruneRun memo xs)
  | _, [], _ => by simp [pruneRun, stringsDistinctAll]
  | memo, x :: xs, h => by
    simp only [stringsDistinctAll] at h
    rw [pruneRun]
    split
    · split
      · exact stringsDistinct_pruneRun _ xs h.2
      · rw [stringsDistinctAll]; exact ⟨h.1, stringsDistinct_pruneRun _ xs h.2⟩
    · rw [stringsDistinctAll]
      exact ⟨stringsDistinct_prune x h.1, stringsDistinct_pruneRun _ xs h.2⟩
end

mutual
theorem noEmpty_prune : ∀ e : Expr τ, e.noEmpty → (prune e).noEmpty
  | .none, h => h
  | .pred _, h => h
  | .conj xs, h => by
    rw [prune]
    simp only [Expr.noEmpty] at h ⊢
    exact ⟨pruneRun_ne xs h.1, noEmpty_pruneRun [] xs h.2⟩
  | .disj xs, h => by
    rw [prune]
    simp only [Expr.noEmpty] at h ⊢
    exact ⟨pruneRun_ne xs h.1, noEmpty_pruneRun [] xs h.2⟩
  | .neg x, h => by
    rw [prune, Expr.noEmpty]
    exact noEmpty_prune x (by simpa [Expr.noEmpty] using h)
theorem noEmpty_pruneRun : ∀ (memo : List Str) (xs : List (Expr τ)),
    Expr.noEmptyAll xs → Expr.noEmptyAll (pruneRun memo xs)
  | _, [], _ => by simp [pruneRun, Expr.noEmptyAll]
  | memo, x :: xs, h => by
    simp only [Expr.noEmptyAll] at h
    rw [pruneRun]
    split
    · split
      · exact noEmpty_pruneRun _ xs h.2
      · rw [Expr.noEmptyAll]; exact ⟨h.1, noEmpty_pruneRun _ xs h.2⟩
    · rw [Expr.noEmptyAll]
      exact ⟨noEmpty_prune x h.1, noEmpty_pruneRun _ xs h.2⟩
theorem pruneRun_ne : ∀ (xs : List (Expr τ)), xs ≠ [] → pruneRun [] xs ≠ []
  | [], h => absurd rfl h
  | x :: xs, _ => by
    rw [pruneRun]
    split <;> simp
end

/-- A node is as it should be. -/
structure Ok (e : Expr τ) : Prop where
  noEmpty : e.noEmpty
  distinct : stringsDistinct e

theorem collapse_conj_ok {xs : List (Expr τ)} (hne : xs ≠ []) (h : ∀ x ∈ xs, Ok x) :
    Ok (collapse .conj xs) := by
  match xs with
  | [] => exact absurd rfl hne
  | [x] => exact h x (by simp)
  | x :: y :: xs =>
    refine ⟨?_, ?_⟩
    · simp only [collapse, Expr.noEmpty]
      exact ⟨by simp, (noEmptyAll_iff _).2 fun z hz => (h z hz).1⟩
    · simp only [collapse, stringsDistinct]
      exact (stringsDistinctAll_iff _).2 fun z hz => (h z hz).2

theorem collapse_disj_ok {xs : List (Expr τ)} (hne : xs ≠ []) (h : ∀ x ∈ xs, Ok x)
    (hn : (literals xs).Nodup) : Ok (collapse .disj xs) := by
  match xs with
  | [] => exact absurd rfl hne
  | [x] => exact h x (by simp)
  | x :: y :: xs =>
    refine ⟨?_, ?_⟩
    · simp only [collapse, Expr.noEmpty]
      exact ⟨by simp, (noEmptyAll_iff _).2 fun z hz => (h z hz).1⟩
    · simp only [collapse, stringsDistinct]
      exact ⟨hn, (stringsDistinctAll_iff _).2 fun z hz => (h z hz).2⟩

theorem Ok.conj_iff (xs : List (Expr τ)) : Ok (.conj xs) ↔ xs ≠ [] ∧ ∀ x ∈ xs, Ok x := by
  constructor
  · rintro ⟨h1, h2⟩
    simp only [Expr.noEmpty, stringsDistinct, noEmptyAll_iff, stringsDistinctAll_iff] at h1 h2
    exact ⟨h1.1, fun x hx => ⟨h1.2 x hx, h2 x hx⟩⟩
  · rintro ⟨h1, h2⟩
    refine ⟨?_, ?_⟩ <;>
      simp only [Expr.noEmpty, stringsDistinct, noEmptyAll_iff, stringsDistinctAll_iff]
    · exact ⟨h1, fun x hx => (h2 x hx).1⟩
    · exact fun x hx => (h2 x hx).2

theorem Ok.disj_iff (xs : List (Expr τ)) :
    Ok (.disj xs) ↔ xs ≠ [] ∧ (literals xs).Nodup ∧ ∀ x ∈ xs, Ok x := by
  constructor
  · rintro ⟨h1, h2⟩
    simp only [Expr.noEmpty, stringsDistinct, noEmptyAll_iff, stringsDistinctAll_iff] at h1 h2
    exact ⟨h1.1, h2.1, fun x hx => ⟨h1.2 x hx, h2.2 x hx⟩⟩
  · rintro ⟨h1, h3, h2⟩
    refine ⟨?_, ?_⟩ <;>
      simp only [Expr.noEmpty, stringsDistinct, noEmptyAll_iff, stringsDistinctAll_iff]
    · exact ⟨h1, fun x hx => (h2 x hx).1⟩
    · exact ⟨h3, fun x hx => (h2 x hx).2⟩

theorem Ok.neg_iff (x : Expr τ) : Ok (.neg x) ↔ Ok x := by
  constructor <;> rintro ⟨h1, h2⟩ <;> exact ⟨by simpa [Expr.noEmpty] using h1,
    by simpa [stringsDistinct] using h2⟩

theorem hoistAll_ne {xs : List (Expr τ)} (h : xs ≠ []) : hoistAll xs ≠ [] := by
  cases xs with
  | nil => exact absurd rfl h
  | cons x xs => simp [hoistAll]

mutual
theorem hoist_ok : ∀ e : Expr τ, Ok e → Ok (hoist e)
  | .none, h => h
  | .pred _, h => h
  | .conj xs, h => by
    rw [hoist]
    obtain ⟨h1, h2⟩ := (Ok.conj_iff xs).1 h
    obtain ⟨h3, h4⟩ := hoistConj_ok xs h2
    exact collapse_conj_ok (h3 h1) h4
  | .disj xs, h => by
    rw [hoist]
    obtain ⟨h1, hn, h2⟩ := (Ok.disj_iff xs).1 h
    obtain ⟨h3, h4⟩ := hoistDisj_ok xs h2
    exact collapse_disj_ok (h3 h1) h4 (by unfold literals; rw [preds_hoistDisj]; exact hn)
  | .neg x, h => by
    rw [hoist, Ok.neg_iff]
    exact hoist_ok x ((Ok.neg_iff x).1 h)

theorem hoistConj_ok : ∀ xs : List (Expr τ), (∀ x ∈ xs, Ok x) →
    (xs ≠ [] → hoistConj xs ≠ []) ∧ ∀ x ∈ hoistConj xs, Ok x
  | [], _ => by simp [hoistConj]
  | .conj ys :: xs, h => by
    obtain ⟨h1, h2⟩ := (Ok.conj_iff ys).1 (h _ (by simp))
    have hr := (hoistConj_ok xs fun x hx => h x (by simp [hx])).2
    have hy := hoistAll_ok ys h2
    simp only [hoistConj, List.mem_append]
    exact ⟨fun _ => by simp [hoistAll_ne h1], fun x hx => hx.elim (hy x) (hr x)⟩
  | .none :: xs, h => by
    have hr := (hoistConj_ok xs fun x hx => h x (by simp [hx])).2
    simp only [hoistConj, hoist, List.mem_cons]
    exact ⟨by simp, fun x hx => hx.elim (fun e => e ▸ h _ (by simp)) (hr x)⟩
  | .pred p :: xs, h => by
    have hr := (hoistConj_ok xs fun x hx => h x (by simp [hx])).2
    simp only [hoistConj, hoist, List.mem_cons]
    exact ⟨by simp, fun x hx => hx.elim (fun e => e ▸ h _ (by simp)) (hr x)⟩
  | .disj ys :: xs, h => by
    obtain ⟨h1, hn, h2⟩ := (Ok.disj_iff ys).1 (h _ (by simp))
    have hr := (hoistConj_ok xs fun x hx => h x (by simp [hx])).2
    obtain ⟨h3, h4⟩ := hoistDisj_ok ys h2
    have hy := collapse_disj_ok (h3 h1) h4 (by unfold literals; rw [preds_hoistDisj]; exact hn)
    simp only [hoistConj, List.mem_cons]
    exact ⟨by simp, fun x hx => hx.elim (fun e => e ▸ hy) (hr x)⟩
  | .neg y :: xs, h => by
    have hr := (hoistConj_ok xs fun x hx => h x (by simp [hx])).2
    have hy := hoist_ok y ((Ok.neg_iff y).1 (h _ (by simp)))
    simp only [hoistConj, List.mem_cons]
    exact ⟨by simp, fun x hx => hx.elim (fun e => e ▸ (Ok.neg_iff _).2 hy) (hr x)⟩

theorem hoistDisj_ok : ∀ xs : List (Expr τ), (∀ x ∈ xs, Ok x) →
    (xs ≠ [] → hoistDisj xs ≠ []) ∧ ∀ x ∈ hoistDisj xs, Ok x
  | [], _ => by simp [hoistDisj]
  | .disj ys :: xs, h => by
    obtain ⟨h1, _, h2⟩ := (Ok.disj_iff ys).1 (h _ (by simp))
    have hr := (hoistDisj_ok xs fun x hx => h x (by simp [hx])).2
    have hy := hoistAll_ok ys h2
    simp only [hoistDisj, List.mem_append]
    exact ⟨fun _ => by simp [hoistAll_ne h1], fun x hx => hx.elim (hy x) (hr x)⟩
  | .none :: xs, h => by
    have hr := (hoistDisj_ok xs fun x hx => h x (by simp [hx])).2
    simp only [hoistDisj, hoist, List.mem_cons]
    exact ⟨by simp, fun x hx => hx.elim (fun e => e ▸ h _ (by simp)) (hr x)⟩
  | .pred p :: xs, h => by
    have hr := (hoistDisj_ok xs fun x hx => h x (by simp [hx])).2
    simp only [hoistDisj, hoist, List.mem_cons]
    exact ⟨by simp, fun x hx => hx.elim (fun e => e ▸ h _ (by simp)) (hr x)⟩
  | .conj ys :: xs, h => by
    obtain ⟨h1, h2⟩ := (Ok.conj_iff ys).1 (h _ (by simp))
    have hr := (hoistDisj_ok xs fun x hx => h x (by simp [hx])).2
    obtain ⟨h3, h4⟩ := hoistConj_ok ys h2
    have hy := collapse_conj_ok (h3 h1) h4
    simp only [hoistDisj, List.mem_cons]
    exact ⟨by simp, fun x hx => hx.elim (fun e => e ▸ hy) (hr x)⟩
  | .neg y :: xs, h => by
    have hr := (hoistDisj_ok xs fun x hx => h x (by simp [hx])).2
    have hy := hoist_ok y ((Ok.neg_iff y).1 (h _ (by simp)))
    simp only [hoistDisj, List.mem_cons]
    exact ⟨by simp, fun x hx => hx.elim (fun e => e ▸ (Ok.neg_iff _).2 hy) (hr x)⟩

theorem hoistAll_ok : ∀ xs : List (Expr τ), (∀ x ∈ xs, Ok x) → ∀ x ∈ hoistAll xs, Ok x
  | [], _ => by simp [hoistAll]
  | x :: xs, h => by
    simp only [hoistAll, List.mem_cons]
    exact fun y hy => hy.elim (fun e => e ▸ hoist_ok x (h x (by simp)))
      (hoistAll_ok xs (fun z hz => h z (by simp [hz])) y)
end

/-- What the pruning loop preserves. -/
structure Weaker (pv : Pred τ → Bool) (e r : Expr τ) : Prop where
  ok : Ok r
  weak : weak pv e = true → weak pv r = true
  preds : ∀ p ∈ r.preds, p ∈ e.preds

theorem Weaker.prune {pv : Pred τ → Bool} {e r : Expr τ} (h : Weaker pv e r) :
    Weaker pv e (prune r) :=
  ⟨⟨noEmpty_prune r h.ok.1, stringsDistinct_prune r h.ok.2⟩,
   fun hw => weak_prune pv r h.ok.2 (h.weak hw),
   fun p hp => h.preds p ((preds_prune r).subset hp)⟩

theorem Weaker.hoist {pv : Pred τ → Bool} {e r : Expr τ} (h : Weaker pv e r) :
    Weaker pv e (hoist r) :=
  ⟨hoist_ok r h.ok, fun hw => by rw [weak_hoist]; exact h.weak hw,
   fun p hp => h.preds p (by rwa [preds_hoist] at hp)⟩

theorem pruneLoop_weaker [DecidableEq τ] (pv : Pred τ → Bool) (e0 : Expr τ) :
    ∀ (n : Nat) (e r r' : Expr τ), Weaker pv e0 r → pruneLoop n e r = some r' →
      Weaker pv e0 r' := by
  intro n
  induction n with
  | zero =>
    intro e r r' hw h
    rw [pruneLoop] at h
    split at h
    · simp at h; exact h ▸ hw
    · simp at h
  | succ n ih =>
    intro e r r' hw h
    rw [pruneLoop] at h
    split at h
    · simp at h; exact h ▸ hw
    · exact ih _ _ _ hw.prune.hoist h

theorem pruneAll_weaker [DecidableEq τ] (pv : Pred τ → Bool) (n : Nat) (e r : Expr τ) (h : Ok e)
    (hp : pruneAll n e = some r) : Weaker pv e r :=
  pruneLoop_weaker pv e n e _ r (Weaker.prune ⟨h, fun h => h, fun _ h => h⟩) hp

/-! ### Termination of the pruning loop -/

mutual
/-- Number of nodes. -/
def size : Expr τ → Nat
  | .none => 1
  | .pred _ => 1
  | .conj xs => 1 + sizeAll xs
  | .disj xs => 1 + sizeAll xs
  | .neg x => 1 + size x
/-- Number of nodes in a list. -/
def sizeAll : List (Expr τ) → Nat
  | [] => 0
  | x :: xs => size x + sizeAll xs
end

theorem size_pos (e : Expr τ) : 0 < size e := by
  cases e <;> simp [size] <;> omega

theorem sizeAll_append (xs ys : List (Expr τ)) :
    sizeAll (xs ++ ys) = sizeAll xs + sizeAll ys := by
  induction xs with
  | nil => simp [sizeAll]
  | cons x xs ih => simp [sizeAll, ih]; omega

theorem size_collapse_conj (xs : List (Expr τ)) : size (collapse .conj xs) ≤ 1 + sizeAll xs ∧
    (size (collapse .conj xs) = 1 + sizeAll xs → collapse .conj xs = .conj xs) := by
  match xs with
  | [] => simp [collapse, size]
  | [x] => simp [collapse, sizeAll]
  | x :: y :: xs => simp [collapse, size]

theorem size_collapse_disj (xs : List (Expr τ)) : size (collapse .disj xs) ≤ 1 + sizeAll xs ∧
    (size (collapse .disj xs) = 1 + sizeAll xs → collapse .disj xs = .disj xs) := by
  match xs with
  | [] => simp [collapse, size]
  | [x] => simp [collapse, sizeAll]
  | x :: y :: xs => simp [collapse, size]

mutual
theorem size_hoist : ∀ e : Expr τ, size (hoist e) ≤ size e ∧ (size (hoist e) = size e → hoist e = e)
  | .none => by simp [hoist]
  | .pred p => by simp [hoist]
  | .conj xs => by
    have h1 := size_collapse_conj (hoistConj xs)
    have h2 := size_hoistConj xs
    rw [hoist, size]
    refine ⟨by omega, fun h => ?_⟩
    rw [h1.2 (by omega), h2.2 (by omega)]
  | .disj xs => by
    have h1 := size_collapse_disj (hoistDisj xs)
    have h2 := size_hoistDisj xs
    rw [hoist, size]
    refine ⟨by omega, fun h => ?_⟩
    rw [h1.2 (by omega), h2.2 (by omega)]
  | .neg x => by
    have h := size_hoist x
    rw [hoist, size, size]
    exact ⟨by omega, fun h' => by rw [h.2 (by omega)]⟩

theorem size_hoistConj : ∀ xs : List (Expr τ), sizeAll (hoistConj xs) ≤ sizeAll xs ∧
    (sizeAll (hoistConj xs) = sizeAll xs → hoistConj xs = xs)
  | [] => by simp [hoistConj]
  | .conj ys :: xs => by
    have h1 := size_hoistAll ys
    have h2 := size_hoistConj xs
    simp only [hoistConj, sizeAll, sizeAll_append, size]
    exact ⟨by omega, fun h => by omega⟩
  | .none :: xs => by
    have h2 := size_hoistConj xs
    simp only [hoistConj, sizeAll, hoist]
    exact ⟨by omega, fun h => by rw [h2.2 (by omega)]⟩
  | .pred p :: xs => by
    have h2 := size_hoistConj xs
    simp only [hoistConj, sizeAll, hoist]
    exact ⟨by omega, fun h => by rw [h2.2 (by omega)]⟩
  | .disj ys :: xs => by
    have h1 := size_collapse_disj (hoistDisj ys)
    have h3 := size_hoistDisj ys
    have h2 := size_hoistConj xs
    simp only [hoistConj, sizeAll, size]
    exact ⟨by omega, fun h => by rw [h1.2 (by omega), h2.2 (by omega), h3.2 (by omega)]⟩
  | .neg y :: xs => by
    have h1 := size_hoist y
    have h2 := size_hoistConj xs
    simp only [hoistConj, sizeAll, size]
    exact ⟨by omega, fun h => by rw [h1.2 (by omega), h2.2 (by omega)]⟩

theorem size_hoistDisj : ∀ xs : List (Expr τ), sizeAll (hoistDisj xs) ≤ sizeAll xs ∧
    (sizeAll (hoistDisj xs) = sizeAll xs → hoistDisj xs = xs)
  | [] => by simp [hoistDisj]
  | .disj ys :: xs => by
    have h1 := size_hoistAll ys
    have h2 := size_hoistDisj xs
    simp only [hoistDisj, sizeAll, sizeAll_append, size]
    exact ⟨by omega, fun h => by omega⟩
  | .none :: xs => by
    have h2 := size_hoistDisj xs
    simp only [hoistDisj, sizeAll, hoist]
    exact ⟨by omega, fun h => by rw [h2.2 (by omega)]⟩
  | .pred p :: xs => by
    have h2 := size_hoistDisj xs
    simp only [hoistDisj, sizeAll, hoist]
    exact ⟨by omega, fun h => by rw [h2.2 (by omega)]⟩
  | .conj ys :: xs => by
    have h1 := size_collapse_conj (hoistConj ys)
    have h3 := size_hoistConj ys
    have h2 := size_hoistDisj xs
    simp only [hoistDisj, sizeAll, size]
    exact ⟨by omega, fun h => by rw [h1.2 (by omega), h2.2 (by omega), h3.2 (by omega)]⟩
  | .neg y :: xs => by
    have h1 := size_hoist y
    have h2 := size_hoistDisj xs
    simp only [hoistDisj, sizeAll, size]
    exact ⟨by omega, fun h => by rw [h1.2 (by omega), h2.2 (by omega)]⟩

theorem size_hoistAll : ∀ xs : List (Expr τ), sizeAll (hoistAll xs) ≤ sizeAll xs ∧
    (sizeAll (hoistAll xs) = sizeAll xs → hoistAll xs = xs)
  | [] => by simp [hoistAll]
  | x :: xs => by
    have h1 := size_hoist x
    have h2 := size_hoistAll xs
    simp only [hoistAll, sizeAll]
    exact ⟨by omega, fun h => by rw [h1.2 (by omega), h2.2 (by omega)]⟩
end

mutual
theorem size_prune : ∀ e : Expr τ, size (prune e) ≤ size e ∧ (size (prune e) = size e → prune e = e)
  | .none => by simp [prune]
  | .pred p => by simp [prune]
  | .conj xs => by
    have h := size_pruneRun [] xs
    rw [prune, size, size]
    exact ⟨by omega, fun h' => by rw [h.2 (by omega)]⟩
  | .disj xs => by
    have h := size_pruneRun [] xs
    rw [prune, size, size]
    exact ⟨by omega, fun h' => by rw [h.2 (by omega)]⟩
  | .neg x => by
    have h := size_prune x
    rw [prune, size, size]
    exact ⟨by omega, fun h' => by rw [h.2 (by omega)]⟩
theorem size_pruneRun : ∀ (memo : List Str) (xs : List (Expr τ)),
    sizeAll (pruneRun memo xs) ≤ sizeAll xs ∧
    (sizeAll (pruneRun memo xs) = sizeAll xs → pruneRun memo xs = xs)
  | _, [] => by simp [pruneRun]
  | memo, x :: xs => by
    rw [pruneRun]
    split
    · next s _ =>
      split
      · have h := size_pruneRun memo xs
        have hx := size_pos x
        rw [sizeAll]
        exact ⟨by omega, fun h' => by omega⟩
      · have h := size_pruneRun (s :: memo) xs
        rw [sizeAll, sizeAll]
        exact ⟨by omega, fun h' => by rw [h.2 (by omega)]⟩
    · have h1 := size_prune x
      have h := size_pruneRun memo xs
      rw [sizeAll, sizeAll]
      exact ⟨by omega, fun h' => by rw [h.2 (by omega), h1.2 (by omega)]⟩
end

/-- No literal differs from itself. -/
def SelfEq (p : Pred τ) : Prop := ∀ d, p.lhs = .data d ∨ p.rhs = .data d → d.eq d = true

theorem operand_self_eq [DecidableEq τ] (o : Operand τ) (h : ∀ d, o = .data d → d.eq d = true) :
    o.eq o = true := by
  cases o <;> simp [Operand.eq]
  exact h _ rfl

mutual
theorem expr_self_eq [DecidableEq τ] : ∀ e : Expr τ, (∀ p ∈ e.preds, SelfEq p) → e.eq e = true
  | .none, _ => by simp [Expr.eq]
  | .pred p, h => by
    have := h p (by simp [Expr.preds])
    simp [Expr.eq, Pred.eq, operand_self_eq p.lhs fun d hd => this d (.inl hd),
      operand_self_eq p.rhs fun d hd => this d (.inr hd)]
  | .conj xs, h => by
    rw [Expr.eq]; exact exprs_self_eq xs (by simpa only [Expr.preds] using h)
  | .disj xs, h => by
    rw [Expr.eq]; exact exprs_self_eq xs (by simpa only [Expr.preds] using h)
  | .neg x, h => by
    rw [Expr.eq]; exact expr_self_eq x (by simpa only [Expr.preds] using h)
theorem exprs_self_eq [DecidableEq τ] : ∀ xs : List (Expr τ),
    (∀ p ∈ Expr.predsAll xs, SelfEq p) → Expr.eqList xs xs = true
  | [], _ => by simp [Expr.eqList]
  | x :: xs, h => by
    simp only [Expr.predsAll, List.mem_append] at h
    simp [Expr.eqList, expr_self_eq x fun p hp => h p (.inl hp),
      exprs_self_eq xs fun p hp => h p (.inr hp)]
end

theorem pruneLoop_terminates [DecidableEq τ] : ∀ (n : Nat) (e r : Expr τ),
    (∀ p ∈ r.preds, SelfEq p) → size r < n → (pruneLoop n e r).isSome := by
  intro n
  induction n with
  | zero => intro e r _ h; omega
  | succ n ih =>
    intro e r hp h
    rw [pruneLoop]
    split
    · rfl
    · have h1 := size_prune r
      have h2 := size_hoist (prune r)
      have hp' : ∀ p ∈ (hoist (prune r)).preds, SelfEq p := by
        intro p hp'
        rw [preds_hoist] at hp'
        exact hp p ((preds_prune r).subset hp')
      by_cases he : size (hoist (prune r)) = size r
      · have e1 : prune r = r := h1.2 (by omega)
        have e2 : hoist (prune r) = prune r := h2.2 (by omega)
        have e3 : hoist (prune r) = r := e2.trans e1
        rw [e3]
        have : Expr.eq r r = true := expr_self_eq r hp
        cases n <;> simp [pruneLoop, this]
      · exact ih _ _ hp' (by omega)

end Verif.MetaIndex
