import Verif.Index.ArithmeticProps

/-!
# C17: null and missing rows

The theorems hold for every concrete index that keeps its column (`Appends`) and whose bitmaps are
not longer than the column; `C11` and `C13`-`C16` show that for the indexes of the code base. The
theorems for a particular index state its answers for all rows, so that these are the general case.
-/

namespace Verif.Index

open Verif.Data (RelOp)
open Spec (Row)

variable {σ α ρ : Type} {I : Impl σ α ρ} {inv : σ → List (Option α) → Prop} {valid : α → Prop} {s : σ}

/-- The bitmaps of a concrete index are not longer than its column or the number of rows. -/
def Bounded (I : Impl σ α ρ) (inv : σ → List (Option α) → Prop) : Prop :=
  ∀ offset mask s col op x r, inv s col → I.lookup offset mask s op x = .ok r → r.length ≤ max offset col.length

/-- C17, comparing with null: `== null` yields exactly the null rows, whatever the index. -/
theorem C17_nil (hI : Appends I inv valid) (hs : inv s []) (h : List (Nat × Option α)) (hv : ValidHist valid h) :
    ∃ v, (ValueIndex.make s).run I h = some v ∧
      v.lookup I .equal .nil = .ok (Spec.answer (Spec.rows h) (fun _ => false) true) := by
  obtain ⟨v, e1, e2⟩ := vRep_run hI h (vRep_make hs) hv
  refine ⟨v, e1, ?_⟩
  obtain ⟨⟨r, h1, h2, h3⟩, _⟩ := nil_spec e2
  rw [ValueIndex.lookup, h1, Res.ok.injEq]
  exact answer_eq h2 fun i r hi => by rw [h3 i r hi]; cases r <;> rfl

/-- C17, `!= null`: no null row and all rows with a value. Missing: no row without data, which is
false (`C17_gap_refuted`). -/
theorem C17_not_nil_partial (hI : Appends I inv valid) (hs : inv s []) (h : List (Nat × Option α)) (hv : ValidHist valid h) :
    ∃ v r, (ValueIndex.make s).run I h = some v ∧
      v.lookup I .notEqual .nil = .ok r ∧ r.length = (Spec.rows h).length ∧
      (∀ i : Nat, (Spec.rows h)[i]? = some .null → r[i]? = some false) ∧
      (∀ (i : Nat) x, (Spec.rows h)[i]? = some (.value x) → r[i]? = some true) := by
  obtain ⟨v, e1, e2⟩ := vRep_run hI h (vRep_make hs) hv
  obtain ⟨_, r, h1, h2, h3⟩ := nil_spec e2
  refine ⟨v, r, e1, h1, h2, ?_, ?_⟩
  · intro i hi
    rw [bm_getElem? h2 rfl hi, h3 i _ hi]
  · intro i x hi
    rw [bm_getElem? h2 rfl hi, h3 i _ hi]

/-- C17, comparing with a value. The result has one bit per row. A row without data is never in it,
and a null row exactly if the operator is `!=`. -/
theorem C17_value (hI : Appends I inv valid) (hB : Bounded I inv) (hs : inv s []) (h : List (Nat × Option α))
    (hv : ValidHist valid h) (op : RelOp) (x : ρ) :
    ∃ v, (ValueIndex.make s).run I h = some v ∧ ∀ r, v.lookup I op (.val x) = .ok r →
      r.length = (Spec.rows h).length ∧
      (∀ i : Nat, (Spec.rows h)[i]? = some .absent → r[i]? = some false) ∧
      (∀ i : Nat, (Spec.rows h)[i]? = some .null → r[i]? = some (op == .notEqual)) := by
  obtain ⟨v, e1, e2⟩ := vRep_run hI h (vRep_make hs) hv
  refine ⟨v, e1, ?_⟩
  intro r hr
  rw [ValueIndex.lookup, ValueIndex.lookupVal] at hr
  split at hr <;> simp only [Res.ok.injEq, reduceCtorEq] at hr
  next b hb =>
  have hl := hB _ _ _ _ _ _ _ e2.impl hb
  have h1 := e2.offset
  have h2 := e2.col_length
  obtain ⟨f1, f2⟩ := finish_spec e2 op b (by omega)
  subst hr
  refine ⟨f1, ?_, ?_⟩
  · intro i hi
    rw [bm_getElem? f1 rfl hi, f2 i _ hi]
  · intro i hi
    rw [bm_getElem? f1 rfl hi, f2 i _ hi]
    cases op <;> rfl

/-- C17, comparing with a list: neither `in` nor `not_in` returns a row without data or a null
row. -/
theorem C17_list (hI : Appends I inv valid) (hB : Bounded I inv) (hs : inv s []) (h : List (Nat × Option α))
    (hv : ValidHist valid h) (op : RelOp) (xs : List (Option ρ)) :
    ∃ v, (ValueIndex.make s).run I h = some v ∧ ∀ r, v.lookup I op (.list xs) = .ok r →
      r.length = (Spec.rows h).length ∧
      (∀ i : Nat, (Spec.rows h)[i]? = some .absent ∨ (Spec.rows h)[i]? = some .null → r[i]? = some false) := by
  obtain ⟨v, e1, e2⟩ := vRep_run hI h (vRep_make hs) hv
  refine ⟨v, e1, ?_⟩
  have hoff := e2.offset
  have hcl := e2.col_length
  have helem : ∀ x r, v.lookupElement I x = .ok r → r.length = v.offset := by
    intro x r hr
    cases x with
    | none =>
      obtain ⟨⟨r', h1, h2, _⟩, _⟩ := nil_spec e2
      simp only [ValueIndex.lookupElement, h1, Res.ok.injEq] at hr
      subst hr
      rw [h2, hoff]
    | some x =>
      simp only [ValueIndex.lookupElement, ValueIndex.lookupVal] at hr
      split at hr <;> simp only [Res.ok.injEq, reduceCtorEq] at hr
      next b hb =>
      have hl := hB _ _ _ _ _ _ _ e2.impl hb
      obtain ⟨f1, _⟩ := finish_spec e2 .equal b (by omega)
      subst hr
      omega
  have hin : ∀ (xs : List (Option ρ)) (b r : Bm), b.length = v.offset → v.inLoop I xs b = .ok r → r.length = v.offset := by
    intro xs
    induction xs with
    | nil => intro b r hb hr; simp only [ValueIndex.inLoop, Res.ok.injEq] at hr; subst hr; exact hb
    | cons x xs ih =>
      intro b r hb hr
      rw [ValueIndex.inLoop] at hr
      cases hc : v.lookupElement I x with
      | error => rw [hc] at hr; simp at hr
      | undefined => rw [hc] at hr; simp at hr
      | ok c =>
      rw [hc] at hr
      simp only at hr
      have hl : (b.or c).length = v.offset := by rw [Bm.or_length, hb, helem x c hc]; omega
      split at hr
      · simp only [Res.ok.injEq] at hr; subst hr; exact hl
      · exact ih _ _ hl hr
  have hnot : ∀ (xs : List (Option ρ)) (b r : Bm), b.length = v.offset → v.notInLoop I xs b = .ok r → r.length = v.offset := by
    intro xs
    induction xs with
    | nil => intro b r hb hr; simp only [ValueIndex.notInLoop, Res.ok.injEq] at hr; subst hr; exact hb
    | cons x xs ih =>
      intro b r hb hr
      rw [ValueIndex.notInLoop] at hr
      cases hc : v.lookupElement I x with
      | error => rw [hc] at hr; simp at hr
      | undefined => rw [hc] at hr; simp at hr
      | ok c =>
      rw [hc] at hr
      simp only at hr
      have hl : (b.diff c).length = v.offset := by rw [Bm.diff_length, hb, helem x c hc]; omega
      split at hr
      · simp only [Res.ok.injEq] at hr; subst hr; exact hl
      · exact ih _ _ hl hr
  intro r hr
  simp only [ValueIndex.lookup] at hr
  split at hr <;> simp only [Res.ok.injEq, reduceCtorEq] at hr
  next b hb =>
  have hop : op = .in_ ∨ op = .notIn := by
    unfold ValueIndex.containerLookup at hb
    split at hb <;> simp_all
  have hl : b.length = v.offset := by
    unfold ValueIndex.containerLookup at hb
    split at hb
    · exact hin _ _ _ (by simp) hb
    · exact hnot _ _ _ (by simp) hb
    · simp at hb
  obtain ⟨f1, f2⟩ := finish_spec e2 op b (by omega)
  subst hr
  refine ⟨f1, ?_⟩
  rintro i (hi | hi)
  · rw [bm_getElem? f1 rfl hi, f2 i _ hi]
  · rw [bm_getElem? f1 rfl hi, f2 i _ hi]
    rcases hop with rfl | rfl <;> rfl

theorem decompose_mod (base : List Nat) (x : Nat) : decompose base (x % Spec.product base) = decompose base x := by
  induction base generalizing x with
  | nil => rfl
  | cons b bs ih =>
    simp only [decompose]
    have h1 : x % Spec.product (b :: bs) % b = x % b := Nat.mod_mul_right_mod x b _
    have h2 : x % Spec.product (b :: bs) / b = (x / b) % Spec.product bs := Nat.mod_mul_right_div_self x b _
    rw [h1, h2, ih]

theorem mRange_bounded {base : List Nat} (hne : base ≠ []) (hw : ∀ b ∈ base, 2 ≤ b) {cs : List VectorCoder}
    {col : List (Option Nat)} (h : MRep .range base cs col) {op : RelOp} {x : Nat} {r : Bm}
    (hd : MultiLevelCoder.decode ⟨.range, base, cs⟩ op x = some r) : r.length = col.length := by
  obtain ⟨hsz, hcs⟩ := mRep_size hne h
  have hP : 0 < Spec.product base := product_pos fun b hb => by have := hw b hb; omega
  have le : ∀ y r, MultiLevelCoder.rangeLessEqual col.length base cs (decompose base y) = some r → r.length = col.length := by
    intro y r hr
    obtain ⟨r', h1, h2, _⟩ := mRange_lessEqual hne hw h (y % Spec.product base) (Nat.mod_lt _ hP)
    rw [decompose_mod, hr] at h1
    rw [Option.some.inj h1]; exact h2
  have eq : ∀ r, MultiLevelCoder.rangeEqualLoop base cs (decompose base x) (Bm.fill col.length true) = some r →
      r.length = col.length := by
    intro r hr
    obtain ⟨r', h1, h2, _⟩ := mRange_equal hw (x % Spec.product base) (Bm.fill col.length true) h (by simp) (Nat.mod_lt _ hP)
    rw [decompose_mod, hr] at h1
    rw [Option.some.inj h1]; exact h2
  unfold MultiLevelCoder.decode at hd
  rw [if_neg (by simpa using hcs)] at hd
  simp only at hd
  unfold MultiLevelCoder.decodeRange at hd
  rw [hsz] at hd
  split at hd
  · split at hd
    · obtain rfl := Option.some.inj hd; simp
    · exact le _ _ hd
  · split at hd
    · obtain rfl := Option.some.inj hd; simp
    · obtain ⟨r', h1, rfl⟩ := Option.map_eq_some_iff.1 hd
      rw [Bm.not_length]; exact le _ _ h1
  · exact le _ _ hd
  · obtain ⟨r', h1, rfl⟩ := Option.map_eq_some_iff.1 hd
    rw [Bm.not_length]; exact le _ _ h1
  · exact eq _ hd
  · obtain ⟨r', h1, rfl⟩ := Option.map_eq_some_iff.1 hd
    rw [Bm.not_length]; exact eq _ h1
  · simp at hd
  · simp at hd
  · obtain rfl := Option.some.inj hd; simp

/-- C17, the hypotheses hold for the numeric indexes, over every well-defined base. -/
theorem numBounded {T : Type} (N : Numeric T) {base : List Nat} (hw : wellDefined base = true) :
    Bounded (Arithmetic.impl N) (NumInv N base) := by
  rintro offset mask ⟨k, b, cs⟩ col op x r ⟨hk, hb, hr⟩ h
  simp only at hk hb hr
  subst hk hb
  obtain ⟨hne, hw'⟩ := (wellDefined_iff _).1 hw
  obtain ⟨hsz, hcs⟩ := mRep_size hne hr
  simp only [Arithmetic.impl, Arithmetic.lookup] at h
  split at h <;> try (simp at h; done)
  generalize N.key _ = y at h
  cases hd : MultiLevelCoder.decode ⟨.range, b, cs⟩ op y with
  | none => simp [hd, Res.ofOption] at h
  | some r' =>
    simp only [hd, Res.ofOption, Res.ok.injEq] at h
    subst h
    have := mRange_bounded hne hw' hr hd
    simp at this
    omega

/-- The hypotheses of the theorems are met by an index over integers, and its histories are not
restricted. -/
example : Appends (Arithmetic.impl Numeric.integer) (NumInv Numeric.integer (uniform 8 22)) (fun v => Numeric.integer.defined v = true)
    ∧ Bounded (Arithmetic.impl Numeric.integer) (NumInv Numeric.integer (uniform 8 22))
    ∧ (∃ c, MultiLevelCoder.make .range (uniform 8 22) = some c ∧ NumInv Numeric.integer (uniform 8 22) c [])
    ∧ ValidHist (fun v => Numeric.integer.defined v = true) demoInts :=
  ⟨numAppends _ (by decide), numBounded _ (by decide), numInv_make _ (by decide), fun _ _ _ => rfl⟩

example : ((Arithmetic.index (uniform 8 22) demoInts Numeric.integer).map fun v =>
      v.lookup (Arithmetic.impl Numeric.integer) .equal .nil)
    = some (.ok [false, true, false, false, false, false, true]) := by decide +kernel

/-- C17, refuted: `!= null` returns rows that were never appended. -/
theorem C17_gap_refuted :
    Spec.rows [(2, some (7 : Int))] = [.absent, .absent, .value 7]
    ∧ ((Arithmetic.index (uniform 8 22) [(2, some 7)] Numeric.integer).map fun v =>
      v.lookup (Arithmetic.impl Numeric.integer) .notEqual .nil) = some (.ok [true, true, true]) := by
  decide +kernel

/-- C17, the index and the evaluation of data disagree about null: `null < 5`, `null not in [5]` and
`null in [null]` evaluate to true, but the index does not return the null row, which is lost. -/
theorem C17_evaluate_refuted (R : Verif.Data.Regex) :
    (Verif.Data.evaluateView R .none .less (.int 5) = true
      ∧ ((Arithmetic.index (uniform 8 22) [(0, none)] Numeric.integer).map fun v =>
        v.lookup (Arithmetic.impl Numeric.integer) .less (.val 5)) = some (.ok [false]))
    ∧ (Verif.Data.evaluateView R .none .notIn (.list [.int 5]) = true
      ∧ ((Arithmetic.index (uniform 8 22) [(0, none)] Numeric.integer).map fun v =>
        v.lookup (Arithmetic.impl Numeric.integer) .notIn (.list [some 5])) = some (.ok [false]))
    ∧ (Verif.Data.evaluateView R .none .in_ (.list [.none]) = true
      ∧ ((Arithmetic.index (uniform 8 22) [(0, none)] Numeric.integer).map fun v =>
        v.lookup (Arithmetic.impl Numeric.integer) .in_ (.list [none])) = some (.ok [false])) := by
  refine ⟨⟨?_, ?_⟩, ⟨?_, ?_⟩, ⟨?_, ?_⟩⟩
  · rfl
  · decide +kernel
  · rfl
  · decide +kernel
  · rfl
  · decide +kernel

end Verif.Index
