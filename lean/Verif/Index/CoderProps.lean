import Verif.Index.CoderDecode

/-!
# C10: an encoded column answers every relational query exactly
-/

namespace Verif.Index

open Verif.Data (RelOp)
open Spec (Hist)

/-! ## Running a history -/

/-- A single coder with `n` bitmaps after a history. -/
def Kind.run (k : Kind) (n : Nat) : Hist Nat → Option VectorCoder
  | .empty => some (VectorCoder.make n)
  | .encode h x m => (k.run n h).bind fun c => k.encode c x m
  | .skip h m => (k.run n h).map (·.skip m)
  | .append h h' => (k.run n h).bind fun c => (k.run n h').bind fun d => k.append c d

/-- A multi-level coder after a history. -/
def MultiLevelCoder.run (k : Kind) (base : List Nat) : Hist Nat → Option MultiLevelCoder
  | .empty => MultiLevelCoder.make k base
  | .encode h x m => (MultiLevelCoder.run k base h).bind fun c => c.encode x m
  | .skip h m => (MultiLevelCoder.run k base h).map (·.skip m)
  | .append h h' => (MultiLevelCoder.run k base h).bind fun c => (MultiLevelCoder.run k base h').bind fun d => c.append d

/-- A singleton coder after a history. -/
def SingletonCoder.run : Hist Bool → Bm
  | .empty => []
  | .encode h x m => SingletonCoder.encode (SingletonCoder.run h) x m
  | .skip h m => SingletonCoder.skip (SingletonCoder.run h) m
  | .append h h' => SingletonCoder.append (SingletonCoder.run h) (SingletonCoder.run h')

theorem run_rep (k : Kind) (n : Nat) (h : Hist Nat) (ha : h.all (k.accepts n)) :
    ∃ c, k.run n h = some c ∧ KRep k n c h.column := by
  induction h with
  | empty => exact ⟨_, rfl, kRep_make k n⟩
  | encode h x m ih =>
    obtain ⟨c, e, r⟩ := ih ha.1
    obtain ⟨c', e', r'⟩ := kRep_encode r ha.2 m
    exact ⟨c', by simp [Kind.run, e, e'], r'⟩
  | skip h m ih =>
    obtain ⟨c, e, r⟩ := ih ha
    exact ⟨c.skip m, by simp [Kind.run, e], kRep_skip r m⟩
  | append h h' ih ih' =>
    obtain ⟨c, e, r⟩ := ih ha.1
    obtain ⟨c', e', r'⟩ := ih' ha.2
    obtain ⟨d, ed, rd⟩ := kRep_append r r'
    exact ⟨d, by simp [Kind.run, e, e', ed], rd⟩

theorem run_mrep (k : Kind) (base : List Nat) (hw : wellDefined base = true) (h : Hist Nat) :
    ∃ cs, MultiLevelCoder.run k base h = some ⟨k, base, cs⟩ ∧ MRep k base cs h.column := by
  have hw' := ((wellDefined_iff base).1 hw).2
  induction h with
  | empty => exact ⟨_, by simp only [MultiLevelCoder.run, MultiLevelCoder.make, hw, if_true], mRep_make k base⟩
  | encode h x m ih =>
    obtain ⟨c, e, r⟩ := ih
    obtain ⟨c', e', r'⟩ := mRep_encode m hw' x r
    exact ⟨c', by simp [MultiLevelCoder.run, e, MultiLevelCoder.encode, e'], r'⟩
  | skip h m ih =>
    obtain ⟨c, e, r⟩ := ih
    exact ⟨_, by simp [MultiLevelCoder.run, e, MultiLevelCoder.skip], mRep_skip m r⟩
  | append h h' ih ih' =>
    obtain ⟨c, e, r⟩ := ih
    obtain ⟨c', e', r'⟩ := ih'
    obtain ⟨d, ed, rd⟩ := mRep_append r r'
    exact ⟨d, by simp [MultiLevelCoder.run, e, e', MultiLevelCoder.append, ed], rd⟩

theorem all_column {p : Nat → Prop} (h : Hist Nat) (ha : h.all p) (i v : Nat) (hi : h.column[i]? = some (some v)) :
    p v := by
  induction h generalizing i with
  | empty => simp [Hist.column] at hi
  | encode h x m ih =>
    rw [Hist.column, List.getElem?_append] at hi
    split at hi
    · exact ih ha.1 i hi
    · rw [List.getElem?_replicate] at hi
      split at hi <;> simp at hi
      subst hi
      exact ha.2
  | skip h m ih =>
    rw [Hist.column, List.getElem?_append] at hi
    split at hi
    · exact ih ha i hi
    · rw [List.getElem?_replicate] at hi
      split at hi <;> simp at hi
  | append h h' ih ih' =>
    rw [Hist.column, List.getElem?_append] at hi
    split at hi
    · exact ih ha.1 i hi
    · exact ih' ha.2 _ hi

theorem bm_getElem? {bm : Bm} {n i : Nat} {α : Type} {col : List α} {v : α} (hl : bm.length = n)
    (hn : n = col.length) (hi : col[i]? = some v) : bm[i]? = some (bm.bit i) :=
  Bm.getElem?_of_bit (by rw [hl, hn]; exact lt_of_getElem? hi)

/-! ## Theorems -/

/-- C10, equality coder. For every history of encoding, skipping and appending values below the
number of bitmaps, every comparison operator and every operand below the number of bitmaps, the
decoded bitmap has one bit per row, and the bit of each encoded row says whether its value stands
in the relation. Not included: skipped rows never match, which is false
(`C10_skipped_refuted`). -/
theorem C10_equality_partial (n : Nat) (h : Hist Nat) (hv : h.all (· < n)) (op : RelOp)
    (hop : (Spec.compare op 0 0).isSome) (x : Nat) (hx : x < n) :
    ∃ c bm, Kind.run .equality n h = some c ∧ EqualityCoder.decode c op x = some bm ∧
      bm.length = h.column.length ∧
      ∀ i v : Nat, h.column[i]? = some (some v) → bm[i]? = Spec.compare op v x := by
  obtain ⟨c, e, r⟩ := run_rep .equality n h hv
  obtain ⟨bm, h1, h2, h3, _⟩ := equality_decode r op x hx (by simpa [Option.isSome_iff_ne_none] using hop)
  refine ⟨c, bm, e, h1, h2, ?_⟩
  intro i v hi
  rw [bm_getElem? h2 rfl hi]
  exact h3 i v hi (all_column h hv i v hi)

/-- C10, range coder with `n` bitmaps, which accepts the values up to and including `n`. Operands
below `n`, and `n` itself for `<` and `>=`. -/
theorem C10_range_partial (n : Nat) (h : Hist Nat) (hv : h.all (· ≤ n)) (op : RelOp)
    (hop : (Spec.compare op 0 0).isSome) (x : Nat)
    (hx : x < n ∨ (x = n ∧ (op = .less ∨ op = .greaterEqual))) :
    ∃ c bm, Kind.run .range n h = some c ∧ RangeCoder.decode c op x = some bm ∧
      bm.length = h.column.length ∧
      ∀ i v : Nat, h.column[i]? = some (some v) → bm[i]? = Spec.compare op v x := by
  obtain ⟨c, e, r⟩ := run_rep .range n h hv
  obtain ⟨bm, h1, h2, h3⟩ := range_decode r op x hx (by simpa [Option.isSome_iff_ne_none] using hop)
  refine ⟨c, bm, e, h1, h2, ?_⟩
  intro i v hi
  rw [bm_getElem? h2 rfl hi]
  exact h3 i (some v) hi

/-- C10, bitslice coder with `n > 0` bitmaps, for values and operands of `n` bits. The decoded
bitmap may be shorter than the column if the last rows were skipped; positions past its end read as
false. -/
theorem C10_bitslice_partial (n : Nat) (hn : 0 < n) (h : Hist Nat) (hv : h.all (· < 2 ^ n)) (op : RelOp)
    (hop : (Spec.compare op 0 0).isSome) (x : Nat) (hx : x < 2 ^ n) :
    ∃ c bm, Kind.run .bitslice n h = some c ∧ BitsliceCoder.decode c op x = some bm ∧
      bm.length ≤ h.column.length ∧
      ∀ i v : Nat, h.column[i]? = some (some v) → some (bm.getD i false) = Spec.compare op v x := by
  have ha : ∀ h : Hist Nat, h.all (Kind.bitslice.accepts n) := by
    intro h
    induction h with
    | empty => trivial
    | encode h x m ih => exact ⟨ih, trivial⟩
    | skip h m ih => exact ih
    | append h h' ih ih' => exact ⟨ih, ih'⟩
  obtain ⟨c, e, r⟩ := run_rep .bitslice n h (ha h)
  obtain ⟨bm, h1, h2, h3⟩ := bitslice_decode r op x hn hx (by simpa [Option.isSome_iff_ne_none] using hop)
  exact ⟨c, bm, e, h1, h2, fun i v hi => h3 i v hi (all_column h hv i v hi)⟩

/-- C10, singleton coder (booleans). -/
theorem C10_singleton_partial (h : Hist Bool) (x : Bool) :
    (∃ bm, SingletonCoder.decode (SingletonCoder.run h) .equal x = some bm ∧ bm.length = h.column.length ∧
      ∀ (i : Nat) v, h.column[i]? = some (some v) → bm[i]? = some (v == x)) ∧
    (∃ bm, SingletonCoder.decode (SingletonCoder.run h) .notEqual x = some bm ∧ bm.length = h.column.length ∧
      ∀ (i : Nat) v, h.column[i]? = some (some v) → bm[i]? = some (v != x)) := by
  have hr : SingletonCoder.run h = h.column.map (·.getD false) := by
    induction h with
    | empty => rfl
    | encode h x m ih => simp [SingletonCoder.run, SingletonCoder.encode, Bm.appendBits, ih, Hist.column]
    | skip h m ih => simp [SingletonCoder.run, SingletonCoder.skip, Bm.appendBits, ih, Hist.column]
    | append h h' ih ih' => simp [SingletonCoder.run, SingletonCoder.append, ih, ih', Hist.column]
  rw [hr]
  cases x
  · refine ⟨⟨_, rfl, by simp, ?_⟩, ⟨_, rfl, by simp, ?_⟩⟩ <;> intro i v hi <;> cases v <;> simp [Bm.not, hi]
  · refine ⟨⟨_, rfl, by simp, ?_⟩, ⟨_, rfl, by simp, ?_⟩⟩ <;> intro i v hi <;> cases v <;> simp [Bm.not, hi]

/-- C10, multi-level range coder (the default of the numeric indexes), Range-Eval-Opt: every
well-defined base, every history of values below the product of the base, every comparison
operator and every operand below the product. -/
theorem C10_multilevel_range_partial (base : List Nat) (hw : wellDefined base = true) (h : Hist Nat)
    (hv : h.all (· < Spec.product base)) (op : RelOp) (hop : (Spec.compare op 0 0).isSome) (x : Nat)
    (hx : x < Spec.product base) :
    ∃ c bm, MultiLevelCoder.run .range base h = some c ∧ c.decode op x = some bm ∧
      bm.length = h.column.length ∧
      ∀ i v : Nat, h.column[i]? = some (some v) → bm[i]? = Spec.compare op v x := by
  obtain ⟨hne, hw'⟩ := (wellDefined_iff base).1 hw
  obtain ⟨cs, e, r⟩ := run_mrep .range base hw h
  obtain ⟨bm, h1, h2, h3⟩ := mRange_decode hne hw' r op x hx (by simpa [Option.isSome_iff_ne_none] using hop)
  refine ⟨_, bm, e, h1, h2, ?_⟩
  intro i v hi
  rw [bm_getElem? h2 rfl hi]
  exact h3 i (some v) hi (all_column h hv i v hi)

/-- C10, multi-level equality and bitslice coders, which answer `==` and `!=` only. -/
theorem C10_multilevel_equality_partial (k : Kind) (hk : k ≠ .range) (base : List Nat)
    (hw : wellDefined base = true) (h : Hist Nat) (hv : h.all (· < Spec.product base)) (op : RelOp)
    (hop : op = .equal ∨ op = .notEqual) (x : Nat) (hx : x < Spec.product base) :
    ∃ c bm, MultiLevelCoder.run k base h = some c ∧ c.decode op x = some bm ∧
      bm.length = h.column.length ∧
      ∀ i v : Nat, h.column[i]? = some (some v) → bm[i]? = Spec.compare op v x := by
  obtain ⟨hne, hw'⟩ := (wellDefined_iff base).1 hw
  obtain ⟨cs, e, r⟩ := run_mrep k base hw h
  obtain ⟨bm, h1, h2, h3⟩ := mEqual_decode hk hne hw' r op x hx hop
  refine ⟨_, bm, e, h1, h2, ?_⟩
  intro i v hi
  rw [bm_getElem? h2 rfl hi]
  exact h3 i v hi (all_column h hv i v hi)

/-- What a multi-level range coder really does with skipped rows: they count as zero, for every
history and query. -/
theorem C10_range_rows (base : List Nat) (hw : wellDefined base = true) (h : Hist Nat)
    (hv : h.all (· < Spec.product base)) (op : RelOp) (hop : (Spec.compare op 0 0).isSome) (x : Nat)
    (hx : x < Spec.product base) :
    ∃ c bm, MultiLevelCoder.run .range base h = some c ∧ c.decode op x = some bm ∧
      bm.map some = h.column.map fun row => Spec.compare op (row.getD 0) x := by
  obtain ⟨hne, hw'⟩ := (wellDefined_iff base).1 hw
  obtain ⟨cs, e, r⟩ := run_mrep .range base hw h
  obtain ⟨bm, h1, h2, h3⟩ := mRange_decode hne hw' r op x hx (by simpa [Option.isSome_iff_ne_none] using hop)
  refine ⟨_, bm, e, h1, ?_⟩
  apply List.ext_getElem?
  intro i
  by_cases hi : i < h.column.length
  · have hc := List.getElem?_eq_getElem hi
    rw [List.getElem?_map, List.getElem?_map, bm_getElem? h2 rfl hc, hc]
    simp only [Option.map_some, Option.some.injEq]
    apply h3 i _ hc
    cases ho : h.column[i] with
    | none => exact product_pos fun b hb => by have := hw' b hb; omega
    | some v => exact all_column h hv i v (by rw [hc, ho])
  · rw [List.getElem?_eq_none (by simp [h2]; omega), List.getElem?_eq_none (by simp; omega)]

/-- A history that exercises the theorems: values, a skipped row in the middle and an appended
column with a skipped row at the end. -/
def demoHist : Hist Nat :=
  .append (.encode (.skip (.encode .empty 5 2) 1) 123 1) (.skip (.encode .empty 7 1) 1)

example : demoHist.column = [some 5, some 5, none, some 123, some 7, none] := by decide

example : wellDefined [10, 5, 3] = true ∧ demoHist.all (· < Spec.product [10, 5, 3]) ∧
    (Spec.compare .greater 0 0).isSome ∧
    ((MultiLevelCoder.run .range [10, 5, 3] demoHist).bind fun c => c.decode .greater 6)
      = some [false, false, false, true, true, false] := by
  refine ⟨by decide, by simp [demoHist, Hist.all, Spec.product], by decide, by decide⟩

example : ((Kind.run .equality 124 demoHist).bind fun c => EqualityCoder.decode c .lessEqual 7)
    = some [true, true, false, false, true, false] := by decide +kernel

example : ((Kind.run .bitslice 7 demoHist).bind fun c => BitsliceCoder.decode c .less 100)
    = some [true, true, false, false, true, false] := by decide

/-- C10, refuted: skipped rows match. For each of the coders there is a history with a skipped row
and a query whose result contains that row. -/
theorem C10_skipped_refuted :
    (let h : Hist Nat := .encode (.skip (.encode .empty 1 1) 1) 2 1
     h.column = [some 1, none, some 2]
     ∧ ((Kind.run .equality 4 h).bind fun c => EqualityCoder.decode c .notEqual 2) = some [true, true, false]
     ∧ ((Kind.run .range 4 h).bind fun c => RangeCoder.decode c .less 2) = some [true, true, false]
     ∧ ((Kind.run .bitslice 2 h).bind fun c => BitsliceCoder.decode c .equal 3) = some [false, true, false]
     ∧ ((MultiLevelCoder.run .range [4] h).bind fun c => c.decode .equal 0) = some [false, true, false])
    ∧ (let h : Hist Bool := .skip (.encode .empty true 1) 1
       SingletonCoder.decode (SingletonCoder.run h) .equal false = some [false, true]) := by
  decide

/-- C10, refuted: a range coder with `n` bitmaps accepts the value `n`, but looking it up accesses a
bitmap past the end. -/
theorem C10_range_operand_refuted :
    ((Kind.run .range 3 (.encode .empty 3 1)).map fun c => RangeCoder.decode c .equal 3) = some none
    ∧ ((Kind.run .range 3 (.encode .empty 3 1)).map fun c => RangeCoder.decode c .lessEqual 3) = some none := by
  decide

/-- C10, refuted beyond the product of the base: values alias. -/
theorem C10_base_overflow_refuted :
    ((MultiLevelCoder.run .range [10] (.encode .empty 12 1)).bind fun c => c.decode .equal 2) = some [true] := by
  decide

end Verif.Index
