import Verif.Index.ArithmeticLemmas

/-!
# C11: a numeric index never loses a matching row
-/

set_option exponentiation.threshold 2000

namespace Verif.Index

open Verif.Data (RelOp)
open Spec (Row)

namespace Spec

/-- The operand is a list that contains the value. -/
def elem {α : Type} [BEq α] (xs : List (Option α)) (v : α) : Bool := xs.contains (some v)

end Spec

/-! ## Keys -/

theorem compare_int {op : RelOp} (hop : Spec.compare op 0 0 ≠ none) {v x : Int} {a b : Nat}
    (hlt : a < b ↔ v < x) (heq : a = b ↔ v = x) : Spec.compare op a b = Spec.compareInt op v x := by
  cases op <;> try (exact absurd rfl hop)
  all_goals simp only [Spec.compare, Spec.compareInt, Option.some.injEq]
  case equal => rw [Bool.eq_iff_iff]; simp only [beq_iff_eq]; exact heq
  case notEqual => rw [Bool.eq_iff_iff]; simp only [bne_iff_ne]; exact not_congr heq
  all_goals rw [decide_eq_decide]; omega

theorem compareInt_isSome {op : RelOp} (h : (Spec.compareInt op 0 0).isSome) : Spec.compare op 0 0 ≠ none := by
  cases op <;> simp_all [Spec.compare, Spec.compareInt]

/-! ## Exact indexes -/

/-- The answers of an index to lists, if `m x y` says which rows `== x` returns. -/
theorem in_general {σ α ρ : Type} {I : Impl σ α ρ} {inv : σ → List (Option α) → Prop} {v : ValueIndex σ}
    {rs : List (Row α)} (h : VRep inv v rs) (m : ρ → α → Bool) (xs : List (Option ρ))
    (he : ∀ x, some x ∈ xs → v.lookupVal I .equal x = .ok (Spec.answer rs (m x) false)) :
    v.lookup I .in_ (.list xs) = .ok (Spec.answer rs (fun y => xs.any fun x => x.any (m · y)) false) ∧
    v.lookup I .notIn (.list xs) = .ok (Spec.answer rs (fun y => !xs.any fun x => x.any (m · y)) false) := by
  have hf : ∀ x ∈ xs, ∃ r, v.lookupElement I x = .ok r ∧ r.length = rs.length ∧
      ∀ (i : Nat) y, rs[i]? = some y → r.bit i = (match x, y with
        | none, .null => true
        | some x, .value y => m x y
        | _, _ => false) := by
    intro x hx
    cases x with
    | none =>
      obtain ⟨⟨r, h1, h2, h3⟩, _⟩ := nil_spec h
      refine ⟨r, h1, h2, ?_⟩
      intro i y hi
      rw [h3 i y hi]
      cases y <;> rfl
    | some x =>
      refine ⟨_, he x hx, by simp [Spec.answer], ?_⟩
      intro i y hi
      have : (Spec.answer rs (m x) false)[i]? = some (match y with
        | .value y => m x y | _ => false) := by
        simp only [Spec.answer, List.getElem?_map, hi, Option.map_some]
        cases y <;> rfl
      rw [Bm.bit_of_getElem? this]
      cases y <;> rfl
  have hany : ∀ y : α, xs.any (fun x => match x, Row.value y with
      | none, .null => true
      | some x, .value y => m x y
      | _, _ => false) = xs.any fun x => x.any (m · y) := by
    intro y
    congr 1
    funext x
    cases x <;> rfl
  have hoff : v.offset = rs.length := h.offset
  constructor
  · obtain ⟨r, h1, h2, h3⟩ := inLoop_spec h _ xs hf (Bm.fill v.offset false) (by simp [hoff])
    simp only [ValueIndex.lookup, ValueIndex.containerLookup, h1, Res.ok.injEq]
    obtain ⟨f1, f2⟩ := finish_spec h .in_ r (by omega)
    apply answer_eq f1
    intro i y hi
    rw [f2 i y hi]
    cases y with
    | absent => rfl
    | null => rfl
    | value y =>
      simp only
      rw [h3 i _ hi, Bm.bit_fill, hany]
      simp
  · obtain ⟨r, h1, h2, h3⟩ := notInLoop_spec h _ xs hf (Bm.fill v.offset true) (by simp [hoff])
    simp only [ValueIndex.lookup, ValueIndex.containerLookup, h1, Res.ok.injEq]
    obtain ⟨f1, f2⟩ := finish_spec h .notIn r (by omega)
    apply answer_eq f1
    intro i y hi
    rw [f2 i y hi]
    cases y with
    | absent => rfl
    | null => rfl
    | value y =>
      simp only
      rw [h3 i _ hi, Bm.bit_fill, hany, hoff]
      have := lt_of_getElem? hi
      simp [this]

/-- The answers of an exact index to lists of values. -/
theorem in_exact {σ α : Type} [BEq α] [LawfulBEq α] {I : Impl σ α α} {inv : σ → List (Option α) → Prop} {v : ValueIndex σ}
    {rs : List (Row α)} (h : VRep inv v rs) (xs : List (Option α))
    (he : ∀ x, some x ∈ xs → v.lookupVal I .equal x = .ok (Spec.answer rs (fun y => y == x) false)) :
    v.lookup I .in_ (.list xs) = .ok (Spec.answer rs (Spec.elem xs) false) ∧
    v.lookup I .notIn (.list xs) = .ok (Spec.answer rs (fun y => !Spec.elem xs y) false) := by
  have hany : ∀ y : α, (xs.any fun x => x.any fun x => y == x) = Spec.elem xs y := by
    intro y
    rw [Bool.eq_iff_iff, List.any_eq_true, Spec.elem, List.contains_iff_mem]
    constructor
    · rintro ⟨x, hx, he⟩
      cases x with
      | none => simp at he
      | some x => rw [Option.any_some] at he; rw [eq_of_beq he]; exact hx
    · intro hx
      exact ⟨some y, hx, by simp⟩
  have := in_general h (fun x y => y == x) xs he
  simp only [hany] at this
  exact this

/-- An index without binning whose keys compare like the values. -/
theorem identity_exact {T : Type} [BEq T] [LawfulBEq T] (N : Numeric T) (value : T → Int) (ok : T → Prop)
    (hid : N.identity = true) (hdef : ∀ v, N.defined v = true)
    (hk : ∀ v, ok v → N.key (N.bin v) < 2 ^ 64)
    (hlt : ∀ v w, ok v → ok w → (N.key (N.bin v) < N.key (N.bin w) ↔ value v < value w))
    (heq : ∀ v w, ok v → ok w → (N.key (N.bin v) = N.key (N.bin w) ↔ value v = value w))
    (hinj : ∀ v w, value v = value w ↔ v = w)
    {base : List Nat} (hw : wellDefined base = true) (hb : 2 ^ 64 ≤ Spec.product base)
    (h : List (Nat × Option T)) (hv : ∀ pos v, (pos, some v) ∈ h → ok v) :
    ∃ v, Arithmetic.index base h N = some v ∧
      (∀ op x, (Spec.compareInt op 0 0).isSome → ok x →
        v.lookup (Arithmetic.impl N) op (.val x) = .ok (Spec.answer (Spec.rows h)
          (fun y => Spec.compareInt op (value y) (value x) == some true) (decide (op = .notEqual)))) ∧
      ∀ xs : List (Option T), (∀ x, some x ∈ xs → ok x) →
        v.lookup (Arithmetic.impl N) .in_ (.list xs) = .ok (Spec.answer (Spec.rows h) (Spec.elem xs) false) ∧
        v.lookup (Arithmetic.impl N) .notIn (.list xs) = .ok (Spec.answer (Spec.rows h) (fun y => !Spec.elem xs y) false) := by
  obtain ⟨v, e1, e2⟩ := numIndex N hw h fun _ v _ => hdef v
  have hadj : ∀ op (b : Int), Arithmetic.adjust N.identity op b = b := by intro op b; simp [Arithmetic.adjust, hid]
  have key : ∀ op x, (Spec.compareInt op 0 0).isSome → ok x →
        v.lookupVal (Arithmetic.impl N) op x = .ok (Spec.answer (Spec.rows h)
          (fun y => Spec.compareInt op (value y) (value x) == some true) (decide (op = .notEqual))) := by
    intro op x hop hx
    have hop' := compareInt_isSome hop
    obtain ⟨v', e1', _, e3⟩ := numIndex_lookup N hw hb h (fun pos y hy => ⟨hdef y, hk y (hv pos y hy)⟩) op hop' x (hdef x)
      (by rw [hadj]; exact hk x hx)
    rw [e1] at e1'
    obtain rfl := Option.some.inj e1'
    rw [e3, hadj]
    congr 1
    apply List.map_congr_left
    intro r hr
    cases r with
    | absent => rfl
    | null => rfl
    | value y =>
      obtain ⟨i, hi⟩ := List.mem_iff_getElem?.1 hr
      obtain ⟨pos, hp⟩ := rows_mem h i y hi
      have oky := hv pos y hp
      simp only
      rw [compare_int hop' (hlt y x oky hx) (heq y x oky hx)]
  refine ⟨v, e1, key, ?_⟩
  intro xs hxs
  apply in_exact e2 xs
  intro x hx
  rw [key .equal x rfl (hxs x hx)]
  congr 2
  funext y
  simp only [Spec.compareInt]
  rw [Bool.eq_iff_iff, beq_iff_eq, Option.some.injEq, beq_iff_eq, beq_iff_eq]
  exact hinj y x

/-- C11, signed integers. For every base that covers 64 bits, every history of appends (values,
nulls, gaps, rejected appends) and every comparison with a 64-bit integer, the index returns one bit
per row: the rows whose value satisfies the comparison, and the null rows for `!=`. For lists of
integers and nulls, `in` returns the rows whose value is in the list and `not_in` the rows whose
value is not. -/
theorem C11_integer (base : List Nat) (hw : wellDefined base = true) (hb : 2 ^ 64 ≤ Spec.product base)
    (h : List (Nat × Option Int)) (hv : ∀ pos v, (pos, some v) ∈ h → -2 ^ 63 ≤ v ∧ v < 2 ^ 63) :
    ∃ v, Arithmetic.index base h Numeric.integer = some v ∧
      (∀ op (x : Int), (Spec.compareInt op 0 0).isSome → -2 ^ 63 ≤ x ∧ x < 2 ^ 63 →
        v.lookup (Arithmetic.impl Numeric.integer) op (.val x) = .ok (Spec.answer (Spec.rows h)
          (fun y => Spec.compareInt op y x == some true) (decide (op = .notEqual)))) ∧
      ∀ xs : List (Option Int), (∀ x, some x ∈ xs → -2 ^ 63 ≤ x ∧ x < 2 ^ 63) →
        v.lookup (Arithmetic.impl Numeric.integer) .in_ (.list xs)
          = .ok (Spec.answer (Spec.rows h) (fun y => xs.contains (some y)) false) ∧
        v.lookup (Arithmetic.impl Numeric.integer) .notIn (.list xs)
          = .ok (Spec.answer (Spec.rows h) (fun y => !xs.contains (some y)) false) := by
  exact identity_exact Numeric.integer id (fun v => -2 ^ 63 ≤ v ∧ v < 2 ^ 63) rfl (fun _ => rfl)
    (fun v hv => (C12_integer v v hv hv).1) (fun v w hv hw => (C12_integer v w hv hw).2.1)
    (fun v w hv hw => (C12_integer v w hv hw).2.2) (fun _ _ => Iff.rfl) hw hb h hv

/-- C11, counts. -/
theorem C11_count (base : List Nat) (hw : wellDefined base = true) (hb : 2 ^ 64 ≤ Spec.product base)
    (h : List (Nat × Option Nat)) (hv : ∀ pos v, (pos, some v) ∈ h → v < 2 ^ 64) :
    ∃ v, Arithmetic.index base h Numeric.count = some v ∧
      (∀ op (x : Nat), (Spec.compareInt op 0 0).isSome → x < 2 ^ 64 →
        v.lookup (Arithmetic.impl Numeric.count) op (.val x) = .ok (Spec.answer (Spec.rows h)
          (fun y => Spec.compareInt op y x == some true) (decide (op = .notEqual)))) ∧
      ∀ xs : List (Option Nat), (∀ x, some x ∈ xs → x < 2 ^ 64) →
        v.lookup (Arithmetic.impl Numeric.count) .in_ (.list xs)
          = .ok (Spec.answer (Spec.rows h) (fun y => xs.contains (some y)) false) ∧
        v.lookup (Arithmetic.impl Numeric.count) .notIn (.list xs)
          = .ok (Spec.answer (Spec.rows h) (fun y => !xs.contains (some y)) false) := by
  exact identity_exact Numeric.count (fun v => (v : Int)) (fun v => v < 2 ^ 64) rfl (fun _ => rfl)
    (fun v hv => by simpa [Numeric.count] using hv) (fun v w _ _ => by simp [Numeric.count])
    (fun v w _ _ => by simp [Numeric.count]; omega) (fun v w => by omega) hw hb h hv

/-- A history with a gap, a null, a rejected append and the extremes of the domain. -/
def demoInts : List (Nat × Option Int) :=
  [(0, some (-5)), (1, none), (0, some 7), (4, some (2 ^ 63 - 1)), (5, some (-2 ^ 63)), (6, none)]

example : Spec.rows demoInts =
    [.value (-5), .null, .absent, .absent, .value (2 ^ 63 - 1), .value (-2 ^ 63), .null] := by decide

example : (∀ pos v, (pos, some v) ∈ demoInts → (-2 : Int) ^ 63 ≤ v ∧ v < 2 ^ 63) := by
  intro pos v hm
  simp only [demoInts, List.mem_cons, Prod.mk.injEq, List.not_mem_nil, or_false, Option.some.injEq] at hm
  simp only [reduceCtorEq, and_false, false_or, or_false] at hm
  omega

example : ((Arithmetic.index (uniform 8 22) demoInts Numeric.integer).map fun v =>
      v.lookup (Arithmetic.impl Numeric.integer) .less (.val 3))
    = some (.ok [true, false, false, false, false, true, false]) := by decide +kernel

/-! ## Booleans -/

/-- C11, booleans: `==` and `!=` are exact. -/
theorem C11_bool (h : List (Nat × Option Bool)) (x : Bool) :
    ∃ v, Arithmetic.boolIndex h = some v ∧
      v.lookup Arithmetic.boolImpl .equal (.val x)
        = .ok (Spec.answer (Spec.rows h) (fun y => y == x) false) ∧
      v.lookup Arithmetic.boolImpl .notEqual (.val x)
        = .ok (Spec.answer (Spec.rows h) (fun y => y != x) true) := by
  have hA : Appends Arithmetic.boolImpl (fun b col => b = col.map (·.getD false)) (fun _ => True) := by
    refine ⟨?_⟩
    rintro s col v pos rfl hp _
    refine ⟨_, rfl, ?_⟩
    simp [SingletonCoder.encode, SingletonCoder.skip, Bm.appendBits]
  obtain ⟨v, e1, e2⟩ := vRep_run hA h (vRep_make (s := ([] : Bm)) rfl) (fun _ _ _ => trivial)
  refine ⟨v, e1, ?_, ?_⟩
  · refine lookupVal_frame (I := Arithmetic.boolImpl) e2 .equal x _ ?_
    refine ⟨_, by simp only [Arithmetic.boolImpl, SingletonCoder.decode, Res.ofOption]; rfl, ?_, ?_⟩
    · rw [e2.impl]
      split
      · simpa using e2.col_length
      · simpa using e2.col_length
    · intro i y hi
      have hc := (e2.col i y).2 hi
      rw [e2.impl]
      cases x
      · rw [Bm.bit_of_getElem? (x := !y)]
        · cases y <;> rfl
        · rw [if_neg (by decide), Bm.not, List.getElem?_map, List.getElem?_map, hc]; rfl
      · rw [Bm.bit_of_getElem? (x := y)]
        · cases y <;> rfl
        · rw [if_pos rfl, List.getElem?_map, hc]; rfl
  · refine lookupVal_frame (I := Arithmetic.boolImpl) e2 .notEqual x _ ?_
    refine ⟨_, by simp only [Arithmetic.boolImpl, SingletonCoder.decode, Res.ofOption]; rfl, ?_, ?_⟩
    · rw [e2.impl]
      split
      · simpa using e2.col_length
      · simpa using e2.col_length
    · intro i y hi
      have hc := (e2.col i y).2 hi
      rw [e2.impl]
      cases x
      · rw [Bm.bit_of_getElem? (x := y)]
        · cases y <;> rfl
        · rw [if_neg (by decide), List.getElem?_map, hc]; rfl
      · rw [Bm.bit_of_getElem? (x := !y)]
        · cases y <;> rfl
        · rw [if_pos rfl, Bm.not, List.getElem?_map, List.getElem?_map, hc]; rfl

example : (Arithmetic.boolIndex [(0, some true), (2, some false), (3, none)]).map
    (fun v => (v.lookup Arithmetic.boolImpl .equal (.val false), v.lookup Arithmetic.boolImpl .notEqual (.val false)))
    = some (.ok [false, false, true, false], .ok [true, false, false, true]) := by decide

/-! ## Binned indexes -/

/-- An index with binning whose bins and keys are monotone. -/
theorem binned_superset {T : Type} (N : Numeric T) (value : T → Int) (ok : T → Prop) (B : Int)
    (hid : N.identity = false) (hdef : ∀ v, ok v → N.defined v = true)
    (hbin : ∀ v, ok v → -B ≤ N.bin v ∧ N.bin v ≤ B)
    (hmono : ∀ v w, ok v → ok w → value v ≤ value w → N.bin v ≤ N.bin w)
    (hk : ∀ a : Int, -B - 1 ≤ a → a ≤ B + 1 → N.key a < 2 ^ 64)
    (hkey : ∀ a b : Int, -B - 1 ≤ a → a ≤ B + 1 → -B - 1 ≤ b → b ≤ B + 1 → a < b → N.key a < N.key b)
    {base : List Nat} (hw : wellDefined base = true) (hb : 2 ^ 64 ≤ Spec.product base)
    (h : List (Nat × Option T)) (hv : ∀ pos v, (pos, some v) ∈ h → ok v)
    (op : RelOp) (hop : (Spec.compareInt op 0 0).isSome) (hne : op ≠ .notEqual) (x : T) (hx : ok x) :
    ∃ v r, Arithmetic.index base h N = some v ∧ v.lookup (Arithmetic.impl N) op (.val x) = .ok r ∧
      r.length = (Spec.rows h).length ∧
      (∀ (i : Nat) y, (Spec.rows h)[i]? = some (.value y) → Spec.compareInt op (value y) (value x) = some true → r[i]? = some true) ∧
      (∀ i : Nat, (Spec.rows h)[i]? = some .null ∨ (Spec.rows h)[i]? = some .absent → r[i]? = some false) := by
  have hop' := compareInt_isSome hop
  have hadj : ∀ b : Int, -B ≤ b → b ≤ B → -B - 1 ≤ Arithmetic.adjust N.identity op b ∧ Arithmetic.adjust N.identity op b ≤ B + 1 := by
    intro b h1 h2
    rw [hid]
    unfold Arithmetic.adjust
    simp only [Bool.false_eq_true, if_false]
    split <;> omega
  have hbx := hbin x hx
  obtain ⟨v, e1, _, e3⟩ := numIndex_lookup N hw hb h (fun pos y hy => by
      have := hbin y (hv pos y hy)
      exact ⟨hdef y (hv pos y hy), hk _ (by omega) (by omega)⟩) op hop' x (hdef x hx)
    (by have := hadj _ hbx.1 hbx.2; exact hk _ this.1 this.2)
  refine ⟨v, _, e1, e3, by simp [Spec.answer], ?_⟩
  refine ⟨?_, by rintro i (hi | hi) <;> simp [Spec.answer, hi, hne]⟩
  · intro i y hi hc
    rw [Spec.answer, List.getElem?_map, hi]
    simp only [Option.map_some, Option.some.injEq, beq_iff_eq]
    obtain ⟨pos, hp⟩ := rows_mem h i y hi
    have oky := hv pos y hp
    have hby := hbin y oky
    have le_of : ∀ a b : Int, -B - 1 ≤ a → a ≤ B + 1 → -B - 1 ≤ b → b ≤ B + 1 → a ≤ b → N.key a ≤ N.key b := by
      intro a b h1 h2 h3 h4 hab
      rcases Int.lt_or_eq_of_le hab with hlt | rfl
      · exact Nat.le_of_lt (hkey a b h1 h2 h3 h4 hlt)
      · exact Nat.le_refl _
    rw [hid]
    cases op <;> try (exact absurd rfl hop')
    case equal =>
      simp only [Spec.compareInt, Option.some.injEq, beq_iff_eq] at hc
      have h1 := hmono y x oky hx (by omega)
      have h2 := hmono x y hx oky (by omega)
      have : N.bin y = N.bin x := by omega
      simp [Spec.compare, Arithmetic.adjust, this]
    case notEqual => exact absurd rfl hne
    case less =>
      simp only [Spec.compareInt, Option.some.injEq, decide_eq_true_eq] at hc
      have h1 := hmono y x oky hx (by omega)
      have := hkey (N.bin y) (N.bin x + 1) (by omega) (by omega) (by omega) (by omega) (by omega)
      simp [Spec.compare, Arithmetic.adjust, this]
    case lessEqual =>
      simp only [Spec.compareInt, Option.some.injEq, decide_eq_true_eq] at hc
      have h1 := hmono y x oky hx (by omega)
      have := le_of (N.bin y) (N.bin x) (by omega) (by omega) (by omega) (by omega) (by omega)
      simp [Spec.compare, Arithmetic.adjust, this]
    case greater =>
      simp only [Spec.compareInt, Option.some.injEq, decide_eq_true_eq] at hc
      have h1 := hmono x y hx oky (by omega)
      have := hkey (N.bin x - 1) (N.bin y) (by omega) (by omega) (by omega) (by omega) (by omega)
      simp [Spec.compare, Arithmetic.adjust, this]
    case greaterEqual =>
      simp only [Spec.compareInt, Option.some.injEq, decide_eq_true_eq] at hc
      have h1 := hmono x y hx oky (by omega)
      have := le_of (N.bin x) (N.bin y) (by omega) (by omega) (by omega) (by omega) (by omega)
      simp [Spec.compare, Arithmetic.adjust, this]

/-- C11, times and durations in nanoseconds. For values and operands of the same sign, the result of
every comparison except `!=` contains every row whose value satisfies it, and no null row and no row
without data. Missing: values of both signs (`C11_time_sign_refuted`) and `!=`
(`C11_time_notEqual_refuted`), for which rows are lost. -/
theorem C11_time_partial (base : List Nat) (hw : wellDefined base = true) (hb : 2 ^ 64 ≤ Spec.product base)
    (negative : Bool) (h : List (Nat × Option Int))
    (hv : ∀ pos v, (pos, some v) ∈ h → -2 ^ 63 ≤ v ∧ v < 2 ^ 63 ∧ (v < 0 ↔ negative = true))
    (op : RelOp) (hop : (Spec.compareInt op 0 0).isSome) (hne : op ≠ .notEqual) (x : Int)
    (hx : -2 ^ 63 ≤ x ∧ x < 2 ^ 63 ∧ (x < 0 ↔ negative = true)) :
    ∃ v r, Arithmetic.index base h Numeric.time = some v ∧
      v.lookup (Arithmetic.impl Numeric.time) op (.val x) = .ok r ∧
      r.length = (Spec.rows h).length ∧
      (∀ (i : Nat) y, (Spec.rows h)[i]? = some (.value y) → Spec.compareInt op y x = some true → r[i]? = some true) ∧
      (∀ i : Nat, (Spec.rows h)[i]? = some .null ∨ (Spec.rows h)[i]? = some .absent → r[i]? = some false) := by
  have hbin : ∀ v : Int, 0 ≤ Numeric.decimalBin v ∧ Numeric.decimalBin v ≤ 18446744073 := by
    intro v; unfold Numeric.decimalBin; omega
  refine binned_superset Numeric.time id _ 18446744073 rfl (fun _ _ => rfl) ?_ ?_ ?_ ?_ hw hb h hv op hop hne x hx
  · intro v _
    have := hbin v
    simp only [Numeric.time]
    omega
  · intro v w hv hw hle
    simp only [Numeric.time, Numeric.decimalBin, id_eq] at *
    cases negative
    · simp only [Bool.false_eq_true, iff_false] at hv hw
      omega
    · simp only [iff_true] at hv hw
      omega
  · intro a h1 h2
    simp only [Numeric.time, orderInt]; omega
  · intro a b h1 h2 h3 h4 hab
    simp only [Numeric.time, orderInt]; omega

-- 1.5 s, a null, 1.9 s and 3 s; `> 1.6 s` also yields 1.5 s, which the candidate check removes
example : ((Arithmetic.index (uniform 8 22)
      [(0, some 1500000000), (1, none), (2, some 1900000000), (4, some 3000000000)] Numeric.time).map fun v =>
      v.lookup (Arithmetic.impl Numeric.time) .greater (.val 1600000000))
    = some (.ok [true, false, true, false, true]) := by decide +kernel

/-- C11, refuted for times and durations of different signs: -5 s is less than 1 s but not found,
because the binner divides by an unsigned number. -/
theorem C11_time_sign_refuted :
    ((Arithmetic.index (uniform 8 22) [(0, some (-5000000000))] Numeric.time).map fun v =>
      v.lookup (Arithmetic.impl Numeric.time) .less (.val 1000000000)) = some (.ok [false])
    ∧ Spec.compareInt .less (-5000000000) 1000000000 = some true := by decide +kernel

/-- C11, refuted for times and durations and `!=`: 1.5 s is not 1.2 s, but not found. -/
theorem C11_time_notEqual_refuted :
    ((Arithmetic.index (uniform 8 22) [(0, some 1500000000)] Numeric.time).map fun v =>
      v.lookup (Arithmetic.impl Numeric.time) .notEqual (.val 1200000000)) = some (.ok [false])
    ∧ Spec.compareInt .notEqual 1500000000 1200000000 = some true := by decide +kernel

/-! ### Reals -/

theorem rounded_eq {D H m : Nat} (hD : 0 < D) : m / D + (m % D + H) / D = (m + H) / D := by
  have : m + H = D * (m / D) + (m % D + H) := by have := Nat.div_add_mod m D; omega
  rw [this, Nat.mul_add_div hD]

theorem roundedMagnitude_mono {x y : Double} (h : Spec.magnitude x ≤ Spec.magnitude y) :
    Numeric.roundedMagnitude x ≤ Numeric.roundedMagnitude y ∧ Numeric.roundedMagnitude x ≤ 10000000000 := by
  unfold Numeric.roundedMagnitude
  have hD : 0 < 2 ^ 1074 := Nat.two_pow_pos _
  have hH : 2 ^ 1073 ≤ 2 ^ 1074 := Nat.pow_le_pow_right (by omega) (by omega)
  rw [rounded_eq hD, rounded_eq hD]
  generalize 2 ^ 1074 = D at *
  generalize 2 ^ 1073 = H at *
  generalize Spec.magnitude x = m at *
  generalize Spec.magnitude y = n at *
  have h1 : m / D ≤ n / D := Nat.div_le_div_right h
  have h2 : (m + H) / D ≤ (n + H) / D := Nat.div_le_div_right (by omega)
  have h3 : (m + H) / D ≤ m / D + 1 := by
    rw [← Nat.add_div_right m hD]
    exact Nat.div_le_div_right (by omega)
  have h4 : n / D ≤ (n + H) / D := Nat.div_le_div_right (by omega)
  by_cases c1 : 10000000000 ≤ m / D
  · rw [if_pos c1, if_pos (by omega)]; omega
  · rw [if_neg c1]
    by_cases c2 : 10000000000 ≤ n / D
    · rw [if_pos c2]; omega
    · rw [if_neg c2]; omega

theorem roundedMagnitude_zero {x : Double} (h : Spec.magnitude x = 0) : Numeric.roundedMagnitude x = 0 := by
  unfold Numeric.roundedMagnitude
  have hD : 0 < 2 ^ 1074 := Nat.two_pow_pos _
  have hH : 2 ^ 1073 < 2 ^ 1074 := Nat.pow_lt_pow_right (by omega) (by omega)
  rw [h, rounded_eq hD]
  generalize 2 ^ 1074 = D at *
  generalize 2 ^ 1073 = H at *
  rw [Nat.zero_div, if_neg (by omega), Nat.zero_add, Nat.div_eq_of_lt hH]

theorem precisionBin_mono {x y : Double} (h : Spec.value x ≤ Spec.value y) :
    Numeric.precisionBin x ≤ Numeric.precisionBin y := by
  unfold Spec.value at h
  unfold Numeric.precisionBin
  have h1 := @roundedMagnitude_mono x y
  have h2 := @roundedMagnitude_mono y x
  have zx := @roundedMagnitude_zero x
  have zy := @roundedMagnitude_zero y
  generalize Numeric.roundedMagnitude x = a at *
  generalize Numeric.roundedMagnitude y = b at *
  generalize Spec.magnitude x = m at *
  generalize Spec.magnitude y = n at *
  cases hx : x.neg <;> cases hy : y.neg <;> simp only [hx, hy, if_true, if_false, Bool.false_eq_true] at h ⊢ <;> omega

theorem precisionBin_bound (x : Double) :
    -10000000000 ≤ Numeric.precisionBin x ∧ Numeric.precisionBin x ≤ 10000000000 := by
  have := (roundedMagnitude_mono (Nat.le_refl (Spec.magnitude x))).2
  unfold Numeric.precisionBin
  split <;> omega

/-- The fields of the double for a positive whole number. -/
theorem ofNat_spec (b : Bool) {n : Nat} (hn : 0 < n) (hl : n < 2 ^ 35) :
    (Numeric.ofNat b n).Valid ∧ (Numeric.ofNat b n).neg = b ∧ Spec.magnitude (Numeric.ofNat b n) = n * 2 ^ 1074 ∧
    2 ^ 52 ≤ (Numeric.ofNat b n).code ∧ (Numeric.ofNat b n).code < 2047 * 2 ^ 52 ∧
    ∃ c, (Numeric.ofNat b n).code = 2 ^ 18 * c := by
  have hne : n ≠ 0 := by omega
  have h1 : 2 ^ n.log2 ≤ n := Nat.log2_self_le hne
  have h2 : n < 2 ^ (n.log2 + 1) := Nat.lt_log2_self
  have h3 : n.log2 < 35 := (Nat.log2_lt hne).2 hl
  unfold Numeric.ofNat
  rw [if_neg hne]
  generalize n.log2 = e at *
  have h4 : (n - 2 ^ e) * 2 ^ (52 - e) < 2 ^ 52 := by
    have : (n - 2 ^ e) * 2 ^ (52 - e) < 2 ^ e * 2 ^ (52 - e) :=
      Nat.mul_lt_mul_of_pos_right (by rw [Nat.pow_succ] at h2; omega) (Nat.two_pow_pos _)
    rwa [← Nat.pow_add, show e + (52 - e) = 52 by omega] at this
  have h5 : (n - 2 ^ e) * 2 ^ (52 - e) = 2 ^ 18 * ((n - 2 ^ e) * 2 ^ (34 - e)) := by
    have : 2 ^ (52 - e) = 2 ^ 18 * 2 ^ (34 - e) := by rw [← Nat.pow_add]; congr 1; omega
    rw [this, Nat.mul_left_comm]
  refine ⟨⟨by simp only; omega, h4⟩, rfl, ?_, ?_, ?_, ?_⟩
  · simp only [Spec.magnitude]
    rw [if_neg (by omega)]
    have e1 : 2 ^ 52 + (n - 2 ^ e) * 2 ^ (52 - e) = n * 2 ^ (52 - e) := by
      have : 2 ^ 52 = 2 ^ e * 2 ^ (52 - e) := by rw [← Nat.pow_add]; congr 1; omega
      rw [this, ← Nat.add_mul]
      congr 1
      omega
    rw [e1, Nat.mul_assoc, ← Nat.pow_add]
    congr 2
    omega
  · simp only [Double.code]; omega
  · simp only [Double.code]; omega
  · refine ⟨(1023 + e) * 2 ^ 34 + (n - 2 ^ e) * 2 ^ (34 - e), ?_⟩
    simp only [Double.code]
    rw [h5, Nat.mul_add]
    congr 1
    rw [Nat.mul_left_comm]

/-- The key of a whole number. -/
theorem doubleKey_spec (n : Int) (hl : n.natAbs < 2 ^ 35) :
    (n = 0 → Numeric.doubleKey n = 2 ^ 45 - 1) ∧
    (n ≠ 0 → ∃ c, (∀ b, (Numeric.ofNat b n.natAbs).code = 2 ^ 18 * c) ∧ 0 < c ∧ c < 2 ^ 45 ∧
      Numeric.doubleKey n = if n < 0 then 2 ^ 45 - 1 - c else 2 ^ 45 + c) := by
  constructor
  · rintro rfl; decide
  · intro hn
    obtain ⟨v, hneg, _, h1, h2, c, hc⟩ := ofNat_spec (decide (n < 0)) (n := n.natAbs) (by omega) hl
    refine ⟨c, ?_, by omega, by omega, ?_⟩
    · intro b
      rw [← hc]
      unfold Numeric.ofNat
      split <;> rfl
    · have hnan : (Numeric.ofNat (decide (n < 0)) n.natAbs).isNaN = false := by
        simp only [Double.isNaN, decide_eq_false_iff_not]
        have := v.2
        unfold Double.code at h2
        omega
      obtain ⟨k, e, _, _, _, e3, _⟩ := orderDouble_eq v hnan
      have := e3 h1 h2
      unfold Numeric.doubleKey Numeric.ofInt
      rw [e, Option.getD_some, this, hneg, hc, Nat.shiftRight_eq_div_pow]
      by_cases hlt : n < 0
      · simp only [hlt, decide_true, if_true]
        omega
      · simp only [hlt, decide_false, if_false, Bool.false_eq_true]
        omega

theorem doubleKey_mono (a b : Int) (ha : a.natAbs < 2 ^ 35) (hb : b.natAbs < 2 ^ 35) (hab : a < b) :
    Numeric.doubleKey a < Numeric.doubleKey b ∧ Numeric.doubleKey b < 2 ^ 64 := by
  obtain ⟨a0, a1⟩ := doubleKey_spec a ha
  obtain ⟨b0, b1⟩ := doubleKey_spec b hb
  have hcode : ∀ m n : Nat, 0 < m → m < n → n < 2 ^ 35 → (Numeric.ofNat true m).code < (Numeric.ofNat true n).code := by
    intro m n h0 h1 h2
    obtain ⟨v1, _, m1, _⟩ := ofNat_spec true h0 (show m < 2 ^ 35 by omega)
    obtain ⟨v2, _, m2, _⟩ := ofNat_spec true (n := n) (by omega) h2
    apply (magnitude_iff v1 v2).1.1
    rw [m1, m2]
    exact Nat.mul_lt_mul_of_pos_right h1 (Nat.two_pow_pos _)
  by_cases ea : a = 0
  · have := a0 ea
    by_cases eb : b = 0
    · omega
    · obtain ⟨c, _, c1, c2, c3⟩ := b1 eb
      rw [if_neg (by omega)] at c3
      omega
  · obtain ⟨c, hc, c1, c2, c3⟩ := a1 ea
    by_cases eb : b = 0
    · have := b0 eb
      rw [if_pos (by omega)] at c3
      omega
    · obtain ⟨d, hd, d1, d2, d3⟩ := b1 eb
      have e1 := hc true
      have e2 := hd true
      rcases Int.lt_or_le a 0 with na | na
      · rw [if_pos na] at c3
        rcases Int.lt_or_le b 0 with nb | nb
        · rw [if_pos nb] at d3
          have := hcode b.natAbs a.natAbs (by omega) (by omega) ha
          omega
        · rw [if_neg (by omega)] at d3
          omega
      · rw [if_neg (by omega)] at c3 d3
        have := hcode a.natAbs b.natAbs (by omega) (by omega) hb
        omega

/-- C11, reals. For every column of doubles that are not NaN, positive or negative, including
zeros, subnormals and infinities, the result of every comparison except `!=` contains every row whose
value satisfies it, and no null row and no row without data. Missing: `!=`
(`C11_real_notEqual_refuted`) and NaN (`C11_nan_refuted`). -/
theorem C11_real_partial (base : List Nat) (hw : wellDefined base = true) (hb : 2 ^ 64 ≤ Spec.product base)
    (h : List (Nat × Option Double)) (hv : ∀ pos v, (pos, some v) ∈ h → v.isNaN = false)
    (op : RelOp) (hop : (Spec.compareInt op 0 0).isSome) (hne : op ≠ .notEqual) (x : Double) (hx : x.isNaN = false) :
    ∃ v r, Arithmetic.index base h Numeric.real = some v ∧
      v.lookup (Arithmetic.impl Numeric.real) op (.val x) = .ok r ∧
      r.length = (Spec.rows h).length ∧
      (∀ (i : Nat) y, (Spec.rows h)[i]? = some (.value y) → Spec.compareInt op (Spec.value y) (Spec.value x) = some true → r[i]? = some true) ∧
      (∀ i : Nat, (Spec.rows h)[i]? = some .null ∨ (Spec.rows h)[i]? = some .absent → r[i]? = some false) := by
  refine binned_superset Numeric.real Spec.value (fun v => v.isNaN = false) 10000000000 rfl ?_ ?_ ?_ ?_ ?_ hw hb h hv op hop
    hne x hx
  · intro v hv; simp [Numeric.real, hv]
  · intro v _; exact precisionBin_bound v
  · intro v w _ _ h; exact precisionBin_mono h
  · intro a h1 h2
    have := (doubleKey_mono (a - 1) a (by omega) (by omega) (by omega)).2
    exact this
  · intro a b h1 h2 h3 h4 hab
    exact (doubleKey_mono a b (by omega) (by omega) hab).1

-- 1.5, null, -0.25, infinity
def demoReals : List (Nat × Option Double) :=
  [(0, some ⟨false, 1023, 2 ^ 51⟩), (1, none), (2, some ⟨true, 1021, 0⟩), (3, some ⟨false, 2047, 0⟩)]

-- `< 1.0`: 1.5 is rounded to 2, -0.25 to 0
example : ((Arithmetic.index (uniform 8 22) demoReals Numeric.real).map fun v =>
      v.lookup (Arithmetic.impl Numeric.real) .less (.val ⟨false, 1023, 0⟩))
    = some (.ok [false, false, true, false]) := by decide +kernel

/-- C11, refuted for reals and `!=`: 1.25 is not 1.0, but not found. -/
theorem C11_real_notEqual_refuted :
    ((Arithmetic.index (uniform 8 22) [(0, some ⟨false, 1023, 2 ^ 50⟩)] Numeric.real).map fun v =>
      v.lookup (Arithmetic.impl Numeric.real) .notEqual (.val ⟨false, 1023, 0⟩)) = some (.ok [false])
    ∧ Spec.compareInt .notEqual (Spec.value ⟨false, 1023, 2 ^ 50⟩) (Spec.value ⟨false, 1023, 0⟩) = some true := by
  decide +kernel

/-- C11, refuted for NaN: appending NaN to an index, or looking it up, is undefined behaviour (in
debug builds an assertion, in release builds `die`). -/
theorem C11_nan_refuted :
    Arithmetic.index (uniform 8 22) [(0, some ⟨false, 2047, 1⟩)] Numeric.real = none
    ∧ ((Arithmetic.index (uniform 8 22) demoReals Numeric.real).map fun v =>
      v.lookup (Arithmetic.impl Numeric.real) .less (.val ⟨false, 2047, 1⟩)) = some .undefined := by
  constructor
  · rfl
  · decide +kernel

/-- C11, refuted for bases that do not cover 64 bits: the value 3 is returned for `== 103`. -/
theorem C11_small_base_refuted :
    ((Arithmetic.index (uniform 10 2) [(0, some 3)] Numeric.count).map fun v =>
      v.lookup (Arithmetic.impl Numeric.count) .equal (.val 103)) = some (.ok [true]) := by decide +kernel

end Verif.Index
