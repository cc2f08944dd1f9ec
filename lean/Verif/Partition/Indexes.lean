import Verif.Partition.Answer
import Verif.Index.NetProps
import Verif.Index.TextProps
import Verif.Index.ValueProps

/-! # The value indexes of a partition

The indexes of C11, C13 and C14, as the parameter `answer` of Verif/Partition/Model.lean. -/

namespace Verif.Partition
open Verif.Data Verif.Expr Verif.Evaluator Verif.Partition.Spec
open Verif.Evaluator.Spec (Has)
open Verif.MetaIndex (Field find assign find_assign find_mem)
open Verif.Index (ValueIndex Impl Operand Arithmetic.index Numeric.count NetOperand uniform)

set_option linter.unusedSectionVars false
variable {τ : Type} [DecidableEq τ]

/-- value_index_factory.cpp:148-160: the types with an index that is modelled here. Not here: reals, enumerations, lists
    and the hash index (C11, C15, C16, C56). -/
inductive Kind where
  | bool | integer | count | duration | time | string | address | subnet
deriving DecidableEq, Repr

/-- The value as the index of the type stores it; a value of another type counts as null. -/
def asBool : Data → Option Bool | .bool b => some b | _ => none
/-- See `asBool`. -/
def asInt : Data → Option Int | .int i => some i | _ => none
/-- See `asBool`. -/
def asCount : Data → Option Nat | .count n => some n | _ => none
/-- See `asBool`. -/
def asDuration : Data → Option Int | .duration i => some i | _ => none
/-- See `asBool`. -/
def asTime : Data → Option Int | .time i => some i | _ => none
/-- See `asBool`. -/
def asString : Data → Option Str | .string s => some s | _ => none
/-- See `asBool`. -/
def asAddress : Data → Option Address.Address | .address a => some a | _ => none
/-- See `asBool`. -/
def asSubnet : Data → Option Address.Subnet | .subnet s => some s | _ => none

/-- The history of an index: what indexer.cpp:76-95 appends. -/
def history {α : Type} (proj : Data → Option α) (values : List (Nat × Data)) : List (Nat × Option α) :=
  values.map fun e => (e.1, proj e.2)

/-- indexer.cpp:97-109: the reply of an indexer. A failing append or lookup is an error. -/
def askIndex {σ α ρ : Type} (I : Impl σ α ρ) (v : Option (ValueIndex σ)) (op : RelOp) (x : ρ) : Option Ids :=
  match v with
  | some v => match v.lookup I op (.val x) with
    | .ok r => some r
    | _ => none
  | none => none

/-- The replies of the indexes of value_index_factory.cpp:148-160 with their default options (base 8 with 22 digits for
    numbers, arithmetic_index.hpp:90-105; strings up to 1024 bytes, defaults.hpp:138) for a literal of their type. -/
def indexAnswer (k : Kind) (values : List (Nat × Data)) (op : RelOp) (d : Data) : Option Ids :=
  match k, d with
  | .bool, .bool x => askIndex Index.Arithmetic.boolImpl (Index.Arithmetic.boolIndex (history asBool values)) op x
  | .integer, .int x => askIndex (Index.Arithmetic.impl Index.Numeric.integer)
      (Index.Arithmetic.index (uniform 8 22) (history asInt values) Index.Numeric.integer) op x
  | .count, .count x => askIndex (Index.Arithmetic.impl Index.Numeric.count)
      (Index.Arithmetic.index (uniform 8 22) (history asCount values) Index.Numeric.count) op x
  | .duration, .duration x => askIndex (Index.Arithmetic.impl Index.Numeric.time)
      (Index.Arithmetic.index (uniform 8 22) (history asDuration values) Index.Numeric.time) op x
  | .time, .time x => askIndex (Index.Arithmetic.impl Index.Numeric.time)
      (Index.Arithmetic.index (uniform 8 22) (history asTime values) Index.Numeric.time) op x
  | .string, .string x => askIndex Index.StringIndex.impl (Index.StringIndex.index 1024 (history asString values)) op x
  | .address, .address x => askIndex Index.AddressIndex.impl (Index.AddressIndex.index (history asAddress values)) op (.addr x)
  | .address, .subnet x => askIndex Index.AddressIndex.impl (Index.AddressIndex.index (history asAddress values)) op (.net x)
  | .subnet, .subnet x => askIndex Index.SubnetIndex.impl (Index.SubnetIndex.index (history asSubnet values)) op (.net x)
  | _, _ => none

namespace Spec

/-- The comparisons that order numbers. -/
def Order (op : RelOp) : Prop :=
  op = .equal ∨ op = .notEqual ∨ op = .less ∨ op = .lessEqual ∨ op = .greater ∨ op = .greaterEqual

/-- A value of a column of the kind: null or a value of the type that the index can hold without a loss. Times and
    durations are not negative (C11). -/
def Fits : Kind → Data → Prop
  | _, .none => True
  | .bool, .bool _ => True
  | .integer, .int x => -2 ^ 63 ≤ x ∧ x < 2 ^ 63
  | .count, .count x => x < 2 ^ 64
  | .duration, .duration x => 0 ≤ x ∧ x < 2 ^ 63
  | .time, .time x => 0 ≤ x ∧ x < 2 ^ 63
  | .string, .string x => x.length ≤ 1024
  | .address, .address _ => True
  | .subnet, .subnet x => Index.Spec.IsNet x
  | _, _ => False

/-- The comparisons that the index answers without a loss. -/
def Asks : Kind → RelOp → Data → Prop
  | .bool, op, .bool _ => op = .equal ∨ op = .notEqual
  | .integer, op, .int x => Order op ∧ -2 ^ 63 ≤ x ∧ x < 2 ^ 63
  | .count, op, .count x => Order op ∧ x < 2 ^ 64
  | .duration, op, .duration x => Order op ∧ op ≠ .notEqual ∧ 0 ≤ x ∧ x < 2 ^ 63
  | .time, op, .time x => Order op ∧ op ≠ .notEqual ∧ 0 ≤ x ∧ x < 2 ^ 63
  | .string, op, .string x => (op = .equal ∨ op = .notEqual ∨ op = .ni ∨ op = .notNi) ∧ x.length ≤ 1024 ∧ ∀ b ∈ x, b ≠ 255
  | .address, op, .address _ => op = .equal ∨ op = .notEqual
  | .address, op, .subnet x => (op = .in_ ∨ op = .notIn) ∧ Index.Spec.IsNet x ∧ x.length ≠ 0
  | .subnet, op, .subnet x => (op = .equal ∨ op = .notEqual) ∧ Index.Spec.IsNet x
  | _, _, _ => False

/-- Nulls satisfy the comparison exactly if the operator is `!=`, which is what the indexes assume (C17), or there are
    none. -/
def NullsAgree (R : Regex) (values : List (Nat × Data)) (op : RelOp) (d : Data) : Prop :=
  ∀ i, (i, Data.none) ∈ values → Data.evaluate R .none op d = decide (op = .notEqual)

/-- The IDs in a column of a layout without columns of the same name and type. -/
def OwnColumns (slices : List (Slice τ)) : Prop :=
  ∀ s ∈ slices, (s.layout.columns.map fun c => (c.name, c.type)).Nodup

end Spec

/-! ### The IDs of the values of an index increase -/

/-- The positions increase. -/
def Increasing (values : List (Nat × Data)) : Prop := values.Pairwise fun a b => a.1 < b.1

theorem events_increasing (s : Slice τ) : s.events.Pairwise fun a b => a.1 < b.1 := by
  rw [Slice.events, List.pairwise_map, List.pairwise_iff_getElem]
  intro i j hi hj hij
  simp only [List.getElem_zipIdx]
  omega

theorem columnValues_increasing (skip : τ → Bool) (s : Slice τ) (c : Column τ × Nat) : Increasing (columnValues skip s c) := by
  rw [columnValues, Increasing]
  split
  · exact .nil
  · rw [List.pairwise_map]
    exact events_increasing s

theorem increasing_foldl (skip : τ → Bool) (s : Slice τ) : ∀ (cols : List (Column τ × Nat)) (done : List (Field τ))
    (fields : List (Field τ × List (Nat × Data))), (cols.map (keyOf s)).Nodup → (∀ c ∈ cols, keyOf s c ∉ done) →
    (∀ f ∈ fields, Increasing f.2 ∧ (f.1.layout = s.layout.name → f.1 ∉ done → ∀ x ∈ f.2, x.1 < s.offset)) →
    ∀ f ∈ cols.foldl (addColumn skip s) fields, Increasing f.2
  | [], _, _, _, _, h => fun f hf => (h f hf).1
  | c :: cols, done, fields, hn, hd, h => by
    rw [List.map_cons, List.nodup_cons] at hn
    rw [List.foldl_cons]
    refine increasing_foldl skip s cols (keyOf s c :: done) _ hn.2 ?_ ?_
    · intro c' hc' hm
      rcases List.mem_cons.1 hm with he | hm
      · exact hn.1 (he ▸ List.mem_map_of_mem hc')
      · exact hd c' (List.mem_cons_of_mem _ hc') hm
    · intro f hf
      rcases mem_assign _ _ _ _ hf with ⟨h1, h2⟩ | hf
      · refine ⟨?_, fun _ hnd => absurd ?_ hnd⟩
        · rw [h2, Increasing, List.pairwise_append]
          have hold : Increasing ((find (⟨s.layout.name, c.1.name, c.1.type⟩ : Field τ) fields).getD []) ∧
              ∀ x ∈ (find (⟨s.layout.name, c.1.name, c.1.type⟩ : Field τ) fields).getD [], x.1 < s.offset := by
            cases hfind : find (⟨s.layout.name, c.1.name, c.1.type⟩ : Field τ) fields with
            | none => exact ⟨.nil, fun x hx => absurd hx (by simp)⟩
            | some hist =>
              have := h _ (find_mem hfind)
              exact ⟨this.1, this.2 rfl (hd c List.mem_cons_self)⟩
          refine ⟨hold.1, columnValues_increasing skip s c, ?_⟩
          intro x hx y hy
          obtain ⟨_, row, hy, _⟩ := (mem_columnValues skip s c y).1 hy
          have := ((events_range s y.1).1 ⟨row, hy⟩).1
          have := hold.2 x hx
          omega
        · rw [h1]; exact List.mem_cons_self
      · exact ⟨(h f hf).1, fun hl hnd => (h f hf).2 hl fun hm => hnd (List.mem_cons_of_mem _ hm)⟩

/-- The IDs of an index increase and are below the end of the IDs of its layout. -/
def Ordered (p : Part τ) : Prop :=
  ∀ f ∈ p.fields, Increasing f.2 ∧ ∀ x ∈ f.2, x.1 < ((find f.1.layout p.typeIds).getD []).length

theorem ordered_add {skip : τ → Bool} {p p' : Part τ} (h : Ordered p) (s : Slice τ)
    (hn : (s.layout.columns.map fun c => (c.name, c.type)).Nodup) (ha : addSlice skip p s = some p') : Ordered p' := by
  rw [addSlice, Option.map_eq_some_iff] at ha
  obtain ⟨ids, hm, rfl⟩ := ha
  have hlen : ids.length = s.offset + s.rows.length ∧ ((find s.layout.name p.typeIds).getD []).length ≤ s.offset := by
    rw [mark] at hm
    split at hm
    · cases hm
    · cases hm
      simp
      omega
  have hn' : (s.layout.indexed.map (keyOf s)).Nodup := by
    have : s.layout.indexed.map (keyOf s) = (s.layout.columns.map fun c => (c.name, c.type)).map
        fun x => (⟨s.layout.name, x.1, x.2⟩ : Field τ) := by
      rw [Layout.indexed, List.map_map]
      conv => rhs; rw [← List.zipIdx_map_fst 0 s.layout.columns]
      rw [List.map_map]
      rfl
    rw [this]
    refine List.Pairwise.map _ ?_ hn
    intro a b hab he
    simp only [Field.mk.injEq, true_and] at he
    exact hab (Prod.ext he.1 he.2)
  intro f hf
  refine ⟨increasing_foldl skip s s.layout.indexed [] p.fields hn' (by simp) ?_ f hf, ?_⟩
  · intro f hf
    refine ⟨(h f hf).1, fun hl _ x hx => ?_⟩
    have := (h f hf).2 x hx
    rw [hl] at this
    omega
  · intro x hx
    simp only [find_assign]
    rcases (added_foldl skip s s.layout.indexed p.fields).values f hf x hx with ⟨hist, hh, hx⟩ | ⟨c, _, hk, hx⟩
    · have h1 := (h _ hh).2 x hx
      simp only at h1
      split
      · rename_i he
        first
          | rw [← he] at h1
          | rw [he] at h1
        simp only [Option.getD_some]
        omega
      · exact h1
    · obtain ⟨_, row, hr, _⟩ := (mem_columnValues skip s c x).1 hx
      have := ((events_range s x.1).1 ⟨row, hr⟩).2
      rw [hk]
      simp only [keyOf, if_true, Option.getD_some]
      omega

theorem ordered_build {skip : τ → Bool} {slices : List (Slice τ)} {part : Part τ} (hn : OwnColumns slices)
    (hb : build skip slices = some part) : Ordered part := by
  have : ∀ (slices : List (Slice τ)) (p : Part τ), OwnColumns slices → Ordered p →
      slices.foldl (fun p s => p.bind fun p => addSlice skip p s) (some p) = some part → Ordered part := by
    intro slices
    induction slices with
    | nil => intro p _ h hb; cases hb; exact h
    | cons s slices ih =>
      intro p hn h hb
      rw [List.foldl_cons, Option.bind_some] at hb
      cases ha : addSlice skip p s with
      | none =>
        rw [ha] at hb
        have : ∀ (l : List (Slice τ)), l.foldl (fun p s => p.bind fun p => addSlice skip p s) none = none := by
          intro l; induction l with
          | nil => rfl
          | cons _ _ ih => exact ih
        rw [this] at hb
        cases hb
      | some p' =>
        rw [ha] at hb
        exact ih p' (fun s' hs' => hn s' (List.mem_cons_of_mem _ hs')) (ordered_add h s (hn s List.mem_cons_self) ha) hb
  exact this slices .empty hn (fun f hf => absurd hf (by simp [Part.empty])) hb

/-! ### Rows of a history -/

theorem of_injective {α : Type} {x y : Option α} (h : Index.Spec.Row.of x = Index.Spec.Row.of y) : x = y := by
  cases x <;> cases y <;> simp [Index.Spec.Row.of] at h ⊢
  exact h

theorem appendRow_get {α : Type} (rs : List (Index.Spec.Row α)) (p : Nat) (y : Option α) (hp : rs.length ≤ p) (i : Nat) (x : Option α) :
    (Index.Spec.appendRow rs p y)[i]? = some (Index.Spec.Row.of x) ↔ (i = p ∧ x = y) ∨ rs[i]? = some (Index.Spec.Row.of x) := by
  rw [Index.Spec.appendRow, if_neg (by omega), List.append_assoc]
  by_cases h1 : i < rs.length
  · rw [List.getElem?_append_left h1]
    constructor
    · exact .inr
    · rintro (⟨h, _⟩ | h)
      · omega
      · exact h
  · rw [List.getElem?_append_right (by omega), List.getElem?_eq_none (show rs.length ≤ i by omega)]
    simp only [reduceCtorEq, or_false]
    by_cases h2 : i < p
    · rw [List.getElem?_append_left (by simp; omega), List.getElem?_replicate]
      constructor
      · intro h
        cases x <;> simp [Index.Spec.Row.of] at h
      · intro h; omega
    · rw [List.getElem?_append_right (by simp; omega)]
      by_cases h3 : i = p
      · subst h3
        simp only [List.length_replicate, Nat.sub_self, List.getElem?_cons_zero, Option.some.injEq, true_and]
        exact ⟨fun h => (of_injective h).symm, fun h => by rw [h]⟩
      · rw [List.getElem?_eq_none (by simp; omega)]
        simp [h3]

theorem rows_get {α : Type} : ∀ (h : List (Nat × Option α)) (rs : List (Index.Spec.Row α)), (h.Pairwise fun a b => a.1 < b.1) →
    (∀ e ∈ h, rs.length ≤ e.1) → ∀ (i : Nat) x,
    (h.foldl (fun rs e => Index.Spec.appendRow rs e.1 e.2) rs)[i]? = some (Index.Spec.Row.of x) ↔
      (i, x) ∈ h ∨ rs[i]? = some (Index.Spec.Row.of x)
  | [], rs, _, _, i, x => by simp
  | e :: h, rs, hp, hl, i, x => by
    rw [List.pairwise_cons] at hp
    have he := hl e List.mem_cons_self
    rw [List.foldl_cons, rows_get h _ hp.2 ?_ i x, appendRow_get rs e.1 e.2 he, List.mem_cons, Prod.ext_iff]
    · simp only [or_assoc, or_left_comm]
    · intro e' he'
      have := hp.1 e' he'
      rw [Index.Spec.appendRow, if_neg (by omega)]
      simp
      omega

theorem mem_history {α : Type} {proj : Data → Option α} {values : List (Nat × Data)} {i : Nat} {x : Option α} :
    (i, x) ∈ history proj values ↔ ∃ v, (i, v) ∈ values ∧ proj v = x := by
  rw [history, List.mem_map]
  constructor
  · rintro ⟨⟨j, v⟩, hv, he⟩
    simp only [Prod.mk.injEq] at he
    exact ⟨v, he.1 ▸ hv, he.2⟩
  · rintro ⟨v, hv, rfl⟩
    exact ⟨(i, v), hv, rfl⟩

/-- A history with increasing positions has its values in the rows of their positions. -/
theorem rows_history {α : Type} {proj : Data → Option α} {values : List (Nat × Data)} (h : Increasing values) (i : Nat) (x : Option α) :
    (Index.Spec.rows (history proj values))[i]? = some (Index.Spec.Row.of x) ↔ ∃ v, (i, v) ∈ values ∧ proj v = x := by
  rw [Index.Spec.rows, rows_get _ _ (by rw [history, List.pairwise_map]; exact h) (by simp), mem_history]
  simp

/-- Exact answers. -/
theorem has_answer {α : Type} {proj : Data → Option α} {values : List (Nat × Data)} (h : Increasing values) (f : α → Bool) (b : Bool)
    (i : Nat) : Has (Index.Spec.answer (Index.Spec.rows (history proj values)) f b) i ↔
      ∃ v, (i, v) ∈ values ∧ (match proj v with | none => b | some y => f y) = true := by
  rw [Has, Index.Spec.answer, List.getElem?_map, Option.map_eq_some_iff]
  constructor
  · rintro ⟨r, hr, he⟩
    cases r with
    | absent => cases he
    | null =>
      obtain ⟨v, hv, hp⟩ := (rows_history h i none).1 hr
      exact ⟨v, hv, by rw [hp]; exact he⟩
    | value y =>
      obtain ⟨v, hv, hp⟩ := (rows_history h i (some y)).1 hr
      exact ⟨v, hv, by rw [hp]; exact he⟩
  · rintro ⟨v, hv, he⟩
    refine ⟨Index.Spec.Row.of (proj v), (rows_history h i _).2 ⟨v, hv, rfl⟩, ?_⟩
    cases hp : proj v <;> rw [hp] at he <;> exact he

/-! ### The indexes are complete and exact -/

/-- The index answers with exactly the values that satisfy the comparison. -/
def ExactAnswer (R : Regex) (k : Kind) (values : List (Nat × Data)) (op : RelOp) (d : Data) : Prop :=
  ∃ ids, indexAnswer k values op d = some ids ∧ ∀ i, Has ids i ↔ ∃ v, (i, v) ∈ values ∧ Data.evaluate R v op d = true

theorem exact_of {α : Type} {R : Regex} {k : Kind} {values : List (Nat × Data)} {op : RelOp} {d : Data} (proj : Data → Option α)
    (h : Increasing values) (f : α → Bool) (hf : ∀ i v, (i, v) ∈ values → Fits k v) (hnull : NullsAgree R values op d)
    (hnone : proj .none = none)
    (hproj : ∀ v, Fits k v → v ≠ .none → ∃ y, proj v = some y ∧ f y = Data.evaluate R v op d)
    (ha : indexAnswer k values op d = some (Index.Spec.answer (Index.Spec.rows (history proj values)) f (decide (op = .notEqual)))) :
    ExactAnswer R k values op d := by
  refine ⟨_, ha, fun i => ?_⟩
  rw [has_answer h]
  have key : ∀ v, (i, v) ∈ values → (match proj v with | none => decide (op = .notEqual) | some y => f y) = Data.evaluate R v op d := by
    intro v hv
    by_cases hn : v = .none
    · subst hn
      rw [hnone, hnull i hv]
    · obtain ⟨y, hy, he⟩ := hproj v (hf i v hv) hn
      rw [hy]
      exact he
  constructor
  · rintro ⟨v, hv, he⟩; exact ⟨v, hv, by rw [← key v hv]; exact he⟩
  · rintro ⟨v, hv, he⟩; exact ⟨v, hv, by rw [key v hv]; exact he⟩

theorem askIndex_ok {σ α ρ : Type} {I : Impl σ α ρ} {v : ValueIndex σ} {op : RelOp} {x : ρ} {r : Index.Bm}
    {o : Option (ValueIndex σ)} (ho : o = some v) (h : v.lookup I op (.val x) = .ok r) : askIndex I o op x = some r := by
  subst ho
  simp only [askIndex, h]

theorem isSome_compareInt {op : RelOp} (h : Order op) : (Index.Spec.compareInt op 0 0).isSome := by
  rcases h with rfl | rfl | rfl | rfl | rfl | rfl <;> rfl

theorem compare_int (R : Regex) {op : RelOp} (h : Order op) (x y : Int) :
    ((Index.Spec.compareInt op x y == some true) = Data.evaluate R (.int x) op (.int y)) ∧
    ((Index.Spec.compareInt op x y == some true) = Data.evaluate R (.duration x) op (.duration y)) ∧
    ((Index.Spec.compareInt op x y == some true) = Data.evaluate R (.time x) op (.time y)) := by
  rcases h with rfl | rfl | rfl | rfl | rfl | rfl <;>
    simp [Index.Spec.compareInt, Data.evaluate, evalStringAndPattern, Data.eq, Data.lt, Data.cmp, intCmp, bne] <;>
    (first | (rw [Bool.eq_iff_iff]; simp; try omega) | skip)

theorem compare_count (R : Regex) {op : RelOp} (h : Order op) (x y : Nat) :
    (Index.Spec.compareInt op x y == some true) = Data.evaluate R (.count x) op (.count y) := by
  rcases h with rfl | rfl | rfl | rfl | rfl | rfl <;>
    simp [Index.Spec.compareInt, Data.evaluate, evalStringAndPattern, Data.eq, Data.lt, Data.cmp, natCmp, bne] <;>
    (first | (rw [Bool.eq_iff_iff]; simp; try omega) | skip)

theorem isInfix_substring (q : Str) : ∀ (v : Str), isInfix q v = Index.Spec.substring q v
  | [] => by
    rw [isInfix, Index.Spec.substring]
    cases q <;> rfl
  | b :: v => by
    rw [isInfix, isInfix_substring q v, Index.Spec.substring, Index.Spec.substring, List.length_cons]
    rw [List.range_succ_eq_map (n := v.length + 1)]
    simp [List.any_map, Function.comp_def]

/-- A column of whole numbers, truth values, strings, addresses or subnets. -/
theorem exact_index (R : Regex) (k : Kind) (values : List (Nat × Data)) (op : RelOp) (d : Data) (h : Increasing values)
    (hk : k ≠ .duration ∧ k ≠ .time) (hf : ∀ i v, (i, v) ∈ values → Fits k v) (ha : Asks k op d) (hnull : NullsAgree R values op d) :
    ExactAnswer R k values op d := by
  have hbase := Index.C09_default_base
  cases k with
  | duration => exact absurd rfl hk.1
  | time => exact absurd rfl hk.2
  | bool =>
    cases d <;> try exact (False.elim ha)
    rename_i x
    obtain ⟨w, h1, h2, h3⟩ := Index.C11_bool (history asBool values) x
    rcases ha with rfl | rfl
    · refine exact_of asBool h (fun y => y == x) hf hnull rfl ?_ (askIndex_ok h1 h2)
      intro v hv hn
      cases v <;> simp [Fits] at hv hn
      exact ⟨_, rfl, by simp [Data.evaluate, evalStringAndPattern, Data.eq]⟩
    · refine exact_of asBool h (fun y => y != x) hf hnull rfl ?_ (askIndex_ok h1 h3)
      intro v hv hn
      cases v <;> simp [Fits] at hv hn
      exact ⟨_, rfl, by simp [Data.evaluate, evalStringAndPattern, Data.eq, bne]⟩
  | integer =>
    cases d <;> try exact (False.elim ha)
    rename_i x
    obtain ⟨w, h1, h2, _⟩ := Index.C11_integer (uniform 8 22) hbase.1 hbase.2 (history asInt values) (by
      intro i y hy
      obtain ⟨v, hv, he⟩ := mem_history.1 hy
      have := hf i v hv
      cases v <;> simp [asInt] at he
      subst he; exact this)
    refine exact_of asInt h _ hf hnull rfl ?_ (askIndex_ok h1 (h2 op x (isSome_compareInt ha.1) ha.2))
    intro v hv hn
    cases v <;> simp [Fits] at hv hn
    exact ⟨_, rfl, (compare_int R ha.1 _ _).1⟩
  | count =>
    cases d <;> try exact (False.elim ha)
    rename_i x
    obtain ⟨w, h1, h2, _⟩ := Index.C11_count (uniform 8 22) hbase.1 hbase.2 (history asCount values) (by
      intro i y hy
      obtain ⟨v, hv, he⟩ := mem_history.1 hy
      have := hf i v hv
      cases v <;> simp [asCount] at he
      subst he; exact this)
    refine exact_of asCount h _ hf hnull rfl ?_ (askIndex_ok h1 (h2 op x (isSome_compareInt ha.1) ha.2))
    intro v hv hn
    cases v <;> simp [Fits] at hv hn
    exact ⟨_, rfl, compare_count R ha.1 _ _⟩
  | string =>
    cases d <;> try exact (False.elim ha)
    rename_i x
    obtain ⟨hop, hx⟩ := ha
    obtain ⟨w, h1, h2, _⟩ := Index.StringIndex.C13_string_partial 1024 (by decide) (history asString values) (by
      intro i y hy
      obtain ⟨v, hv, he⟩ := mem_history.1 hy
      have := hf i v hv
      cases v <;> simp [asString] at he
      subst he; exact this)
    refine exact_of asString h _ hf hnull rfl ?_ (askIndex_ok h1 (h2 op x (by rcases hop with rfl | rfl | rfl | rfl <;> rfl) hx.1 hx.2))
    intro v hv hn
    cases v <;> simp [Fits] at hv hn
    refine ⟨_, rfl, ?_⟩
    rcases hop with rfl | rfl | rfl | rfl <;>
      simp [Index.Spec.compareString, Data.evaluate, evalStringAndPattern, Data.eq, evalIn, isInfix_substring, bne]
  | address =>
    cases d <;> try exact (False.elim ha)
    · rename_i x
      obtain ⟨w, h1, h2, h3, _⟩ := Index.C14_address_partial (history asAddress values)
      rcases ha with rfl | rfl
      · refine exact_of asAddress h _ hf hnull rfl ?_ (askIndex_ok h1 (h2 x))
        intro v hv hn
        cases v <;> simp [Fits] at hv hn
        exact ⟨_, rfl, by simp [Data.evaluate, evalStringAndPattern, Data.eq]; rfl⟩
      · refine exact_of asAddress h _ hf hnull rfl ?_ (askIndex_ok h1 (h3 x))
        intro v hv hn
        cases v <;> simp [Fits] at hv hn
        exact ⟨_, rfl, by simp [Data.evaluate, evalStringAndPattern, Data.eq]; rfl⟩
    · rename_i x
      obtain ⟨w, h1, _, _, h2, h3, _⟩ := Index.C14_address_partial (history asAddress values)
      obtain ⟨hop, hx, hl⟩ := ha
      rcases hop with rfl | rfl
      · refine exact_of asAddress h _ hf hnull rfl ?_ (askIndex_ok h1 (h2 x hx hl))
        intro v hv hn
        cases v <;> simp [Fits] at hv hn
        exact ⟨_, rfl, by simp [Data.evaluate, evalIn]⟩
      · refine exact_of asAddress h _ hf hnull rfl ?_ (askIndex_ok h1 (h3 x hx hl))
        intro v hv hn
        cases v <;> simp [Fits] at hv hn
        exact ⟨_, rfl, by simp [Data.evaluate, evalIn]⟩
  | subnet =>
    cases d <;> try exact (False.elim ha)
    rename_i x
    obtain ⟨w, h1, h2, h3, _⟩ := Index.C14_subnet_partial (history asSubnet values) (by
      intro i y hy
      obtain ⟨v, hv, he⟩ := mem_history.1 hy
      have := hf i v hv
      cases v <;> simp [asSubnet] at he
      subst he; exact this)
    rcases ha with ⟨rfl | rfl, hx⟩
    · refine exact_of asSubnet h _ hf hnull rfl ?_ (askIndex_ok h1 (h2 x hx))
      intro v hv hn
      cases v <;> simp [Fits] at hv hn
      exact ⟨_, rfl, by simp [Data.evaluate, evalStringAndPattern, Data.eq]; rfl⟩
    · refine exact_of asSubnet h _ hf hnull rfl ?_ (askIndex_ok h1 (h3 x hx))
      intro v hv hn
      cases v <;> simp [Fits] at hv hn
      exact ⟨_, rfl, by simp [Data.evaluate, evalStringAndPattern, Data.eq]; rfl⟩

/-- A column of times or durations: nothing is lost, and only values are found. -/
theorem time_index (R : Regex) (k : Kind) (values : List (Nat × Data)) (op : RelOp) (d : Data) (h : Increasing values)
    (hk : k = .duration ∨ k = .time) (hf : ∀ i v, (i, v) ∈ values → Fits k v) (ha : Asks k op d) (hnull : NullsAgree R values op d) :
    ∃ ids, indexAnswer k values op d = some ids ∧ (∀ i v, (i, v) ∈ values → Data.evaluate R v op d = true → Has ids i) ∧
      ∀ i, Has ids i → ∃ v, (i, v) ∈ values := by
  have hbase := Index.C09_default_base
  have general : ∀ (proj : Data → Option Int) (x : Int), proj .none = none → (Order op ∧ op ≠ .notEqual ∧ 0 ≤ x ∧ x < 2 ^ 63) →
      (∀ i v, (i, v) ∈ values → v ≠ .none → ∃ y, proj v = some y ∧ 0 ≤ y ∧ y < 2 ^ 63 ∧
        (Data.evaluate R v op d = true → Index.Spec.compareInt op y x = some true)) →
      ∃ ids, askIndex (Index.Arithmetic.impl Index.Numeric.time)
        (Index.Arithmetic.index (uniform 8 22) (history proj values) Index.Numeric.time) op x = some ids ∧
      (∀ i v, (i, v) ∈ values → Data.evaluate R v op d = true → Has ids i) ∧ ∀ i, Has ids i → ∃ v, (i, v) ∈ values := by
    intro proj x hp ⟨ho, hne, hx1, hx2⟩ hfit
    obtain ⟨w, r, h1, h2, h3, h4, h5⟩ := Index.C11_time_partial (uniform 8 22) hbase.1 hbase.2 false (history proj values) (by
      intro i y hy
      obtain ⟨v, hv, he⟩ := mem_history.1 hy
      have hn : v ≠ .none := by rintro rfl; rw [hp] at he; cases he
      obtain ⟨z, hz, hz1, hz2, _⟩ := hfit i v hv hn
      rw [he, Option.some.injEq] at hz
      subst hz
      refine ⟨by omega, hz2, by simp; omega⟩) op (isSome_compareInt ho) hne x ⟨by omega, hx2, by simp; omega⟩
    refine ⟨r, askIndex_ok h1 h2, ?_, ?_⟩
    · intro i v hv he
      have hn : v ≠ .none := by
        rintro rfl
        rw [hnull i hv] at he
        exact hne (by simpa using he)
      obtain ⟨y, hy, _, _, hc⟩ := hfit i v hv hn
      exact h4 i y ((rows_history h i (some y)).2 ⟨v, hv, hy⟩) (hc he)
    · intro i hi
      have hlt : i < r.length := by
        by_cases hlt : i < r.length
        · exact hlt
        · rw [Has, List.getElem?_eq_none (by omega)] at hi; cases hi
      rw [h3] at hlt
      cases hr : (Index.Spec.rows (history proj values))[i]? with
      | none => rw [List.getElem?_eq_none_iff] at hr; omega
      | some row =>
        cases row with
        | absent => rw [Has, h5 i (.inr hr)] at hi; cases hi
        | null => obtain ⟨v, hv, _⟩ := (rows_history h i none).1 hr; exact ⟨v, hv⟩
        | value y => obtain ⟨v, hv, _⟩ := (rows_history h i (some y)).1 hr; exact ⟨v, hv⟩
  rcases hk with rfl | rfl
  · cases d <;> try exact (False.elim ha)
    rename_i x
    refine general asDuration x rfl ha ?_
    intro i v hv hn
    have := hf i v hv
    cases v <;> simp [Fits] at this hn
    refine ⟨_, rfl, this.1, this.2, fun he => ?_⟩
    have := (compare_int R ha.1 _ _).2.1.trans he
    simpa using this
  · cases d <;> try exact (False.elim ha)
    rename_i x
    refine general asTime x rfl ha ?_
    intro i v hv hn
    have := hf i v hv
    cases v <;> simp [Fits] at this hn
    refine ⟨_, rfl, this.1, this.2, fun he => ?_⟩
    have := (compare_int R ha.1 _ _).2.2.trans he
    simpa using this

end Verif.Partition
