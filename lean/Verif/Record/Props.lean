import Verif.Record.MakeLemmas
import Verif.Types.MergeProps

/-! # C51: Flattening, merging and building records

`Spec.leaves` lists path and value of everything in a record that is not itself a record, and `Spec.valueAt` finds what
is at a path. All functions have a bound of 100 on the depth of the recursion. It is decremented for every nested
record, also for those side by side, and the theorems hold for records with less than 100 records within them. -/

namespace Verif.Record
open Spec
open Types (Ty Fields Meta)

variable {α τ : Type}

/-- {a: 1, b: {c: null, d: {e: [2]}}, f: {}} -/
def sample : R Nat :=
  .cons [97] (.scalar 1) (.cons [98] (.record (.cons [99] .null (.cons [100] (.record
    (.cons [101] (.list (.cons (.scalar 2) .nil)) .nil)) .nil))) (.cons [102] (.record .nil) .nil))

/-- {b: {c: 3, d: 4}, g: {h: 5}, f: null} -/
def other : R Nat :=
  .cons [98] (.record (.cons [99] (.scalar 3) (.cons [100] (.scalar 4) .nil)))
    (.cons [103] (.record (.cons [104] (.scalar 5) .nil)) (.cons [102] .null .nil))

theorem unique_cons' {k : Name} {d : D α} {r : R α} (h1 : UniqueKeys r) (h2 : k ∉ r.toList.map (·.1)) (h3 : isRec d = false) :
    UniqueKeys (.cons k d r) := .cons h1 h2 (by (rintro s rfl; simp [isRec] at h3))

theorem unique_rec {k : Name} {s r : R α} (h1 : UniqueKeys r) (h2 : k ∉ r.toList.map (·.1)) (h3 : UniqueKeys s) :
    UniqueKeys (.cons k (.record s) r) := .cons h1 h2 (by (rintro s' ⟨⟩; exact h3))

theorem sample_unique : UniqueKeys sample :=
  unique_cons' (unique_rec (unique_rec .nil (by simp [R.toList]) .nil) (by simp [R.toList])
    (unique_cons' (unique_rec .nil (by simp [R.toList]) (unique_cons' .nil (by simp [R.toList]) rfl)) (by simp [R.toList]) rfl))
    (by simp [R.toList]) rfl

theorem other_unique : UniqueKeys other :=
  unique_rec (unique_rec (unique_cons' .nil (by simp [R.toList]) rfl) (by simp [R.toList])
    (unique_cons' .nil (by simp [R.toList]) rfl)) (by simp [R.toList])
    (unique_cons' (unique_cons' .nil (by simp [R.toList]) rfl) (by simp [R.toList]) rfl)

/-! ### flatten -/

/-- C51, flatten: if the dotted paths of the leaves are distinct, then `flatten` gives them with their values, in order.
    Missing: records with 100 or more records within them. -/
theorem C51_flatten_partial (r : R α) (hr : records r < 100) (hd : ((leaves r).map fun x => dotted x.1).Nodup) :
    flatten r = (leaves r).map fun x => (dotted x.1, x.2) := by
  rw [flatten, flattenLoop_eq r maxRecursion [] hr (by rw [maxRecursion]; omega),
    emplaceAll_nodup _ _ (by rw [List.nil_append, List.map_map]; exact hd)]
  rfl

/-- C51, flatten: in any case it gives, for every dotted path of a leaf, the first value. -/
theorem C51_flatten_first_partial (r : R α) (hr : records r < 100) (key : Name) :
    get key (flatten r) = ((leaves r).find? fun x => dotted x.1 = key).map (·.2) := by
  rw [flatten, flattenLoop_eq r maxRecursion [] hr (by rw [maxRecursion]; omega), get_emplaceAll, get, Option.none_or]
  have : ∀ l : List (List Name × D α), get key (l.map keyed) = (l.find? fun x => dotted x.1 = key).map (·.2) := by
    intro l
    induction l with
    | nil => rfl
    | cons x l ih =>
      rw [List.map_cons, keyed, get]
      by_cases h : dotted x.1 = key
      · rw [if_pos h, List.find?_cons_of_pos (by simpa using h)]; rfl
      · rw [if_neg h, List.find?_cons_of_neg (by simpa using h)]; exact ih
  exact this (leaves r)

example : records sample < 100 ∧ ((leaves sample).map fun x => dotted x.1).Nodup ∧
    flatten sample = [([97], .scalar 1), ([98, 46, 99], .null),
      ([98, 46, 100, 46, 101], .list (.cons (.scalar 2) .nil))] := by decide +kernel

/-- A record of records {k0: {x: 1}, k1: {x: 1}, ...}. -/
def wide : Nat → R Nat
  | 0 => .nil
  | n + 1 => .cons [(n : Nat).toUInt8] (.record (.cons [120] (.scalar 1) .nil)) (wide n)

/-- C51 fails for a record with 100 records side by side, none of which contains a record: the leaf of the last is
    lost. -/
theorem C51_flatten_refuted : ∃ (r : R Nat) (p : List Name) (d : D Nat), (p, d) ∈ leaves r ∧ p.length = 2 ∧
    ((leaves r).map fun x => dotted x.1).Nodup ∧ get (dotted p) (flatten r) = none := by
  refine ⟨wide 100, [[0], [120]], .scalar 1, ?_⟩
  decide +kernel

/-- C51, flatten with a type: it fails if a record within the record does not have a record type, and otherwise gives the
    same as without a type. -/
theorem C51_flatten_typed_partial (r : R α) (fs : Fields τ) (hr : records r < 100) :
    (Fits r fs → flattenTyped r fs = some (flatten r)) ∧ (¬ Fits r fs → flattenTyped r fs = none) :=
  ⟨fun h => flattenTypedLoop_fits r fs h _ _ hr (by rw [maxRecursion]; omega),
   fun h => flattenTypedLoop_none r fs _ _ hr (by rw [maxRecursion]; omega) h⟩

/-- C51, flatten of data with a type -/
theorem C51_flatten_data_partial (r : R α) (m : Meta) (fs : Fields τ) (hr : records r < 99) :
    (Fits r fs → flattenData (.record r) (.record m fs) = some (flatten r)) ∧
    (¬ Fits r fs → flattenData (.record r) (.record m fs) = none) := by
  have hd : dec maxRecursion = 99 := by rw [dec_eq (by decide) (by decide)]; rfl
  refine ⟨fun h => ?_, fun h => ?_⟩
  · rw [flattenData, hd, flattenTypedLoop_fits r fs h _ _ hr (by omega), flatten, flattenLoop_eq r _ _ hr (by omega),
      flattenLoop_eq r _ _ (by rw [maxRecursion]; omega) (by rw [maxRecursion]; omega)]
  · rw [flattenData, hd, flattenTypedLoop_none r fs _ _ hr (by omega) h]

example : Fits other (Fields.cons [103] (.record {} .nil) (.cons [98] (.record {} .nil) .nil) : Fields Nat) :=
  .nested rfl (.other rfl (.other rfl .nil)) (.nested rfl (.other rfl .nil) (.other rfl .nil))

/-! ### merge -/

/-- C51, merge: a value of `src` takes the place of what `dst` has there; lists are appended to it if so desired. -/
theorem C51_merge_src_partial (lists : Bool) (src dst : R α) (hu : UniqueKeys src) (hr : records src < 100)
    (p : List Name) (d : D α) (h : valueAt p src = some d) (hd : isRec d = false) :
    valueAt p (merge lists src dst) = some (combined lists (valueAt p dst) d) := by
  rw [valueAt, merge, toList_ofList]
  exact mergeLoop_src lists p src _ _ d hu hr (by rw [maxRecursion]; omega) h hd

/-- C51, merge: what is in `dst` at a path where `src` has nothing stays. -/
theorem C51_merge_dst_partial (lists : Bool) (src dst : R α) (hu : UniqueKeys src) (hr : records src < 100)
    (p : List Name) (h : ¬ Defines src p) : valueAt p (merge lists src dst) = valueAt p dst := by
  rw [valueAt, merge, toList_ofList]
  exact mergeLoop_dst lists p src _ _ hu hr (by rw [maxRecursion]; omega) h

/-- C51, merge: every value of the result comes from `src`, or from `dst` where `src` has nothing. -/
theorem C51_merge_only_partial (lists : Bool) (src dst : R α) (hu : UniqueKeys src) (hr : records src < 100)
    (p : List Name) (d : D α) (h : valueAt p (merge lists src dst) = some d) (hd : isRec d = false) :
    (∃ d', valueAt p src = some d' ∧ isRec d' = false ∧ d = combined lists (valueAt p dst) d') ∨
    (¬ Defines src p ∧ valueAt p dst = some d) := by
  by_cases hp : Defines src p
  · have h2 := h
    rw [valueAt, merge, toList_ofList] at h
    obtain ⟨d', h1, h3⟩ := mergeLoop_only lists p src maxRecursion _ d hu hr (by rw [maxRecursion]; omega) hp h hd
    refine .inl ⟨d', h1, h3, ?_⟩
    rw [C51_merge_src_partial lists src dst hu hr p d' h1 h3, Option.some.injEq] at h2
    exact h2.symm
  · refine .inr ⟨hp, ?_⟩
    rw [← C51_merge_dst_partial lists src dst hu hr p hp]
    exact h

example : UniqueKeys other ∧ records other < 100 ∧ valueAt [[98], [99]] other = some (.scalar 3) ∧
    (leaves (merge false other sample)) = [([[97]], .scalar 1), ([[98], [99]], .scalar 3), ([[98], [100]], .scalar 4),
      ([[102]], .null), ([[103], [104]], .scalar 5)] :=
  ⟨other_unique, by decide, by decide, by decide +kernel⟩

example : leaves (merge true (.cons [97] (.list (.cons (.scalar 7) .nil)) .nil) sample) =
    [([[97]], .list (.cons (.scalar 1) (.cons (.scalar 7) .nil))), ([[98], [99]], .null),
      ([[98], [100], [101]], .list (.cons (.scalar 2) .nil))] := by decide +kernel

/-- C51 fails for merging a record with 100 records side by side: the value of the last is not taken. -/
theorem C51_merge_refuted : ∃ (src : R Nat) (p : List Name) (d : D Nat), valueAt p src = some d ∧ isRec d = false ∧
    p.length = 2 ∧ valueAt p (merge false src .nil) = none := by
  refine ⟨wide 100, [[0], [120]], .scalar 1, ?_⟩
  decide +kernel

/-! ### make_record -/

/-- C51, make_record: with a value for every leaf of the type, the values are at the paths of the leaves, in order. -/
theorem C51_make_record_partial (fs : Fields τ) (xs : List (D α)) (hu : Types.Spec.UniqueNames fs) (he : NoEmptyRecords fs)
    (hr : recordTypes fs < 100) (hl : (Types.Spec.columns fs).length ≤ xs.length) :
    ∃ r, makeRecord fs xs = some r ∧ r.toList.map (·.1) = fs.toList.map (·.1) ∧
      ∀ (i : Nat) p t, (Types.Spec.columns fs)[i]? = some (p, t) → valueAt p r = xs[i]? := by
  rw [Types.columns_eq] at hl ⊢
  obtain ⟨es, h1, h2, h3⟩ := makeLoop_ok fs hu he maxRecursion [] xs hr (by rw [maxRecursion]; omega) (by simp) hl
  refine ⟨.ofList es, by rw [makeRecord, h1]; rfl, by rw [toList_ofList]; exact h2, ?_⟩
  intro i p t hi
  rw [valueAt, toList_ofList]
  exact h3 i p t hi

/-- C51, make_record: it fails if there are less values than leaves. -/
theorem C51_make_record_fails (fs : Fields τ) (xs : List (D α)) (hl : xs.length < (Types.Spec.columns fs).length) :
    makeRecord fs xs = none := by
  rw [Types.columns_eq] at hl
  rw [makeRecord, Option.map_eq_none_iff]
  cases h : makeLoop maxRecursion [] fs xs with
  | none => rfl
  | some r =>
    have := makeLoop_rest fs _ _ _ _ h
    omega

example : Types.Spec.UniqueNames Types.mergeLeft ∧ NoEmptyRecords Types.mergeLeft ∧ recordTypes Types.mergeLeft < 100 ∧
    makeRecord Types.mergeLeft [.scalar 1, .scalar 2] =
      some (.cons [97] (.scalar 1) (.cons [114] (.record (.cons [98] (.scalar 2) .nil)) .nil)) :=
  ⟨Types.mergeLeft_unique, by simp [Types.mergeLeft, NoEmptyRecords], by decide, by decide +kernel⟩

/-- C51 fails for a type that ends in an empty record: there is a value for every leaf, but no record. -/
theorem C51_make_record_refuted : ∃ (fs : Fields Nat) (xs : List (D Nat)), (Types.Spec.columns fs).length = xs.length ∧
    makeRecord fs xs = none :=
  ⟨.cons [97] (.leaf 1) (.cons [98] (.record {} .nil) .nil), [.scalar 1], by decide, by decide +kernel⟩

end Verif.Record
