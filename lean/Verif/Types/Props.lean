import Verif.Types.EachLemmas

/-! # C49: Flattening a record type preserves its columns

`Spec.leaves 0 fs` lists the leaves of a record type with fields `fs` from left to right, with the position
and the name of the field in each nested record. -/

namespace Verif.Types
open Spec

variable {τ : Type}

/-- a record with a nested record, an alias and two levels -/
def sample : Fields Nat :=
  .cons [120] (.record {} (.cons [97] (.leaf 1) (.cons [98] (.record {} (.cons [99] (.leaf 2) .nil)) .nil)))
    (.cons [121] (.alias (.leaf 3)) .nil)

/-- The fields of the flattened type are the leaves, in order, named by their dotted path. -/
theorem C49_flatten_leaves (m : Meta) (fs : Fields τ) :
    ∃ gs, flatten (.record m fs) = .record m gs ∧
      gs.toList = (leaves 0 fs).map fun l => (dotted l.path, l.type) :=
  ⟨_, rfl, flattenFields_toList fs 0⟩

/-- The flattened type has no nested records. -/
theorem C49_flat (fs : Fields τ) : isFlat (flattenFields fs) = true := by
  rw [isFlat, flattenFields_toList fs 0, List.all_map, List.all_eq_true]
  intro l hl
  simp [flatName, leaves_type hl]

/-- Flattening is idempotent. -/
theorem C49_idempotent (t : Ty τ) : flatten (flatten t) = flatten t := by
  cases t with
  | leaf t => rfl
  | alias t => rfl
  | record m fs => rw [flatten, flatten, flattenFields_flat _ (C49_flat fs)]

/-- `flat_size` is the number of leaves, and so the number of fields of the flattened type. -/
theorem C49_flat_size (fs : Fields τ) :
    flatSizes fs = (leaves 0 fs).length ∧ flatSizes fs = (flattenFields fs).toList.length := by
  rw [flattenFields_toList fs 0, List.length_map, leaves_length]
  exact ⟨rfl, rfl⟩

example : (flattenFields sample).toList.map (·.1) = [[120, 46, 97], [120, 46, 98, 46, 99], [121]] := by decide

/-- `flat_index_at` gives the column of a leaf's offset, and nothing for every other offset. -/
theorem C49_flat_index_at (fs : Fields τ) (o : List Nat) (i : Nat) :
    flatIndexAt o fs = some i ↔ ((leaves 0 fs)[i]?.map (·.offset)) = some o := flatIndexAt_iff fs o i

example : flatIndexAt [0, 1, 0] sample = some 1 := by decide
example : flatIndexAt [0, 1] sample = none := by decide

/-- `record_type::each` iterates over the leaves, with offset, key and type, unless a nested record has no
    fields. -/
theorem C49_each_partial (m : Meta) (fs : Fields τ) (h : NoEmptyIn fs) :
    ∃ st, Each.make m fs = some st ∧ ∀ n, flatSizes fs < n →
      st.run n = some ((leaves 0 fs).map fun l => (l.offset, dotted l.path, some l.type)) := by
  obtain ⟨st, h1, h2, h3⟩ := make_spec m fs h
  refine ⟨st, h1, fun n hn => ?_⟩
  rw [run_spec n st h2 (by rw [h3, leaves_length]; exact hn), h3]
  rfl

/-- `offset_from_index` gives the offset of the leaf in a column, and nothing behind the last column,
    unless a nested record has no fields. -/
theorem C49_offset_from_index_partial (m : Meta) (fs : Fields τ) (h : NoEmptyIn fs) (i : Nat) :
    offsetFromIndex m fs i = some ((leaves 0 fs)[i]?.map (·.offset)) := by
  obtain ⟨st, h1, h2, h3⟩ := make_spec m fs h
  obtain ⟨r, h4, h5⟩ := advance_spec i st h2
  rw [offsetFromIndex, h1, Option.bind_some, h4, Option.map_some, h5, h3]

/-- The two are inverse to each other. -/
theorem C49_inverse_partial (m : Meta) (fs : Fields τ) (h : NoEmptyIn fs) (o : List Nat) (i : Nat) :
    offsetFromIndex m fs i = some (some o) ↔ flatIndexAt o fs = some i := by
  rw [C49_offset_from_index_partial m fs h i, C49_flat_index_at, Option.some_inj]

example : NoEmptyIn sample := by simp [sample, NoEmptyIn, NoEmpty, Fields.toList]
example : offsetFromIndex {} sample 1 = some (some [0, 1, 0]) := by decide

/-- Iterating over a record type with an empty nested record is undefined behavior, although flattening and
    `flat_index_at` give such records no columns. -/
theorem C49_empty_record_refuted : ∃ fs : Fields Nat, Each.make {} fs = none ∧ offsetFromIndex {} fs 0 = none ∧
    (flattenFields fs).toList.map (·.1) = [[121]] ∧ flatIndexAt [1] fs = some 0 :=
  ⟨.cons [120] (.record {} .nil) (.cons [121] (.leaf 1) .nil), rfl, rfl, by decide, by decide⟩

mutual
/-- No field of a record is an alias of a record. -/
def Spec.NoRecordAlias : Ty τ → Prop
  | .record _ fs => NoRecordAliasIn fs
  | .alias t => t.isRecord = false
  | .leaf _ => True

@[inherit_doc NoRecordAlias] def Spec.NoRecordAliasIn : Fields τ → Prop
  | .nil => True
  | .cons _ t rest => NoRecordAlias t ∧ NoRecordAliasIn rest
end

theorem numLeaves_eq : ∀ fs : Fields τ, NoRecordAliasIn fs → numLeaves fs = flatSizes fs
  | .nil, _ => rfl
  | .cons _ (.record _ fs) rest, h => by
    rw [numLeaves, flatSizes, flatSize, numLeaves_eq fs h.1, numLeaves_eq rest h.2]
  | .cons _ (.leaf _) rest, h => by rw [numLeaves, flatSizes, flatSize, numLeaves_eq rest h.2] <;> simp
  | .cons _ (.alias (.leaf _)) rest, h => by rw [numLeaves, flatSizes, flatSize, numLeaves_eq rest h.2] <;> simp
  | .cons _ (.alias (.alias _)) rest, h => by rw [numLeaves, flatSizes, flatSize, numLeaves_eq rest h.2] <;> simp
  | .cons _ (.alias (.record _ fs)) rest, h => by simp [NoRecordAliasIn, NoRecordAlias, Ty.isRecord] at h

/-- `num_leaves` is the number of leaves if no field is an alias of a record. -/
theorem C49_num_leaves_partial (fs : Fields τ) (h : NoRecordAliasIn fs) : numLeaves fs = (leaves 0 fs).length := by
  rw [numLeaves_eq fs h, leaves_length]

example : NoRecordAliasIn sample := by simp [sample, NoRecordAliasIn, NoRecordAlias, Ty.isRecord]

/-- For a field that is an alias of a record, `num_leaves` is not the number of fields of the flattened
    type, contrary to its documentation. -/
theorem C49_num_leaves_refuted : ∃ fs : Fields Nat, numLeaves fs = 2 ∧ (flattenFields fs).toList.length = 1 :=
  ⟨.cons [120] (.alias (.record {} (.cons [97] (.leaf 1) (.cons [98] (.leaf 2) .nil)))) .nil, by decide, by decide⟩

end Verif.Types
