import Verif.Types.Spec

/-! Lemmas on record types. -/

namespace Verif.Types
open Spec

variable {τ : Type}

/-! ### Fields -/

theorem toList_ofList (l : List (Name × Ty τ)) : (Fields.ofList l).toList = l := by
  induction l with
  | nil => rfl
  | cons f l ih => rw [Fields.ofList, Fields.toList, ih]

theorem ofList_toList : ∀ fs : Fields τ, Fields.ofList fs.toList = fs
  | .nil => rfl
  | .cons n t rest => by rw [Fields.toList, Fields.ofList, ofList_toList rest]

theorem toList_append : ∀ fs gs : Fields τ, (fs.append gs).toList = fs.toList ++ gs.toList
  | .nil, gs => rfl
  | .cons n t rest, gs => by rw [Fields.append, Fields.toList, Fields.toList, toList_append rest gs, List.cons_append]

theorem toList_prefixAll (n : Name) : ∀ fs : Fields τ,
    (prefixAll n fs).toList = fs.toList.map fun f => (n ++ 46 :: f.1, f.2)
  | .nil => rfl
  | .cons m t rest => by rw [prefixAll, Fields.toList, Fields.toList, toList_prefixAll n rest, List.map_cons]

/-! ### Keys -/

theorem foldl_dotted (acc : Name) (a b : Name) (ns : List Name) :
    ns.foldl (fun acc m => acc ++ [46] ++ m) (a ++ b) = a ++ ns.foldl (fun acc m => acc ++ [46] ++ m) b := by
  induction ns generalizing b with
  | nil => rfl
  | cons m ns ih => rw [List.foldl_cons, List.foldl_cons, ← ih]; simp [List.append_assoc]

theorem dotted_cons (n m : Name) (ns : List Name) : dotted (n :: m :: ns) = n ++ 46 :: dotted (m :: ns) := by
  rw [dotted, List.foldl_cons, List.append_assoc, foldl_dotted []]
  congr 1
  rw [show [46] ++ m = ([46] : Name) ++ m from rfl, foldl_dotted []]
  rfl

theorem join_eq : ∀ ns : List Name, join ns = dotted ns
  | [] => rfl
  | [n] => rfl
  | n :: m :: ns => by rw [join, dotted_cons, join_eq (m :: ns)]; simp

/-! ### Leaves -/

theorem leaves_shift : ∀ (fs : Fields τ) (i : Nat), leaves (i + 1) fs =
    (leaves i fs).map fun l => ⟨(l.offset.headD 0 + 1) :: l.offset.tail, l.path, l.type⟩
  | .nil, i => rfl
  | .cons n t rest, i => by
    rw [leaves, leaves, List.map_append, ← leaves_shift rest (i + 1), List.map_map]
    congr 1

theorem leaves_path_ne {fs : Fields τ} {i : Nat} {l : Leaf τ} (h : l ∈ leaves i fs) : l.path ≠ [] ∧ l.offset ≠ [] := by
  match fs with
  | .nil => rw [leaves] at h; cases h
  | .cons n t rest =>
    rw [leaves, List.mem_append] at h
    rcases h with h | h
    · obtain ⟨l', _, rfl⟩ := List.mem_map.1 h
      exact ⟨List.cons_ne_nil _ _, List.cons_ne_nil _ _⟩
    · exact leaves_path_ne h

mutual
theorem leavesOf_type {t : Ty τ} {l : Leaf τ} (h : l ∈ leavesOf t) : l.type.isRecord = false := by
  match t with
  | .leaf x => rw [leavesOf] at h; simp at h; subst h; rfl
  | .alias x => rw [leavesOf] at h; simp at h; subst h; rfl
  | .record m fs => rw [leavesOf] at h; exact leaves_type h

theorem leaves_type {fs : Fields τ} {i : Nat} {l : Leaf τ} (h : l ∈ leaves i fs) : l.type.isRecord = false := by
  match fs with
  | .nil => rw [leaves] at h; cases h
  | .cons n t rest =>
    rw [leaves, List.mem_append] at h
    rcases h with h | h
    · obtain ⟨l', hl, rfl⟩ := List.mem_map.1 h
      have := leavesOf_type hl
      exact this
    · exact leaves_type h
end

mutual
theorem leavesOf_length : ∀ t : Ty τ, (leavesOf t).length = flatSize t
  | .leaf _ => rfl
  | .alias _ => rfl
  | .record _ fs => by rw [leavesOf, flatSize, leaves_length fs 0]

theorem leaves_length : ∀ (fs : Fields τ) (i : Nat), (leaves i fs).length = flatSizes fs
  | .nil, _ => rfl
  | .cons n t rest, i => by
    rw [leaves, flatSizes, List.length_append, List.length_map, leavesOf_length t, leaves_length rest (i + 1)]
end

mutual
theorem leavesOf_ne {t : Ty τ} (h : NoEmpty t) : leavesOf t ≠ [] := by
  match t with
  | .leaf x => simp [leavesOf]
  | .alias x => simp [leavesOf]
  | .record m .nil => exact absurd rfl h.1
  | .record m (.cons n t rest) =>
    rw [leavesOf, leaves]
    have := leavesOf_ne h.2.1
    simp [this]
end

/-! ### Flattening -/

/-- What a leaf is named in the flat record. -/
def flatName (l : Leaf τ) : Name × Ty τ := (dotted l.path, l.type)

theorem flatName_under {fs : Fields τ} {i j : Nat} {n : Name} {l : Leaf τ} (h : l ∈ leaves i fs) :
    flatName (l.under j n) = (n ++ 46 :: (flatName l).1, (flatName l).2) := by
  have hp := (leaves_path_ne h).1
  cases hl : l.path with
  | nil => exact absurd hl hp
  | cons m ns => simp only [flatName, Leaf.under, hl, dotted_cons]

mutual
theorem flattenFields_toList : ∀ (fs : Fields τ) (i : Nat), (flattenFields fs).toList = (leaves i fs).map flatName
  | .nil, _ => rfl
  | .cons n t rest, i => by
    rw [flattenFields, leaves, toList_append, List.map_append, flattenFields_toList rest (i + 1),
      flattenField_toList n t i]

theorem flattenField_toList (n : Name) : ∀ (t : Ty τ) (i : Nat),
    (flattenField n t).toList = ((leavesOf t).map (Leaf.under i n)).map flatName
  | .leaf _, _ => rfl
  | .alias _, _ => rfl
  | .record m fs, i => by
    rw [flattenField, leavesOf, toList_prefixAll, flattenFields_toList fs 0, List.map_map, List.map_map]
    refine List.map_congr_left fun l hl => ?_
    rw [Function.comp, Function.comp, flatName_under hl]
end

theorem flattenFields_flat : ∀ fs : Fields τ, isFlat fs = true → flattenFields fs = fs
  | .nil, _ => rfl
  | .cons n t rest, h => by
    simp only [isFlat, Fields.toList, List.all_cons, Bool.and_eq_true] at h
    have ih := flattenFields_flat rest h.2
    rw [flattenFields, ih]
    cases t with
    | leaf t => rfl
    | alias t => rfl
    | record m fs => simp [Ty.isRecord] at h

/-! ### Offsets and column numbers -/

theorem get?_zero (n : Name) (t : Ty τ) (rest : Fields τ) : (Fields.cons n t rest).get? 0 = some (n, t) := rfl

theorem get?_succ (n : Name) (t : Ty τ) (rest : Fields τ) (x : Nat) :
    (Fields.cons n t rest).get? (x + 1) = rest.get? x := by
  rw [Fields.get?, Fields.get?, Fields.toList, List.getElem?_cons_succ]

theorem get?_nil (x : Nat) : (Fields.nil : Fields τ).get? x = none := rfl

/-- The number of a leaf within a type. -/
def indexIn (o : List Nat) : Ty τ → Option Nat
  | .record _ fs => flatIndexAt o fs
  | .leaf _ => if o = [] then some 0 else none
  | .alias _ => if o = [] then some 0 else none

theorem flatIndexAt_zero (o : List Nat) (n : Name) (t : Ty τ) (rest : Fields τ) :
    flatIndexAt (0 :: o) (.cons n t rest) = indexIn o t := by
  rw [flatIndexAt, get?_zero]
  cases o with
  | nil => cases t <;> simp [indexIn, flatIndexAt]
  | cons y o => cases t <;> simp [indexIn]

theorem flatIndexAt_succ (x : Nat) (o : List Nat) (n : Name) (t : Ty τ) (rest : Fields τ) :
    flatIndexAt ((x + 1) :: o) (.cons n t rest) = (flatIndexAt (x :: o) rest).map (flatSize t + ·) := by
  rw [flatIndexAt, flatIndexAt, get?_succ]
  cases h : rest.get? x with
  | none => rfl
  | some f =>
    obtain ⟨n', t'⟩ := f
    cases o with
    | nil => cases t' <;> simp [Fields.toList]
    | cons y o =>
      cases t' <;> simp [Fields.toList]
      congr 1
      funext k
      simp; omega

theorem flatIndexAt_nil (o : List Nat) : flatIndexAt o (Fields.nil : Fields τ) = none := by
  cases o with
  | nil => rfl
  | cons x o => rw [flatIndexAt, get?_nil]

mutual
theorem indexIn_iff : ∀ (t : Ty τ) (o : List Nat) (i : Nat), indexIn o t = some i ↔ ((leavesOf t)[i]?.map (·.offset)) = some o
  | .leaf x, o, i => by
    rw [indexIn, leavesOf]
    cases i with
    | zero => by_cases h : o = [] <;> simp [h, eq_comm]
    | succ i => by_cases h : o = [] <;> simp [h]
  | .alias x, o, i => by
    rw [indexIn, leavesOf]
    cases i with
    | zero => by_cases h : o = [] <;> simp [h, eq_comm]
    | succ i => by_cases h : o = [] <;> simp [h]
  | .record m fs, o, i => by rw [indexIn, leavesOf]; exact flatIndexAt_iff fs o i

theorem flatIndexAt_iff : ∀ (fs : Fields τ) (o : List Nat) (i : Nat),
    flatIndexAt o fs = some i ↔ ((leaves 0 fs)[i]?.map (·.offset)) = some o
  | .nil, o, i => by rw [flatIndexAt_nil, leaves]; simp
  | .cons n t rest, [], i => by
    rw [flatIndexAt]
    constructor
    · intro h; cases h
    · intro h
      cases hl : (leaves 0 (.cons n t rest))[i]? with
      | none => rw [hl] at h; cases h
      | some l =>
        rw [hl] at h; simp at h
        exact absurd h (leaves_path_ne (List.mem_of_getElem? hl)).2
  | .cons n t rest, 0 :: o, i => by
    rw [flatIndexAt_zero, indexIn_iff t o i, leaves, leaves_shift]
    by_cases hi : i < (leavesOf t).length
    · rw [List.getElem?_append_left (by simpa using hi), List.getElem?_map, List.getElem?_eq_getElem hi]
      simp [Leaf.under]
    · rw [List.getElem?_append_right (by simpa using hi), List.getElem?_eq_none (by omega), List.getElem?_map]
      cases (leaves 0 rest)[i - ((leavesOf t).map (Leaf.under 0 n)).length]? <;> simp
  | .cons n t rest, (x + 1) :: o, i => by
    rw [flatIndexAt_succ, leaves, leaves_shift]
    have ih := flatIndexAt_iff rest (x :: o)
    by_cases hi : i < (leavesOf t).length
    · rw [List.getElem?_append_left (by simpa using hi), List.getElem?_map, List.getElem?_eq_getElem hi]
      simp only [Option.map_some, Option.some.injEq, Leaf.under]
      constructor
      · intro h
        cases hf : flatIndexAt (x :: o) rest with
        | none => rw [hf] at h; cases h
        | some k => rw [hf] at h; simp at h; rw [leavesOf_length] at hi; omega
      · intro h; simp at h
    · rw [List.getElem?_append_right (by simpa using hi), List.getElem?_map, List.length_map]
      rw [leavesOf_length] at hi ⊢
      have ihi := ih (i - flatSize t)
      constructor
      · intro h
        cases hf : flatIndexAt (x :: o) rest with
        | none => rw [hf] at h; cases h
        | some k =>
          rw [hf] at h; simp at h
          have hk : k = i - flatSize t := by omega
          subst hk
          have := ihi.1 hf
          cases hl : (leaves 0 rest)[i - flatSize t]? with
          | none => rw [hl] at this; cases this
          | some l => rw [hl] at this; simp at this; simp [this]
      · intro h
        cases hl : (leaves 0 rest)[i - flatSize t]? with
        | none => rw [hl] at h; cases h
        | some l =>
          rw [hl] at h; simp at h
          have hne := (leaves_path_ne (List.mem_of_getElem? hl)).2
          cases ho : l.offset with
          | nil => exact absurd ho hne
          | cons y o' =>
            rw [ho] at h; simp at h
            rw [ihi.2 (by rw [hl]; simp [ho, h])]
            simp; omega
end

end Verif.Types
