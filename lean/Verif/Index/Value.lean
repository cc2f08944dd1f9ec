import Verif.Index.Bits
import Verif.Data.Model

/-!
# The common part of all value indexes

Models /repo/libvast/src/value_index.cpp and /repo/libvast/vast/index/container_lookup.hpp. A
concrete index is an `Impl`: its `append_impl` and `lookup_impl`. `α` are the values of the indexed
type and `ρ` the non-null, non-list operands its `lookup_impl` accepts; values of another type make
`append_impl` return false and `lookup_impl` return a type clash and are left out.
-/

namespace Verif.Index

open Verif.Data (RelOp)

/-- Outcome of an operation: a value, a `caf::error`, or undefined behaviour. -/
inductive Res (α : Type) where
  | ok (x : α)
  | error
  | undefined
  deriving DecidableEq, Repr

/-- A concrete index. `append_impl` gets a value and its position; `lookup_impl` may ask the base
class for `offset()` and `mask()`, which are passed as arguments. -/
structure Impl (σ α ρ : Type) where
  append : σ → α → Nat → Res σ
  lookup : (offset : Nat) → (mask : Bm) → σ → RelOp → ρ → Res Bm

/-- The members of `value_index` and of its derived class. -/
structure ValueIndex (σ : Type) where
  mask : Bm
  nones : Bm
  impl : σ
  deriving Repr

/-- An operand: `nil`, a value, or a list of such (lists of lists are left out: looking up a list
inside a list is an unsupported operator). -/
inductive Operand (ρ : Type) where
  | nil
  | val (x : ρ)
  | list (xs : List (Option ρ))
  deriving Repr

namespace ValueIndex

variable {σ α ρ : Type}

/-- A fresh index. -/
def make (s : σ) : ValueIndex σ := ⟨[], [], s⟩

/-- value_index.cpp:87-89 `offset`. -/
def offset (v : ValueIndex σ) : Nat := max v.nones.length v.mask.length

/-- value_index.cpp:31-47 `append`; `none` is nil. -/
def append (I : Impl σ α ρ) (v : ValueIndex σ) (x : Option α) (pos : Nat) : Res (ValueIndex σ) :=
  if pos < v.offset then .error
  else match x with
    | none => .ok { v with nones := (v.nones.appendBits false (pos - v.nones.length)).appendBits true 1 }
    | some x =>
      match I.append v.impl x pos with
      | .ok s => .ok { v with impl := s, mask := (v.mask.appendBits false (pos - v.mask.length)).appendBits true 1 }
      | .error => .error
      | .undefined => .undefined

/-- value_index.cpp:52-61, the nil case of `lookup`. -/
def lookupNil (v : ValueIndex σ) (op : RelOp) : Res Bm :=
  match op with
  | .equal => .ok (v.nones.appendBits false (v.mask.length - v.nones.length))
  | .notEqual => .ok (v.nones.not.appendBits true (v.mask.length - v.nones.not.length))
  | _ => .error

/-- value_index.cpp:66-80, the end of `lookup` after `lookup_impl`. -/
def finish (v : ValueIndex σ) (op : RelOp) (result : Bm) : Bm :=
  let result := result.and v.mask
  let result := if op = .notEqual then result.or v.nones else result
  result.appendBits (decide (op = .notEqual)) (v.offset - result.length)

/-- value_index.cpp:62-80, `lookup` of a value that is neither nil nor a list. -/
def lookupVal (I : Impl σ α ρ) (v : ValueIndex σ) (op : RelOp) (x : ρ) : Res Bm :=
  match I.lookup v.offset v.mask v.impl op x with
  | .ok r => .ok (v.finish op r)
  | .error => .error
  | .undefined => .undefined

/-- `lookup` of an element of a list. -/
def lookupElement (I : Impl σ α ρ) (v : ValueIndex σ) (x : Option ρ) : Res Bm :=
  match x with
  | none => v.lookupNil .equal
  | some x => v.lookupVal I .equal x

/-- container_lookup.hpp:33-41, the loop for `in`. The short circuit if all bits are set does not
change the result but does skip the elements after it. -/
def inLoop (I : Impl σ α ρ) (v : ValueIndex σ) : List (Option ρ) → Bm → Res Bm
  | [], result => .ok result
  | x :: xs, result =>
    match v.lookupElement I x with
    | .ok r =>
      let result := result.or r
      if result.all id then .ok result else inLoop I v xs result
    | .error => .error
    | .undefined => .undefined

/-- container_lookup.hpp:44-52, the loop for `not_in`. -/
def notInLoop (I : Impl σ α ρ) (v : ValueIndex σ) : List (Option ρ) → Bm → Res Bm
  | [], result => .ok result
  | x :: xs, result =>
    match v.lookupElement I x with
    | .ok r =>
      let result := result.diff r
      if result.all (!·) then .ok result else notInLoop I v xs result
    | .error => .error
    | .undefined => .undefined

/-- container_lookup.hpp:26-57 `container_lookup_impl`. -/
def containerLookup (I : Impl σ α ρ) (v : ValueIndex σ) (op : RelOp) (xs : List (Option ρ)) : Res Bm :=
  match op with
  | .in_ => v.inLoop I xs (Bm.fill v.offset false)
  | .notIn => v.notInLoop I xs (Bm.fill v.offset true)
  | _ => .error

/-- value_index.cpp:49-81 `lookup`. The list case is the `view<list>` overload that all the
`lookup_impl`s share. -/
def lookup (I : Impl σ α ρ) (v : ValueIndex σ) (op : RelOp) (x : Operand ρ) : Res Bm :=
  match x with
  | .nil => v.lookupNil op
  | .val x => v.lookupVal I op x
  | .list xs =>
    match v.containerLookup I op xs with
    | .ok r => .ok (v.finish op r)
    | .error => .error
    | .undefined => .undefined

/-- A history of appends. An append that fails leaves the index as it is; `none` is undefined
behaviour. -/
def run (I : Impl σ α ρ) : ValueIndex σ → List (Nat × Option α) → Option (ValueIndex σ)
  | v, [] => some v
  | v, (pos, x) :: h =>
    match v.append I x pos with
    | .ok v => run I v h
    | .error => run I v h
    | .undefined => none

end ValueIndex

/-! ## Specification -/

namespace Spec

/-- A row of an indexed column. -/
inductive Row (α : Type) where
  | absent
  | null
  | value (x : α)
  deriving DecidableEq, Repr

/-- The row an append writes. -/
def Row.of {α : Type} : Option α → Row α
  | none => .null
  | some x => .value x

/-- The rows after one more append: appends before the end are rejected, and positions between the
end and the new row hold nothing. -/
def appendRow {α : Type} (rows : List (Row α)) (pos : Nat) (x : Option α) : List (Row α) :=
  if pos < rows.length then rows
  else rows ++ List.replicate (pos - rows.length) .absent ++ [Row.of x]

/-- The rows after a history of appends. -/
def rows {α : Type} (h : List (Nat × Option α)) : List (Row α) :=
  h.foldl (fun rs e => appendRow rs e.1 e.2) []

/-- The answer to a query, given which values match and whether nulls match. -/
def answer {α : Type} (rs : List (Row α)) (matchesValue : α → Bool) (matchesNull : Bool) : List Bool :=
  rs.map fun
    | .absent => false
    | .null => matchesNull
    | .value v => matchesValue v

end Spec

/-! ## Lemmas -/

open Spec (Row)

/-- What a concrete index has to guarantee for `append`: `inv` says that its state holds a column,
where a row without value is none. -/
structure Appends {σ α ρ : Type} (I : Impl σ α ρ) (inv : σ → List (Option α) → Prop) (valid : α → Prop) : Prop where
  append : ∀ s col v pos, inv s col → col.length ≤ pos → valid v → ∃ s', I.append s v pos = .ok s' ∧
    inv s' (col ++ List.replicate (pos - col.length) none ++ [some v])

/-- The value of a row. -/
def Spec.Row.toOption {α : Type} : Row α → Option α
  | .value v => some v
  | _ => none

/-- The index holds the rows. -/
structure VRep {σ α : Type} (inv : σ → List (Option α) → Prop) (v : ValueIndex σ) (rs : List (Row α)) : Prop where
  offset : v.offset = rs.length
  mask : ∀ i : Nat, v.mask.bit i = match rs[i]? with | some (.value _) => true | _ => false
  nones : ∀ i : Nat, v.nones.bit i = match rs[i]? with | some .null => true | _ => false
  impl : inv v.impl ((rs.map Spec.Row.toOption).take v.mask.length)

theorem take_append_pad {α : Type} (rs : List (Row α)) (n pos : Nat) (v : α) (hn : n ≤ rs.length) (hp : rs.length ≤ pos)
    (hv : ∀ i x, n ≤ i → rs[i]? ≠ some (.value x)) :
    (List.map Spec.Row.toOption rs).take n ++ List.replicate (pos - n) none ++ [some v] =
      (List.map Spec.Row.toOption (rs ++ List.replicate (pos - rs.length) .absent ++ [.value v])) := by
  apply List.ext_getElem?
  intro i
  have hl : ((List.map Spec.Row.toOption rs).take n).length = n := by simp; omega
  have hl1 : ((List.map Spec.Row.toOption rs).take n ++ List.replicate (pos - n) none).length = pos := by
    rw [List.length_append, hl, List.length_replicate]; omega
  have hl2 : (List.map Spec.Row.toOption (rs ++ List.replicate (pos - rs.length) .absent)).length = pos := by
    simp; omega
  rw [List.map_append, List.getElem?_append, List.getElem?_append (l₁ := List.map Spec.Row.toOption _), hl1, hl2]
  split
  · next hi =>
    rw [List.getElem?_append, hl, List.getElem?_map, List.getElem?_append]
    split
    · next h1 =>
      rw [if_pos (by omega), List.getElem?_take_of_lt h1, List.getElem?_map]
    · next h1 =>
      rw [List.getElem?_replicate, if_pos (by omega)]
      split
      · next h2 =>
        rw [List.getElem?_eq_getElem h2]
        cases hr : rs[i] with
        | value x => exact absurd (by rw [List.getElem?_eq_getElem h2, hr]) (hv i x (by omega))
        | absent => rfl
        | null => rfl
      · rw [List.getElem?_replicate, if_pos (by omega)]; rfl
  · rfl

theorem bit_append_one (b : Bm) (pos i : Nat) (h : b.length ≤ pos) :
    ((b.appendBits false (pos - b.length)).appendBits true 1).bit i = (b.bit i || decide (i = pos)) := by
  rw [Bm.bit_appendBits, Bm.bit_appendBits]
  simp only [Bm.appendBits_length]
  have e : b.length + (pos - b.length) = pos := by omega
  rw [e]
  by_cases h1 : i < b.length
  · rw [if_pos (by omega), if_pos h1]
    have : ¬ i = pos := by omega
    simp [this]
  · have hb : b.bit i = false := Bm.bit_of_ge (by omega)
    by_cases h2 : i < pos
    · rw [if_pos h2, if_neg h1, hb]
      have : ¬ i = pos := by omega
      simp [this]
    · rw [if_neg h2, hb]
      simp only [Bool.and_true, Bool.false_or, decide_eq_decide]
      omega

theorem appendRow_getElem? {α : Type} (rs : List (Row α)) (pos : Nat) (r : Row α) (h : rs.length ≤ pos) (i : Nat) :
    (rs ++ List.replicate (pos - rs.length) .absent ++ [r])[i]? =
      if i < rs.length then rs[i]? else if i < pos then some .absent else if i = pos then some r else none := by
  have hl : (rs ++ List.replicate (pos - rs.length) (Row.absent : Row α)).length = pos := by simp; omega
  rw [List.getElem?_append]
  rw [hl]
  split
  · rw [List.getElem?_append]
    split
    · rfl
    · rw [List.getElem?_replicate, if_pos (by omega)]
  · rw [if_neg (by omega)]
    split
    · next h' => subst h'; simp
    · rw [List.getElem?_eq_none]
      simp; omega

/-- An append whose `append_impl` succeeds. -/
theorem vRep_append_of {σ α ρ : Type} {I : Impl σ α ρ} {inv : σ → List (Option α) → Prop}
    {v : ValueIndex σ} {rs : List (Row α)} (h : VRep inv v rs) (pos : Nat) (x : Option α)
    (hx : ∀ y, x = some y → ((rs.map Spec.Row.toOption).take v.mask.length).length ≤ pos →
      ∃ s', I.append v.impl y pos = .ok s' ∧ inv s' ((rs.map Spec.Row.toOption).take v.mask.length ++
        List.replicate (pos - ((rs.map Spec.Row.toOption).take v.mask.length).length) none ++ [some y])) :
    (pos < rs.length ∧ v.append I x pos = .error) ∨
    (rs.length ≤ pos ∧ ∃ v', v.append I x pos = .ok v' ∧ VRep inv v' (Spec.appendRow rs pos x)) := by
  have hoff := h.offset
  have hmax : v.offset = max v.nones.length v.mask.length := rfl
  unfold ValueIndex.append
  rw [hoff]
  split
  · next hp => exact Or.inl ⟨hp, rfl⟩
  · next hp =>
    right
    refine ⟨by omega, ?_⟩
    have hm : v.mask.length ≤ pos := by omega
    have hn : v.nones.length ≤ pos := by omega
    unfold Spec.appendRow
    rw [if_neg hp]
    cases x with
    | none =>
      refine ⟨_, rfl, ?_, ?_, ?_, ?_⟩
      · simp [ValueIndex.offset]; omega
      · intro i
        simp only
        rw [h.mask i, appendRow_getElem? _ _ _ (by omega)]
        by_cases h1 : i < rs.length
        · rw [if_pos h1]
        · rw [if_neg h1, List.getElem?_eq_none (by omega)]
          by_cases h2 : i < pos
          · rw [if_pos h2]
          · rw [if_neg h2]
            by_cases h3 : i = pos <;> simp [h3, Row.of]
      · intro i
        simp only
        rw [bit_append_one _ _ _ hn, h.nones i, appendRow_getElem? _ _ _ (by omega)]
        by_cases h1 : i < rs.length
        · rw [if_pos h1]
          have : ¬ i = pos := by omega
          simp [this]
        · rw [if_neg h1, List.getElem?_eq_none (by omega)]
          by_cases h2 : i < pos
          · rw [if_pos h2]; have : ¬ i = pos := by omega
            simp [this]
          · rw [if_neg h2]
            by_cases h3 : i = pos <;> simp [h3, Row.of]
      · have := h.impl
        have e : ((rs ++ List.replicate (pos - rs.length) Row.absent ++ [Row.of none]).map Spec.Row.toOption).take v.mask.length
            = (rs.map Spec.Row.toOption).take v.mask.length := by
          rw [List.append_assoc, List.map_append, List.take_append_of_le_length (by simp; omega)]
        simp only
        rw [e]
        exact this
    | some y =>
      obtain ⟨s', e', hinv⟩ := hx y rfl (by simp; omega)
      simp only
      rw [e']
      refine ⟨_, rfl, ?_, ?_, ?_, ?_⟩
      · simp [ValueIndex.offset]; omega
      · intro i
        simp only
        rw [bit_append_one _ _ _ hm, h.mask i, appendRow_getElem? _ _ _ (by omega)]
        by_cases h1 : i < rs.length
        · rw [if_pos h1]
          have : ¬ i = pos := by omega
          simp [this]
        · rw [if_neg h1, List.getElem?_eq_none (by omega)]
          by_cases h2 : i < pos
          · rw [if_pos h2]; have : ¬ i = pos := by omega
            simp [this]
          · rw [if_neg h2]
            by_cases h3 : i = pos <;> simp [h3, Row.of]
      · intro i
        simp only
        rw [h.nones i, appendRow_getElem? _ _ _ (by omega)]
        by_cases h1 : i < rs.length
        · rw [if_pos h1]
        · rw [if_neg h1, List.getElem?_eq_none (by omega)]
          by_cases h2 : i < pos
          · rw [if_pos h2]
          · rw [if_neg h2]
            by_cases h3 : i = pos <;> simp [h3, Row.of]
      · simp only
        have hl : ((rs.map Spec.Row.toOption).take v.mask.length).length = v.mask.length := by simp; omega
        rw [hl] at hinv
        have htake := take_append_pad rs v.mask.length pos y (by omega) (by omega) (by
          intro i x hi heq
          have := h.mask i
          rw [heq, Bm.bit_of_ge hi] at this
          simp at this)
        rw [htake] at hinv
        have e : (List.map Spec.Row.toOption (rs ++ List.replicate (pos - rs.length) Row.absent ++ [Row.of (some y)])).take
            ((v.mask.appendBits false (pos - v.mask.length)).appendBits true 1).length
            = List.map Spec.Row.toOption (rs ++ List.replicate (pos - rs.length) Row.absent ++ [Row.value y]) := by
          rw [List.take_of_length_le]
          · rfl
          · simp; omega
        rw [e]
        exact hinv

theorem vRep_append {σ α ρ : Type} {I : Impl σ α ρ} {inv : σ → List (Option α) → Prop} {valid : α → Prop}
    (hI : Appends I inv valid)
    {v : ValueIndex σ} {rs : List (Row α)} (h : VRep inv v rs) (pos : Nat) (x : Option α)
    (hx : ∀ y, x = some y → valid y) :
    (pos < rs.length ∧ v.append I x pos = .error) ∨
    (rs.length ≤ pos ∧ ∃ v', v.append I x pos = .ok v' ∧ VRep inv v' (Spec.appendRow rs pos x)) :=
  vRep_append_of h pos x fun y hy hp => hI.append v.impl _ y pos h.impl hp (hx y hy)

/-- Every value in the history is valid. -/
def ValidHist {α : Type} (valid : α → Prop) (h : List (Nat × Option α)) : Prop :=
  ∀ pos x, (pos, some x) ∈ h → valid x

theorem vRep_run {σ α ρ : Type} {I : Impl σ α ρ} {inv : σ → List (Option α) → Prop} {valid : α → Prop}
    (hI : Appends I inv valid)
    (h : List (Nat × Option α)) : ∀ {v : ValueIndex σ} {rs : List (Row α)}, VRep inv v rs → ValidHist valid h →
    ∃ v', v.run I h = some v' ∧ VRep inv v' (h.foldl (fun rs e => Spec.appendRow rs e.1 e.2) rs) := by
  induction h with
  | nil => intro v rs h _; exact ⟨v, rfl, h⟩
  | cons e h ih =>
    intro v rs hr hv
    obtain ⟨pos, x⟩ := e
    have hx : ∀ y, x = some y → valid y := by
      rintro y rfl
      exact hv pos y (by simp)
    have hv' : ValidHist valid h := fun p y hy => hv p y (by simp [hy])
    rcases vRep_append hI hr pos x hx with ⟨hp, he⟩ | ⟨hp, v', he, hr'⟩
    · obtain ⟨v'', h1, h2⟩ := ih hr hv'
      refine ⟨v'', by simp only [ValueIndex.run, he]; exact h1, ?_⟩
      simp only [List.foldl_cons]
      rw [Spec.appendRow, if_pos hp]
      exact h2
    · obtain ⟨v'', h1, h2⟩ := ih hr' hv'
      exact ⟨v'', by simp only [ValueIndex.run, he]; exact h1, h2⟩

theorem vRep_make {σ α : Type} {inv : σ → List (Option α) → Prop} {s : σ} (h : inv s []) :
    VRep inv (ValueIndex.make s) ([] : List (Row α)) := by
  refine ⟨rfl, ?_, ?_, ?_⟩
  · intro i; simp [ValueIndex.make, Bm.bit]
  · intro i; simp [ValueIndex.make, Bm.bit]
  · simpa [ValueIndex.make] using h

/-- Row by row, the end of `lookup`. -/
theorem finish_spec {σ α : Type} {inv : σ → List (Option α) → Prop} {v : ValueIndex σ} {rs : List (Row α)}
    (h : VRep inv v rs) (op : RelOp) (b : Bm) (hb : b.length ≤ rs.length) :
    (v.finish op b).length = rs.length ∧
    ∀ (i : Nat) r, rs[i]? = some r → (v.finish op b).bit i = match r with
      | .absent => false
      | .null => decide (op = .notEqual)
      | .value _ => b.bit i := by
  have hoff := h.offset
  have hmax : v.offset = max v.nones.length v.mask.length := rfl
  have hor := Bm.or_length (b.and v.mask) v.nones
  have hand := Bm.and_length b v.mask
  unfold ValueIndex.finish
  simp only
  constructor
  · rw [Bm.appendBits_length]
    split <;> omega
  · intro i r hi
    have hlt : i < rs.length := (List.getElem?_eq_some_iff.1 hi).1
    have hm := h.mask i
    have hn := h.nones i
    rw [hi] at hm hn
    rw [Bm.bit_appendBits]
    by_cases hop : op = .notEqual
    · simp only [hop, if_true]
      rw [if_pos (by rw [hor]; omega), Bm.bit_or, Bm.bit_and, hm, hn]
      cases r <;> simp
    · simp only [hop, if_false]
      have hdef : (if i < (b.and v.mask).length then (b.and v.mask).bit i
          else (decide (i < (b.and v.mask).length + (v.offset - (b.and v.mask).length)) && decide False))
          = (b.and v.mask).bit i := by
        split
        · rfl
        · next hge =>
          rw [Bm.bit_of_ge (b := b.and v.mask) (by omega)]
          simp
      rw [hdef, Bm.bit_and, hm]
      cases r <;> simp

theorem nil_spec {σ α : Type} {inv : σ → List (Option α) → Prop} {v : ValueIndex σ} {rs : List (Row α)}
    (h : VRep inv v rs) :
    (∃ r, v.lookupNil .equal = .ok r ∧ r.length = rs.length ∧
      ∀ (i : Nat) x, rs[i]? = some x → r.bit i = match x with | .null => true | _ => false) ∧
    (∃ r, v.lookupNil .notEqual = .ok r ∧ r.length = rs.length ∧
      ∀ (i : Nat) x, rs[i]? = some x → r.bit i = match x with | .null => false | _ => true) := by
  have hoff := h.offset
  have hmax : v.offset = max v.nones.length v.mask.length := rfl
  refine ⟨⟨_, rfl, by simp; omega, ?_⟩, ⟨_, rfl, by simp; omega, ?_⟩⟩
  · intro i x hi
    have hlt : i < rs.length := (List.getElem?_eq_some_iff.1 hi).1
    have hn := h.nones i
    rw [hi] at hn
    rw [Bm.bit_appendBits]
    split
    · rw [hn]; cases x <;> rfl
    · rw [Bm.bit_of_ge (by omega)] at hn
      simp only [Bool.and_false]
      cases x <;> simp_all
  · intro i x hi
    have hlt : i < rs.length := (List.getElem?_eq_some_iff.1 hi).1
    have hn := h.nones i
    rw [hi] at hn
    rw [Bm.bit_appendBits]
    simp only [Bm.not_length]
    split
    · next hl => rw [Bm.bit_not _ hl, hn]; cases x <;> rfl
    · rw [Bm.bit_of_ge (by omega)] at hn
      have : i < v.nones.length + (v.mask.length - v.nones.length) := by omega
      simp only [this, decide_true, Bool.and_true]
      cases x <;> simp_all

/-- Results that are given row by row. -/
theorem answer_eq {α : Type} {rs : List (Row α)} {b : Bm} {mv : α → Bool} {mn : Bool} (hl : b.length = rs.length)
    (h : ∀ (i : Nat) r, rs[i]? = some r → b.bit i = match r with
      | .absent => false | .null => mn | .value v => mv v) : b = Spec.answer rs mv mn := by
  apply List.ext_getElem?
  intro i
  by_cases hi : i < rs.length
  · have hr := List.getElem?_eq_getElem hi
    have := h i _ hr
    rw [Bm.getElem?_of_bit (by omega), this, Spec.answer, List.getElem?_map, hr]
    rfl
  · rw [List.getElem?_eq_none (by omega), List.getElem?_eq_none (by simp [Spec.answer]; omega)]

theorem answer_getElem? {α : Type} (rs : List (Row α)) (mv : α → Bool) (mn : Bool) (i : Nat) (v : α)
    (h : rs[i]? = some (.value v)) : (Spec.answer rs mv mn)[i]? = some (mv v) := by
  simp [Spec.answer, h]

/-- The loop for `in`, given that looking up an element is exact. -/
theorem inLoop_spec {σ α ρ : Type} {I : Impl σ α ρ} {inv : σ → List (Option α) → Prop} {v : ValueIndex σ}
    {rs : List (Row α)} (h : VRep inv v rs) (f : Option ρ → Row α → Bool) (xs : List (Option ρ))
    (hf : ∀ x ∈ xs, ∃ r, v.lookupElement I x = .ok r ∧ r.length = rs.length ∧
      ∀ (i : Nat) y, rs[i]? = some y → r.bit i = f x y) :
    ∀ b : Bm, b.length = rs.length →
    ∃ r, v.inLoop I xs b = .ok r ∧ r.length = rs.length ∧
      ∀ (i : Nat) y, rs[i]? = some y → r.bit i = (b.bit i || xs.any (fun x => f x y)) := by
  induction xs with
  | nil => intro b hb; exact ⟨b, rfl, hb, by simp⟩
  | cons x xs ih =>
    intro b hb
    obtain ⟨r, h1, h2, h3⟩ := hf x (by simp)
    simp only [ValueIndex.inLoop, h1]
    have hl : (b.or r).length = rs.length := by simp [hb, h2]
    split
    · next hall =>
      refine ⟨_, rfl, hl, ?_⟩
      intro i y hi
      have hlt : i < rs.length := (List.getElem?_eq_some_iff.1 hi).1
      have : (b.or r).bit i = true := by
        have := List.all_eq_true.1 hall ((b.or r).bit i) (by
          exact List.mem_of_getElem? (Bm.getElem?_of_bit (b := b.or r) (i := i) (by omega)))
        simpa using this
      rw [this]
      rw [Bm.bit_or, h3 i y hi] at this
      simp only [List.any_cons, ← Bool.or_assoc, this, Bool.true_or]
    · obtain ⟨r', e1, e2, e3⟩ := ih (fun z hz => hf z (by simp [hz])) (b.or r) hl
      refine ⟨r', e1, e2, ?_⟩
      intro i y hi
      rw [e3 i y hi, Bm.bit_or, h3 i y hi, List.any_cons, Bool.or_assoc]

/-- The loop for `not_in`. -/
theorem notInLoop_spec {σ α ρ : Type} {I : Impl σ α ρ} {inv : σ → List (Option α) → Prop} {v : ValueIndex σ}
    {rs : List (Row α)} (h : VRep inv v rs) (f : Option ρ → Row α → Bool) (xs : List (Option ρ))
    (hf : ∀ x ∈ xs, ∃ r, v.lookupElement I x = .ok r ∧ r.length = rs.length ∧
      ∀ (i : Nat) y, rs[i]? = some y → r.bit i = f x y) :
    ∀ b : Bm, b.length = rs.length →
    ∃ r, v.notInLoop I xs b = .ok r ∧ r.length = rs.length ∧
      ∀ (i : Nat) y, rs[i]? = some y → r.bit i = (b.bit i && !xs.any (fun x => f x y)) := by
  induction xs with
  | nil => intro b hb; exact ⟨b, rfl, hb, by simp⟩
  | cons x xs ih =>
    intro b hb
    obtain ⟨r, h1, h2, h3⟩ := hf x (by simp)
    simp only [ValueIndex.notInLoop, h1]
    have hl : (b.diff r).length = rs.length := by simp [hb, h2]
    split
    · next hall =>
      refine ⟨_, rfl, hl, ?_⟩
      intro i y hi
      have hlt : i < rs.length := (List.getElem?_eq_some_iff.1 hi).1
      have : (b.diff r).bit i = false := by
        have := List.all_eq_true.1 hall ((b.diff r).bit i) (by
          exact List.mem_of_getElem? (Bm.getElem?_of_bit (b := b.diff r) (i := i) (by omega)))
        simpa only [Bool.not_eq_true'] using this
      rw [this]
      rw [Bm.bit_diff, h3 i y hi] at this
      simp only [List.any_cons, Bool.not_or, ← Bool.and_assoc, this, Bool.false_and]
    · obtain ⟨r', e1, e2, e3⟩ := ih (fun z hz => hf z (by simp [hz])) (b.diff r) hl
      refine ⟨r', e1, e2, ?_⟩
      intro i y hi
      rw [e3 i y hi, Bm.bit_diff, h3 i y hi, List.any_cons, Bool.not_or, Bool.and_assoc]

end Verif.Index
