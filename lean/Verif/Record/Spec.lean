import Verif.Record.Model
import Verif.Types.MergeSpec

/-! # What flattening, merging and building records should do -/

namespace Verif.Record.Spec

variable {α τ : Type}

/-- Is this value a record? -/
def isRec : D α → Bool
  | .record _ => true
  | _ => false

/-- Path and value of everything in a record that is not itself a record, in order. -/
def leaves : R α → List (List Name × D α)
  | .nil => []
  | .cons k (.record s) rest => (leaves s).map (fun x => (k :: x.1, x.2)) ++ leaves rest
  | .cons k d rest => ([k], d) :: leaves rest

/-- The number of records within a record. -/
def records : R α → Nat
  | .nil => 0
  | .cons _ (.record s) rest => records s + 1 + records rest
  | .cons _ _ rest => records rest

/-- A path, with dots. -/
def dotted : List Name → Name
  | [] => []
  | [k] => k
  | k :: k' :: p => k ++ 46 :: dotted (k' :: p)

/-- The value at a path. -/
def at' : List Name → List (Name × D α) → Option (D α)
  | [], _ => none
  | [k], l => get k l
  | k :: k' :: p, l =>
    match get k l with
    | some (.record s) => at' (k' :: p) s.toList
    | _ => none

/-- The value at a path of a record. -/
def valueAt (p : List Name) (r : R α) : Option (D α) := at' p r.toList

/-- The keys of the record, and of the records within it, are unique. -/
inductive UniqueKeys : R α → Prop
  | nil : UniqueKeys .nil
  | cons {k : Name} {d : D α} {r : R α} : UniqueKeys r → k ∉ r.toList.map (·.1) →
    (∀ s, d = .record s → UniqueKeys s) → UniqueKeys (.cons k d r)

/-- The record has something at a path, or has a value on the way to it. -/
def Defines (r : R α) (p : List Name) : Prop :=
  (∃ d, valueAt p r = some d) ∨ ∃ q d, q <+: p ∧ valueAt q r = some d ∧ isRec d = false

/-- What a value becomes: lists are appended to what is there, if so desired; everything else replaces it. -/
def combined (lists : Bool) (old : Option (D α)) : D α → D α
  | .list xs =>
    if lists then
      match old with
      | some (.list ys) => .list (ys.append xs)
      | some .null => .list xs
      | none => .list xs
      | some d => .list (.cons d xs)
    else .list xs
  | d => d

/-- Every record within the record is the value of a field whose type is a record, which it fits. -/
inductive Fits : R α → Types.Fields τ → Prop
  | nil {fs : Types.Fields τ} : Fits .nil fs
  | nested {fs gs : Types.Fields τ} {m : Types.Meta} {k : Name} {s rest : R α} :
    Types.lookup k fs.toList = some (.record m gs) → Fits s gs → Fits rest fs → Fits (.cons k (.record s) rest) fs
  | other {fs : Types.Fields τ} {k : Name} {d : D α} {rest : R α} : isRec d = false → Fits rest fs → Fits (.cons k d rest) fs

/-- The number of record types within a record type. -/
def recordTypes : Types.Fields τ → Nat
  | .nil => 0
  | .cons _ (.record _ gs) rest => recordTypes gs + 1 + recordTypes rest
  | .cons _ _ rest => recordTypes rest

/-- No record type within the record type is empty. -/
def NoEmptyRecords : Types.Fields τ → Prop
  | .nil => True
  | .cons _ (.record _ gs) rest => gs ≠ .nil ∧ NoEmptyRecords gs ∧ NoEmptyRecords rest
  | .cons _ _ rest => NoEmptyRecords rest

end Verif.Record.Spec
