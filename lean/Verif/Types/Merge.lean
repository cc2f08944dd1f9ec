import Verif.Types.Model

/-! # Merging record types

Models `merge`, `priority_merge` and `record_type::assign` of libvast/src/type.cpp. -/

namespace Verif.Types

variable {τ : Type} [DecidableEq τ]

/-- type.cpp:493-497, 524-528: the type of the first field with a name -/
def lookup (n : Name) : List (Name × Ty τ) → Option (Ty τ)
  | [] => none
  | (n', t) :: l => if n' = n then some t else lookup n l

/-- type.cpp:513, 537: replace the type of that field -/
def update (n : Name) (t : Ty τ) : List (Name × Ty τ) → List (Name × Ty τ)
  | [] => []
  | (n', t') :: l => if n' = n then (n', t) :: l else (n', t') :: update n t l

mutual
/-- type.cpp:498-517: the loop of `merge` over the fields of the right side. `ls` are the fields that come
    from the left side, `ext` those appended so far. `none` is the error. -/
def mergeLoop (ls ext : List (Name × Ty τ)) : Fields τ → Option (List (Name × Ty τ) × List (Name × Ty τ))
  | .nil => some (ls, ext)
  | .cons n t rest =>
    match lookup n ls with
    | none => mergeLoop ls (ext ++ [(n, t)]) rest
    | some lt => if lt = t then mergeLoop ls ext rest
      else (mergeTy lt t).bind fun t' => mergeLoop (update n t' ls) ext rest

/-- type.cpp:503-513: the type of a field that both sides have with different types -/
def mergeTy (lt : Ty τ) : Ty τ → Option (Ty τ)
  | .record _ gs =>
    match lt with
    | .record m fs => (mergeLoop fs.toList [] gs).map fun r => .record { m with name := [] } (.ofList (r.1 ++ r.2))
    | _ => none
  | .leaf _ => none
  | .alias _ => none
end

/-- type.cpp:490-519 `merge`: the result keeps the attributes of the left side and has no name. -/
def merge (m : Meta) (fs gs : Fields τ) : Option (Meta × Fields τ) :=
  (mergeLoop fs.toList [] gs).map fun r => ({ m with name := [] }, .ofList (r.1 ++ r.2))

/-- type.hpp:304-315 `update_attributes`: set one attribute -/
def setAttr (k : Name) (v : Option Name) : List (Name × Option Name) → List (Name × Option Name)
  | [] => [(k, v)]
  | (k', v') :: l => if k' = k then (k', v) :: l else (k', v') :: setAttr k v l

/-- type.hpp:304-315 `update_attributes` -/
def updateAttrs (as bs : List (Name × Option Name)) : List (Name × Option Name) :=
  bs.foldl (fun acc b => setAttr b.1 b.2 acc) as

/-- type.cpp:545-551: name and attributes of the result of `priority_merge` -/
def prioMeta (right : Bool) (l r : Meta) : Meta :=
  { name := [], attrs := if right then updateAttrs l.attrs r.attrs else updateAttrs r.attrs l.attrs }

mutual
/-- type.cpp:529-544: the loop of `priority_merge`; `right` says that the right side is preferred. -/
def prioLoop (right : Bool) (ls ext : List (Name × Ty τ)) : Fields τ → List (Name × Ty τ) × List (Name × Ty τ)
  | .nil => (ls, ext)
  | .cons n t rest =>
    match lookup n ls with
    | none => prioLoop right ls (ext ++ [(n, t)]) rest
    | some lt => if lt = t then prioLoop right ls ext rest
      else prioLoop right (update n (prioTy right lt t) ls) ext rest

/-- type.cpp:534-540: the type of a field that both sides have with different types -/
def prioTy (right : Bool) (lt : Ty τ) : Ty τ → Ty τ
  | .record m' gs =>
    match lt with
    | .record m fs =>
      .record (prioMeta right m m') (.ofList ((prioLoop right fs.toList [] gs).1 ++ (prioLoop right fs.toList [] gs).2))
    | lt => if right then .record m' gs else lt
  | .leaf t => if right then .leaf t else lt
  | .alias t => if right then .alias t else lt
end

/-- type.cpp:521-552 `priority_merge` -/
def priorityMerge (right : Bool) (m : Meta) (fs : Fields τ) (m' : Meta) (gs : Fields τ) : Meta × Fields τ :=
  (prioMeta right m m', .ofList ((prioLoop right fs.toList [] gs).1 ++ (prioLoop right fs.toList [] gs).2))

/-- type.cpp:397-406: the names on the way to an offset, without the last -/
def namesTo : List Nat → Fields τ → Option (List Name)
  | [], _ => some []
  | [_], _ => some []
  | x :: y :: o, fs =>
    match fs.get? x with
    | some (n, .record _ gs) => (namesTo (y :: o) gs).map (n :: ·)
    | _ => none

/-- type.cpp:393-417 `assign`; the offset is not empty. `none` is the error. The result of
    `priority_merge` is not used (415). -/
def assign (o : List Nat) (_ : Name × Ty τ) (m : Meta) (fs : Fields τ) : Option (Meta × Fields τ) :=
  (namesTo o fs).map fun _ => (m, fs)

end Verif.Types
