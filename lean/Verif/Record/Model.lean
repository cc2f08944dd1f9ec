import Verif.Types.Merge

/-! # Flattening, merging and building records

Models libvast/src/data.cpp. Values other than null, lists and records are of an arbitrary type `α`. A record is a
`detail::stable_map` (libvast/vast/detail/stable_map.hpp): a vector of key-value pairs, searched from its begin. -/

namespace Verif.Record

abbrev Name := List UInt8

mutual
/-- data.hpp `data` -/
inductive D (α : Type)
  | null
  | scalar (a : α)
  | list (xs : L α)
  | record (r : R α)
deriving DecidableEq
/-- data.hpp `list` -/
inductive L (α : Type)
  | nil
  | cons (d : D α) (xs : L α)
deriving DecidableEq
/-- data.hpp `record` -/
inductive R (α : Type)
  | nil
  | cons (k : Name) (d : D α) (r : R α)
deriving DecidableEq
end


variable {α : Type}

/-- The entries of a record. -/
def R.toList : R α → List (Name × D α)
  | .nil => []
  | .cons k d r => (k, d) :: r.toList

/-- A record from its entries. -/
def R.ofList : List (Name × D α) → R α
  | [] => .nil
  | (k, d) :: l => .cons k d (R.ofList l)

/-- Concatenation of lists. -/
def L.append : L α → L α → L α
  | .nil, ys => ys
  | .cons d xs, ys => .cons d (xs.append ys)

/-- stable_map.hpp:28-31 `lookup` -/
def get (k : Name) : List (Name × D α) → Option (D α)
  | [] => none
  | (k', d) :: l => if k' = k then some d else get k l

/-- stable_map.hpp:19-25 `add`, called by `emplace`: append an entry unless the key is taken. -/
def emplace (l : List (Name × D α)) (x : Name × D α) : List (Name × D α) :=
  match get x.1 l with
  | some _ => l
  | none => l ++ [x]

/-- vector_map.hpp:191-196 `operator[]`, and an assignment to the result. -/
def set (k : Name) (d : D α) : List (Name × D α) → List (Name × D α)
  | [] => [(k, d)]
  | (k', d') :: l => if k' = k then (k', d) :: l else (k', d') :: set k d l

/-- `--max_recursion` for a `size_t` -/
@[irreducible] def dec (n : Nat) : Nat := (n + 2 ^ 64 - 1) % 2 ^ 64

/-- data.cpp:229: the keys of a nested record -/
def underKey (k : Name) (x : Name × D α) : Name × D α := (k ++ 46 :: x.1, x.2)

/-- data.cpp:226-232: the loop of `flatten`. The decremented bound is that of the following entries, too. -/
def flattenLoop (n : Nat) (acc : List (Name × D α)) : R α → List (Name × D α)
  | .nil => acc
  | .cons k (.record s) rest =>
    flattenLoop (dec n) (((if dec n = 0 then [] else flattenLoop (dec n) [] s).map (underKey k)).foldl emplace acc) rest
  | .cons k d rest => flattenLoop n (emplace acc (k, d)) rest

/-- defaults.hpp:28 -/
def maxRecursion : Nat := 100

/-- data.cpp:291-293 `flatten` -/
def flatten (r : R α) : List (Name × D α) := flattenLoop maxRecursion [] r

variable {τ : Type}

/-- data.cpp:244-263: the loop of `flatten` for a record and its type. `none` is the failure. -/
def flattenTypedLoop (n : Nat) (acc : List (Name × D α)) (fs : Types.Fields τ) : R α → Option (List (Name × D α))
  | .nil => some acc
  | .cons k (.record s) rest =>
    match Types.lookup k fs.toList with
    | some (.record _ gs) =>
      (if dec n = 0 then some [] else flattenTypedLoop (dec n) [] gs s).bind fun inner =>
        flattenTypedLoop (dec n) ((inner.map (underKey k)).foldl emplace acc) fs rest
    | _ => none
  | .cons k d rest => flattenTypedLoop n (emplace acc (k, d)) fs rest

/-- data.cpp:287-289 `flatten` for a record and its type -/
def flattenTyped (r : R α) (fs : Types.Fields τ) : Option (List (Name × D α)) := flattenTypedLoop maxRecursion [] fs r

/-- data.cpp:283-285, 267-279 `flatten` for data and its type: the bound is one less. -/
def flattenData (d : D α) (t : Types.Ty τ) : Option (List (Name × D α)) :=
  match d, t with
  | .record r, .record _ fs => flattenTypedLoop (dec maxRecursion) [] fs r
  | _, _ => none

/-- data.cpp:306-311: the record to merge a nested record into -/
def nestedOf : Option (D α) → List (Name × D α)
  | some (.record d) => d.toList
  | _ => []

/-- data.cpp:313-330: the value of an entry that is a list in `src`, with `policy::merge_lists::yes` -/
def joinLists (xs : L α) : Option (D α) → D α
  | some (.list ys) => .list (ys.append xs)
  | some .null => .list xs
  | none => .list xs
  | some d => .list (.cons d xs)

/-- data.cpp:304-334: the loop of `merge` -/
def mergeLoop (lists : Bool) (n : Nat) (dst : List (Name × D α)) : R α → List (Name × D α)
  | .nil => dst
  | .cons k (.record s) rest =>
    mergeLoop lists (dec n) (set k (.record (.ofList
      (if dec n = 0 then nestedOf (get k dst) else mergeLoop lists (dec n) (nestedOf (get k dst)) s))) dst) rest
  | .cons k (.list xs) rest =>
    mergeLoop lists n (set k (if lists then joinLists xs (get k dst) else .list xs) dst) rest
  | .cons k d rest => mergeLoop lists n (set k d dst) rest

/-- data.cpp:339-342 `merge`; `src` and `dst` are different objects. -/
def merge (lists : Bool) (src dst : R α) : R α := .ofList (mergeLoop lists maxRecursion dst.toList src)

/-- data.cpp:192-205: the loop of `make_record`. The second component of the result are the values not used. -/
def makeLoop (n : Nat) (acc : List (Name × D α)) : Types.Fields τ → List (D α) → Option (List (Name × D α) × List (D α))
  | .nil, xs => some (acc, xs)
  | .cons _ _ _, [] => none
  | .cons k (.record _ gs) rest, x :: xs =>
    if dec n = 0 then none
    else (makeLoop (dec n) [] gs (x :: xs)).bind fun r =>
      makeLoop (dec n) (emplace acc (k, .record (.ofList r.1))) rest r.2
  | .cons k _ rest, x :: xs => makeLoop n (emplace acc (k, x)) rest xs

/-- data.cpp:210-215 `make_record` -/
def makeRecord (fs : Types.Fields τ) (xs : List (D α)) : Option (R α) :=
  (makeLoop maxRecursion [] fs xs).map fun r => .ofList r.1

end Verif.Record
