/-
Model of `libvast/vast/detail/set_operations.hpp`.

Elements are natural numbers.  The code instantiates the templates with
`std::vector<uuid>`; UUIDs compare lexicographically by their 16 bytes, that is
like 128-bit numbers.
-/
namespace Verif.SetOps

/-- `std::set_intersection` as specified by the C++ standard for single-element
comparisons: advance the smaller side, copy on equality. -/
def stdSetIntersection : List Nat → List Nat → List Nat
  | [], _ => []
  | _ :: _, [] => []
  | x :: xs, y :: ys =>
    if x < y then stdSetIntersection xs (y :: ys)
    else if y < x then stdSetIntersection (x :: xs) ys
    else x :: stdSetIntersection xs ys
termination_by xs ys => xs.length + ys.length

/-- set_operations.hpp:15-21 `intersect`. -/
def intersect (xs ys : List Nat) : List Nat := stdSetIntersection xs ys

/-- set_operations.hpp:26-37, the loop of `inplace_intersect`.  `kept` is the
part of `result` before the iterator `i`, the second argument is `[i, end)`, the
third is `[j, xs.end())`.  `result.erase(i, result.end())` (line 38) drops what
is left. -/
def inplaceIntersectLoop (kept : List Nat) : List Nat → List Nat → List Nat
  | [], _ => kept
  | _ :: _, [] => kept
  | i :: is, j :: js =>
    if i < j then inplaceIntersectLoop kept is (j :: js)
    else if i > j then inplaceIntersectLoop kept (i :: is) js
    else inplaceIntersectLoop (kept ++ [i]) is js
termination_by is js => is.length + js.length

/-- set_operations.hpp:23-39 `inplace_intersect`. -/
def inplaceIntersect (result xs : List Nat) : List Nat := inplaceIntersectLoop [] result xs

/-- `std::set_union` as specified by the C++ standard: copy the smaller side, on
equality copy once and advance both. -/
def stdSetUnion : List Nat → List Nat → List Nat
  | [], ys => ys
  | x :: xs, [] => x :: xs
  | x :: xs, y :: ys =>
    if x < y then x :: stdSetUnion xs (y :: ys)
    else if y < x then y :: stdSetUnion (x :: xs) ys
    else x :: stdSetUnion xs ys
termination_by xs ys => xs.length + ys.length

/-- set_operations.hpp:41-48 `unify`. -/
def unify (xs ys : List Nat) : List Nat := stdSetUnion xs ys

/-- `std::inplace_merge` of two sorted ranges: stable merge, the left range wins
ties. -/
def stdMerge : List Nat → List Nat → List Nat
  | [], ys => ys
  | x :: xs, [] => x :: xs
  | x :: xs, y :: ys =>
    if y < x then y :: stdMerge (x :: xs) ys
    else x :: stdMerge xs (y :: ys)
termination_by xs ys => xs.length + ys.length

/-- `std::unique`: keeps the first element of every run of equal elements. -/
def stdUnique : List Nat → List Nat
  | [] => []
  | [x] => [x]
  | x :: y :: rest => if x = y then stdUnique (x :: rest) else x :: stdUnique (y :: rest)
termination_by xs => xs.length

/-- set_operations.hpp:50-59 `inplace_unify`. -/
def inplaceUnify (result xs : List Nat) : List Nat :=
  stdUnique (stdMerge result xs)

/-! ### Specification -/

/-- A sorted sequence without duplicates. -/
def SortedSet (xs : List Nat) : Prop := xs.Pairwise (· < ·)

end Verif.SetOps
