import Verif.Data.Model
/-!
# Listing a directory

`libvast/vast/detail/filter_dir.hpp`, by which schemas and taxonomies are found.
-/
namespace Verif.Dir
open Verif.Data

mutual
/-- A file or a directory with its entries in the order the operating system tells them.  A directory may be unreadable.  A
symbolic link is like a file: `recursive_directory_iterator` does not follow it. -/
inductive Node where
  | file (name : Str)
  | dir (name : Str) (readable : Bool) (entries : Nodes)
/-- The entries of a directory. -/
inductive Nodes where
  | nil
  | cons (n : Node) (rest : Nodes)
end

/-- A path below the directory, as its components. -/
abbrev Path := List Str

/-- What comes out: a result, an error, or an exception. -/
inductive Res (α : Type) where
  | ok (a : α)
  | error
  | throw
deriving DecidableEq

/-- Sequencing. -/
def Res.bind {α β : Type} : Res α → (α → Res β) → Res β
  | .ok a, f => f a
  | .error, _ => .error
  | .throw, _ => .throw

mutual
/-- One turn of the loop (filter_dir.hpp:42-54) at an entry below `pre`, and then those at what is inside: `++begin` opens a directory
and throws if that fails. -/
def walk (keep : Path → Bool) (max depth : Nat) (pre : Path) : Node → Res (List Path)
  | .file n => if depth ≥ max then .error else .ok (if keep (pre ++ [n]) then [pre ++ [n]] else [])
  | .dir n readable es =>
    if depth ≥ max then .error
    else if readable = false then .throw
    else (walkAll keep max (depth + 1) (pre ++ [n]) es).bind fun ps => .ok ((if keep (pre ++ [n]) then [pre ++ [n]] else []) ++ ps)
/-- The loop over entries. -/
def walkAll (keep : Path → Bool) (max depth : Nat) (pre : Path) : Nodes → Res (List Path)
  | .nil => .ok []
  | .cons n rest => (walk keep max depth pre n).bind fun ps => (walkAll keep max depth pre rest).bind fun qs => .ok (ps ++ qs)
end

/-- `filter_dir` (31-58) on a directory that can be read or not, relative to it.  Paths are compared component by component. -/
def filterDir (keep : Path → Bool) (max : Nat) (readable : Bool) (es : Nodes) : Res (List Path) :=
  if readable = false then .error
  else (walkAll keep max 0 [] es).bind fun ps => .ok (ps.mergeSort fun a b => decide (a ≤ b))

end Verif.Dir
