/-! # Schemas

Models libvast/src/schema.cpp. Types are of an arbitrary type `T`; all that is used is their name, their equality and
whether they are the none type. -/

namespace Verif.Schema

/-- What a schema uses of types. -/
class Types (T : Type) where
  name : T → List UInt8
  isNone : T → Bool

variable {T : Type} [Types T] [DecidableEq T]

open Types (name isNone)

/-- schema.cpp:71-83 `find` -/
def find (n : List UInt8) : List T → Option T
  | [] => none
  | t :: s => if name t = n then some t else find n s

/-- schema.cpp:63-69 `add`: the schema afterwards and whether the type was added -/
def add (t : T) (s : List T) : List T × Bool :=
  if isNone t = true ∨ name t = [] ∨ (find (name t) s).isSome then (s, false) else (s ++ [t], true)

/-- schema.cpp:36-48: the loop of `merge`; `none` is the error. -/
def mergeLoop (s2 : List T) : List T → List T → Option (List T)
  | result, [] => some result
  | result, t :: s1 =>
    match find (name t) s2 with
    | some u => if t ≠ u ∧ name t = name u then none else mergeLoop s2 result s1
    | none => mergeLoop s2 (result ++ [t]) s1

/-- schema.cpp:34-50 `merge` -/
def merge (s1 s2 : List T) : Option (List T) := mergeLoop s2 s2 s1

/-- schema.cpp:55-56: replace the first type of a name -/
def replace (t : T) : List T → List T
  | [] => []
  | u :: s => if name u = name t then t :: s else u :: replace t s

/-- schema.cpp:52-61 `combine` -/
def combine (s1 : List T) : List T → List T
  | [] => s1
  | t :: s2 =>
    match find (name t) s1 with
    | some _ => combine (replace t s1) s2
    | none => combine (add t s1).1 s2

end Verif.Schema
