import Verif.Registry.TypesSpec
/-!
# The type registry

Models the data of libvast/src/system/type_registry.cpp:78-136 and 151-166: the layouts seen for every name, and their way to disk
and back.  The file holds the state itself: CAF's binary serialization is assumed to be read back, and `io::save` to be atomic (see
C33).
-/
namespace Verif.Registry
open Verif.Taxonomy (Name Seen find)

variable {T : Type} [DecidableEq T]

/-- `insert` of a `stable_set` (stable_set.hpp:21-28): the set, and the position of the element. -/
def insertSet (bucket : List (List (Name × T))) (l : List (Name × T)) : List (List (Name × T)) × Nat :=
  if bucket.idxOf l = bucket.length then (bucket ++ [l], bucket.length) else (bucket, bucket.idxOf l)

/-- `std::rotate` of the elements up to a position (type_registry.cpp:128): the last of them goes to the front. -/
def rotate {α : Type} (xs : List α) (hint : Nat) : List α :=
  (xs.drop hint).take 1 ++ xs.take hint ++ xs.drop (hint + 1)

/-- The bucket after `insert` (type_registry.cpp:111-129). -/
def insertLayout (bucket : List (List (Name × T))) (l : List (Name × T)) : List (List (Name × T)) :=
  rotate (insertSet bucket l).1 (insertSet bucket l).2

/-- `insert` (type_registry.cpp:111-129); `data[…]` makes an empty bucket.  The order of names in the map does not matter. -/
def insert (data : Seen T) (n : Name) (l : List (Name × T)) : Seen T :=
  match data with
  | [] => [(n, insertLayout [] l)]
  | e :: m => if e.1 = n then (n, insertLayout e.2 l) :: m else e :: insert m n l

/-- The registry, if it is there, and its file, if there is one. -/
structure State (T : Type) where
  data : Option (Seen T)
  file : Option (Seen T)

/-- One event: the stream of events (186), the exit handler (144-153), a crash, and the start (155-158, 83-109). -/
def step (s : State T) : Event T → State T
  | .slice n l => { s with data := s.data.map fun d => insert d n l }
  | .stop saved => match s.data with
    | some d => ⟨none, if saved then some d else s.file⟩
    | none => s
  | .crash => { s with data := none }
  | .start loaded => match s.data with
    | some _ => s
    | none => if loaded then ⟨some (s.file.getD []), s.file⟩ else s

/-- A first start, in an empty directory. -/
def first : State T := ⟨some [], none⟩

/-- All events, one after the other. -/
def run (es : List (Event T)) : State T := es.foldl step first

end Verif.Registry
