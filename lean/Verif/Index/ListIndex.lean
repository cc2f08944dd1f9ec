import Verif.Index.Text

/-!
# The list index

Models /repo/libvast/src/index/list_index.cpp over an arbitrary index for the elements: `E` is the
concrete index the factory makes for the element type and `fresh` its initial state.
-/

namespace Verif.Index

open Verif.Data (RelOp)

/-- list_index.hpp:51-53, the members. An element index that the factory could not make is none. -/
structure ListIndex (σ : Type) where
  elements : List (Option (ValueIndex σ))
  maxSize : Nat
  size : MultiLevelCoder

namespace ListIndex

variable {σ α ρ : Type}

/-- list_index.cpp:28-42, the constructor; the number of digits of the size index is computed as in
the string index. -/
def make (maxSize : Nat) : Option (ListIndex σ) :=
  (MultiLevelCoder.make .range (uniform 10 (StringIndex.lengthDigits maxSize))).map fun c => ⟨[], maxSize, c⟩

/-- list_index.cpp:61-72: one more element index for every position that has none. -/
def resize (fresh : Option σ) (es : List (Option (ValueIndex σ))) (n : Nat) : List (Option (ValueIndex σ)) :=
  es ++ List.replicate (n - es.length) (fresh.map ValueIndex.make)

/-- list_index.cpp:76 `elements_[i]->append(*x++, pos)`. The result is ignored: an append that fails
leaves the element index as it is. `none` is undefined behaviour. -/
def appendElement (E : Impl σ α ρ) (pos : Nat) (e : ValueIndex σ) (x : Option α) : Option (ValueIndex σ) :=
  match e.append E x pos with
  | .ok e => some e
  | .error => some e
  | .undefined => none

/-- list_index.cpp:73-76, the loop over the elements. The iterator advances only if there is an
element index. -/
def appendElements (E : Impl σ α ρ) (pos : Nat) :
    (n : Nat) → List (Option (ValueIndex σ)) → List (Option α) → Option (List (Option (ValueIndex σ)))
  | 0, es, _ => some es
  | n + 1, none :: es, xs => (appendElements E pos n es xs).map (none :: ·)
  | n + 1, some e :: es, x :: xs =>
    match appendElement E pos e x with
    | none => none
    | some e => (appendElements E pos n es xs).map (some e :: ·)
  | _ + 1, _, _ => none

/-- list_index.cpp:56-84 `append_impl`. -/
def append (E : Impl σ α ρ) (fresh : Option σ) (s : ListIndex σ) (x : List (Option α)) (pos : Nat) : Res (ListIndex σ) :=
  match appendElements E pos (min x.length s.maxSize) (resize fresh s.elements (min x.length s.maxSize)) x with
  | none => .undefined
  | some es =>
    match (s.size.skip (pos - s.size.size)).encode (min x.length s.maxSize) 1 with
    | some c => .ok { s with elements := es, size := c }
    | none => .undefined

/-- list_index.cpp:93-101, the loop over the element indexes. -/
def niLoop (E : Impl σ α ρ) (x : ρ) : List (Option (ValueIndex σ)) → Bm → Res Bm
  | [], result => .ok result
  | none :: es, result => niLoop E x es result
  | some e :: es, result =>
    match e.lookup E .equal (.val x) with
    | .ok r => niLoop E x es (result.or r)
    | .error => .error
    | .undefined => .undefined

/-- list_index.cpp:90-104, for `ni` and `not_ni`. -/
def lookupNi (E : Impl σ α ρ) (s : ListIndex σ) (neg : Bool) (x : ρ) : Res Bm :=
  if s.elements.isEmpty then .ok []
  else match niLoop E x s.elements [] with
    | .ok r => .ok (if neg then r.not else r)
    | .error => .error
    | .undefined => .undefined

/-- list_index.cpp:86-105 `lookup_impl`. -/
def lookup (E : Impl σ α ρ) (s : ListIndex σ) (op : RelOp) (x : ρ) : Res Bm :=
  match op with
  | .ni => lookupNi E s false x
  | .notNi => lookupNi E s true x
  | _ => .error

/-- list_index as a concrete index. -/
def impl (E : Impl σ α ρ) (fresh : Option σ) : Impl (ListIndex σ) (List (Option α)) ρ :=
  ⟨append E fresh, fun _ _ => lookup E⟩

/-- A list index after a history of appends. -/
def index (E : Impl σ α ρ) (fresh : Option σ) (maxSize : Nat) (h : List (Nat × Option (List (Option α)))) :
    Option (ValueIndex (ListIndex σ)) :=
  (make maxSize).bind fun s => (ValueIndex.make s).run (impl E fresh) h

end ListIndex

end Verif.Index
