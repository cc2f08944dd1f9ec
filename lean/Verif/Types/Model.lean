/-! # Record types

Models the functions on record types of libvast/src/type.cpp and libvast/vast/type.hpp. Strings are lists
of bytes. A type other than a record or an alias is a value of an arbitrary type `τ`, which holds its
name, attributes and parameters; name and attributes of aliases are left out. -/

namespace Verif.Types

/-- A field name, type name or key. -/
abbrev Name := List UInt8

/-- type.hpp:205-330 `abstract_type`: the name and the attributes of a type, here kept for records only -/
structure Meta where
  name : Name := []
  attrs : List (Name × Option Name) := []
  deriving DecidableEq

mutual
/-- type.hpp:616-733: a `type` -/
inductive Ty (τ : Type) where
  | leaf (t : τ)
  | alias (t : Ty τ)
  | record (m : Meta) (fs : Fields τ)
  deriving DecidableEq

/-- type.hpp:590-614, 721 `std::vector<record_field>` -/
inductive Fields (τ : Type) where
  | nil
  | cons (name : Name) (t : Ty τ) (rest : Fields τ)
  deriving DecidableEq
end

variable {τ : Type}

/-- The fields as a list. -/
def Fields.toList : Fields τ → List (Name × Ty τ)
  | .nil => []
  | .cons n t rest => (n, t) :: rest.toList

/-- A list of fields as `Fields`. -/
def Fields.ofList : List (Name × Ty τ) → Fields τ
  | [] => .nil
  | (n, t) :: rest => .cons n t (ofList rest)

/-- `fields[i]`; `none` behind the end. -/
def Fields.get? (fs : Fields τ) (i : Nat) : Option (Name × Ty τ) := fs.toList[i]?

/-! ### Iteration -/

/-- type.hpp:620-642: the state of `record_type::each`: for each nested record that the iteration is in its
    fields and the index of the current one, the innermost first. (`trace` holds pointers to the current
    fields.) -/
abbrev Each (τ : Type) := List (List (Name × Ty τ) × Nat)

/-- type.cpp:208-212 and 225-230: go to the first field of a record as long as the current field is a record;
    `none` is undefined behavior: the first field of a record without fields. -/
def descend : Ty τ → Each τ → Option (Each τ)
  | .record _ .nil, _ => none
  | .record _ (.cons n t rest), st => descend t (((n, t) :: rest.toList, 0) :: st)
  | _, st => some st

/-- type.cpp:204-213 the constructor of `each` -/
def Each.make (m : Meta) : Fields τ → Option (Each τ)
  | .nil => some []
  | .cons n t rest => descend (.record m (.cons n t rest)) []

/-- type.cpp:216-222: leave the records whose last field is the current one, and go to the next field -/
def bump : Each τ → Each τ
  | [] => []
  | (fs, i) :: st => if i + 1 = fs.length then bump st else (fs, i + 1) :: st

/-- type.cpp:215-231 `each::next` -/
def Each.next (st : Each τ) : Option (Each τ) :=
  match bump st with
  | [] => some []
  | (fs, i) :: st' =>
    match fs[i]? with
    | none => none
    | some (_, t) => descend t ((fs, i) :: st')

/-- type.cpp:233-235 `each::done` -/
def Each.done (st : Each τ) : Bool := st.isEmpty

/-- type.hpp:628 `range_state::offset` -/
def Each.offset (st : Each τ) : List Nat := (st.map (·.2)).reverse

/-- type.cpp:196 the names of the fields in the trace -/
def Each.trace (st : Each τ) : List Name := (st.filterMap fun f => f.1[f.2]?.map (·.1)).reverse

/-- type.cpp:191-193 `range_state::type` -/
def Each.type (st : Each τ) : Option (Ty τ) := st.head?.bind fun f => f.1[f.2]?.map (·.2)

/-- detail/string.hpp `join` with "." -/
def join : List Name → Name
  | [] => []
  | [n] => n
  | n :: ns => n ++ 46 :: join ns

/-- type.cpp:195-198 `range_state::key` -/
def Each.key (st : Each τ) : Name := join st.trace

/-- `for (auto& i : record_type::each(r))`: the offset, the key and the type of each iteration; the fuel
    bounds the number of iterations. -/
def Each.run : Nat → Each τ → Option (List (List Nat × Name × Option (Ty τ)))
  | 0, _ => none
  | n + 1, st =>
    if st.done then some []
    else st.next.bind fun st' => (run n st').map fun l => (st.offset, st.key, st.type) :: l

/-- type.cpp:481-484: move an iterator of `each` by `i`; `some none` if the end comes first. -/
def Each.advance : Nat → Each τ → Option (Option (Each τ))
  | 0, st => some (some st)
  | i + 1, st => if st.done then some none else st.next.bind (advance i)

/-- type.cpp:477-488 `offset_from_index`; the outer `none` is undefined behavior. -/
def offsetFromIndex (m : Meta) (fs : Fields τ) (i : Nat) : Option (Option (List Nat)) :=
  (Each.make m fs).bind fun st => (Each.advance i st).map fun r =>
    r.bind fun st' => if st'.done then none else some st'.offset

/-! ### Flattening -/

/-- The loop at type.cpp:614-615. -/
def prefixAll (n : Name) : Fields τ → Fields τ
  | .nil => .nil
  | .cons n' t rest => .cons (n ++ 46 :: n') t (prefixAll n rest)

/-- Appending to a vector of fields. -/
def Fields.append : Fields τ → Fields τ → Fields τ
  | .nil, gs => gs
  | .cons n t rest, gs => .cons n t (rest.append gs)

mutual
/-- type.cpp:607-620 `flatten`: the fields of the result; name and attributes are those of the argument -/
def flattenFields : Fields τ → Fields τ
  | .nil => .nil
  | .cons n t rest => (flattenField n t).append (flattenFields rest)

/-- type.cpp:612-618: the fields for one field -/
def flattenField (n : Name) : Ty τ → Fields τ
  | .record _ fs => prefixAll n (flattenFields fs)
  | .leaf t => .cons n (.leaf t) .nil
  | .alias t => .cons n (.alias t) .nil
end

/-- type.cpp:622-625 `flatten` of a type -/
def flatten : Ty τ → Ty τ
  | .record m fs => .record m (flattenFields fs)
  | t => t

/-- Whether `get_if<record_type>` succeeds. -/
def Ty.isRecord : Ty τ → Bool
  | .record _ _ => true
  | _ => false

/-- type.cpp:627-632 `is_flat` -/
def isFlat (fs : Fields τ) : Bool := fs.toList.all fun f => !f.2.isRecord

mutual
/-- type.cpp:644-648 `flat_size` of a type -/
def flatSize : Ty τ → Nat
  | .record _ fs => flatSizes fs
  | .leaf _ => 1
  | .alias _ => 1

/-- type.cpp:639-642 `flat_size` of a record -/
def flatSizes : Fields τ → Nat
  | .nil => 0
  | .cons _ t rest => flatSize t + flatSizes rest
end

/-- type.cpp:241-255 `num_leaves` -/
def numLeaves : Fields τ → Nat
  | .nil => 0
  | .cons _ (.record _ fs) rest => numLeaves fs + numLeaves rest
  | .cons _ (.alias (.record _ fs)) rest => numLeaves fs + numLeaves rest
  | .cons _ _ rest => 1 + numLeaves rest

/-- type.cpp:445-475 `flat_index_at` -/
def flatIndexAt : List Nat → Fields τ → Option Nat
  | [], _ => none
  | x :: o, fs =>
    match fs.get? x with
    | none => none
    | some (_, t) =>
      match t, o with
      | .record _ _, [] => none
      | _, [] => some ((fs.toList.take x).map fun f => flatSize f.2).sum
      | .record _ fs', y :: o' =>
        (flatIndexAt (y :: o') fs').map (((fs.toList.take x).map fun f => flatSize f.2).sum + ·)
      | _, _ :: _ => none

/-! ### Access -/

/-- type.cpp:375-389 `at` for offsets -/
def fieldAt : List Nat → Fields τ → Option (Name × Ty τ)
  | [], _ => none
  | [x], fs => fs.get? x
  | x :: y :: o, fs =>
    match fs.get? x with
    | some (_, .record _ fs') => fieldAt (y :: o) fs'
    | _ => none

/-- type.cpp:288-307 `resolve` for offsets. (The separator is missing after empty names only.) -/
def resolveOffset : List Nat → Name → Fields τ → Option Name
  | [], _, _ => none
  | x :: o, acc, fs =>
    match fs.get? x with
    | none => none
    | some (n, t) =>
      let acc' := (if acc.isEmpty then acc else acc ++ [46]) ++ n
      match o, t with
      | [], _ => some acc'
      | y :: o', .record _ fs' => resolveOffset (y :: o') acc' fs'
      | _ :: _, _ => none

/-- type.cpp:427-443 `flat_field_at`; `none` as the outer result is undefined behavior: an index behind the
    end or an empty offset. -/
def flatFieldAt : List Nat → Name → Fields τ → Option (Option (Name × Ty τ))
  | [], _, _ => none
  | x :: o, acc, fs =>
    match fs.get? x with
    | none => none
    | some (n, t) =>
      match o, t with
      | [], _ => some (some (acc ++ n ++ [46], t))
      | y :: o', .record _ fs' => flatFieldAt (y :: o') (acc ++ n ++ [46]) fs'
      | _ :: _, _ => some none

mutual
/-- type.cpp:257-286 `resolve` for keys: the loop over the fields from index `i` on. The outer `none` is
    undefined behavior: `std::mismatch` reads behind the end of the key if the key is a proper prefix of a
    field's name (267). An empty key is handled by `resolveKey`. -/
def resolveFields (key : Name) (i : Nat) : Fields τ → Option (Option (List Nat))
  | .nil => some none
  | .cons n t rest =>
    if n.isPrefixOf key then
      if n.length = key.length then some (some [i])
      else resolveSub (key.drop (1 + n.length)) i t
    else if key.isPrefixOf n then none
    else resolveFields key (i + 1) rest

/-- type.cpp:275-282: the rest of the key in a field -/
def resolveSub (key : Name) (i : Nat) : Ty τ → Option (Option (List Nat))
  | .record _ fs => if key.isEmpty then some none else (resolveFields key 0 fs).map fun r => r.map (i :: ·)
  | .leaf _ => some none
  | .alias _ => some none
end

/-- type.cpp:257-286 `resolve` for keys -/
def resolveKey (key : Name) (fs : Fields τ) : Option (Option (List Nat)) :=
  if key.isEmpty then some none else resolveFields key 0 fs

mutual
/-- type.cpp:326-338 `offset_map_builder::run`, with the offset and the trace of the record -/
def offsetMap (off : List Nat) (trace : Name) (i : Nat) : Fields τ → List (List Nat × Name)
  | .nil => []
  | .cons n t rest =>
    (off ++ [i], trace ++ 46 :: n) :: (offsetMapField (off ++ [i]) (trace ++ 46 :: n) t ++
      offsetMap off trace (i + 1) rest)

@[inherit_doc offsetMap] def offsetMapField (off : List Nat) (trace : Name) : Ty τ → List (List Nat × Name)
  | .record _ fs => offsetMap off trace 0 fs
  | .leaf _ => []
  | .alias _ => []
end

/-- type.cpp:364-373 `at` for keys; `hit` says whether the pattern made of the record's name and the key
    matches a name. -/
def fieldAtKey (m : Meta) (hit : Name → Bool) (fs : Fields τ) : Option (Name × Ty τ) :=
  (offsetMap [] m.name 0 fs).findSome? fun (off, n) => if hit n then fieldAt off fs else none

/-- type.cpp:354-362 `find_suffix`; `hit` says whether the name is the key or matches the pattern. -/
def findSuffix (m : Meta) (hit : Name → Bool) (fs : Fields τ) : List (List Nat) :=
  ((offsetMap [] m.name 0 fs).filter fun (_, n) => hit n).map (·.1)

/-! ### Removing fields -/

/-- type.cpp:580-605 `remove_field` for offsets: the fields of the result -/
def removeAt : List Nat → Fields τ → Option (Fields τ)
  | [], _ => none
  | x :: o, fs =>
    match fs.get? x with
    | none => none
    | some (n, t) =>
      match o, t with
      | [], _ => some (.ofList (fs.toList.take x ++ fs.toList.drop (x + 1)))
      | y :: o', .record m fs' =>
        (removeAt (y :: o') fs').map fun new =>
          .ofList (fs.toList.take x ++ (if new.toList.isEmpty then [] else [(n, .record m new)]) ++
            fs.toList.drop (x + 1))
      | _ :: _, _ => none

mutual
/-- type.cpp:554-578 `remove_field` for paths: the loop over the fields. The path is shortened when the
    first component matches a field (561), and stays so for the following fields. The path is not
    empty (556). -/
def removePath (path : List Name) : Fields τ → Option (Fields τ)
  | .nil => some .nil
  | .cons n t rest =>
    if some n = path.head? then
      if path.length > 1 then
        (removeIn path.tail t).bind fun new =>
          (removePath path.tail rest).map fun rest' =>
            if new.2.toList.isEmpty then rest' else .cons n (.record new.1 new.2) rest'
      else removePath path rest
    else (removePath path rest).map (.cons n t)

/-- type.cpp:562-567: what is left of a nested record -/
def removeIn (path : List Name) : Ty τ → Option (Meta × Fields τ)
  | .record m fs => (removePath path fs).map fun new => (m, new)
  | .leaf _ => none
  | .alias _ => none
end

end Verif.Types
