import Verif.Types.Merge
import Verif.Schema.Model

/-! # Symbols of schemas and their resolution

Models `symbol_resolver` of libvast/vast/concept/parseable/vast/schema.hpp and the loading of schema directories
of libvast/src/schema.cpp. -/

namespace Verif.SchemaText

open Verif.Types (Name Meta updateAttrs)

/-- type.hpp:440-560: the types without parameters, except the none type -/
inductive Basic where
  | bool | int | count | real | duration | time | string | pattern | addr | subnet
  deriving DecidableEq

mutual
/-- type.hpp:205-800: a `type`, with its name and attributes -/
inductive T where
  | none (m : Meta)
  | basic (b : Basic) (m : Meta)
  | enum (labels : List Name) (m : Meta)
  | list (t : T) (m : Meta)
  | map (k v : T) (m : Meta)
  | alias (t : T) (m : Meta)
  | record (fs : Fs) (m : Meta)
  deriving DecidableEq

/-- type.hpp:590-614, 721: the fields of a record -/
inductive Fs where
  | nil
  | cons (name : Name) (t : T) (rest : Fs)
  deriving DecidableEq
end

/-- Name and attributes. -/
def T.meta : T → Meta
  | .none m | .basic _ m | .enum _ m | .list _ m | .map _ _ m | .alias _ m | .record _ m => m

/-- The type with other name and attributes. -/
def T.withMeta (m : Meta) : T → T
  | .none _ => .none m
  | .basic b _ => .basic b m
  | .enum l _ => .enum l m
  | .list t _ => .list t m
  | .map k v _ => .map k v m
  | .alias t _ => .alias t m
  | .record fs _ => .record fs m

/-- type.cpp:108-111 `name` -/
def T.name (t : T) : Name := t.meta.name

/-- type.cpp:54-64: set the name -/
def T.setName (n : Name) (t : T) : T := t.withMeta { t.meta with name := n }

/-- type.cpp:78-106 `update_attributes` -/
def T.update (as : List (Name × Option Name)) (t : T) : T := t.withMeta { t.meta with attrs := updateAttrs t.meta.attrs as }

instance : Schema.Types T where
  name := T.name
  isNone | .none _ => true | _ => false

/-! ### Records as `Types.Fields` -/

mutual
/-- The type as `Types.Ty`, where everything but records is a leaf. -/
def T.toTy : T → Types.Ty T
  | .record fs m => .record m fs.toFields
  | .none m => .leaf (.none m)
  | .basic b m => .leaf (.basic b m)
  | .enum l m => .leaf (.enum l m)
  | .list t m => .leaf (.list t m)
  | .map k v m => .leaf (.map k v m)
  | .alias t m => .leaf (.alias t m)

/-- The fields as `Types.Fields`. -/
def Fs.toFields : Fs → Types.Fields T
  | .nil => .nil
  | .cons n t rest => .cons n t.toTy rest.toFields
end

mutual
/-- The inverse of `T.toTy`. -/
def ofTy : Types.Ty T → T
  | .record m fs => .record (ofFields fs) m
  | .leaf t => t
  | .alias t => .alias (ofTy t) {}

@[inherit_doc ofTy] def ofFields : Types.Fields T → Fs
  | .nil => .nil
  | .cons n t rest => .cons n (ofTy t) (ofFields rest)
end

/-- The fields of a record as a list. -/
def Fs.toList : Fs → List (Name × T)
  | .nil => []
  | .cons n t rest => (n, t) :: rest.toList

/-! ### Resolution -/

/-- `$algebra`, the attribute that marks records that stand for expressions (schema.hpp:93, type.cpp:166) -/
def algebraKey : Name := [36, 97, 108, 103, 101, 98, 114, 97]

/-- schema.hpp:93 `has_attribute(x, "$algebra")` -/
def Meta.isAlgebra (m : Meta) : Bool := m.attrs.any fun a => a.1 = algebraKey

/-- The outcome of a step: a result, an error, a violated assertion, or not enough fuel. -/
inductive R (α : Type) where
  | ok (a : α)
  | error
  | abort
  | stuck
  deriving DecidableEq

/-- Sequencing of outcomes. -/
def R.bind {α β : Type} : R α → (α → R β) → R β
  | .ok a, f => f a
  | .error, _ => .error
  | .abort, _ => .abort
  | .stuck, _ => .stuck

/-- An optional result, where its absence is an error. -/
def R.ofOption {α : Type} : Option α → R α
  | some a => .ok a
  | none => .error

/-- schema.hpp:102-124: one operand. `+` is `[43]`, `<+` is `[60, 43]`, `+>` is `[43, 62]` and `-` is `[45]`; other
    operators are ignored. (The assertion in 123 is always true.) An empty path for `-` violates an assertion
    (type.cpp:556). -/
def applyOp (op : Name) (acc : Meta × Types.Fields T) (m : Meta) (rhs : Types.Fields T) : R (Meta × Types.Fields T) :=
  if op = [43] then R.ofOption (Types.merge acc.1 acc.2 rhs)
  else if op = [60, 43] then .ok (Types.priorityMerge false acc.1 acc.2 m rhs)
  else if op = [43, 62] then .ok (Types.priorityMerge true acc.1 acc.2 m rhs)
  else if op = [45] then
    if rhs.toList.isEmpty then .abort
    else R.ofOption ((Types.removePath (rhs.toList.map (·.1)) acc.2).map fun fs => (acc.1, fs))
  else .ok acc

/-- schema.hpp:99-124: the loop over the operands; an operand that is no record violates the assertion of 101. -/
def applyOps (acc : Meta × Types.Fields T) : Fs → R (Meta × Types.Fields T)
  | .nil => .ok acc
  | .cons op (.record fs m) rest => (applyOp op acc m fs.toFields).bind fun acc' => applyOps acc' rest
  | .cons _ _ _ => .abort

/-- schema.hpp:93-136: the value of an expression `x` whose operands are resolved -/
def algebra (n : Name) : Fs → R T
  | .cons _ (.record fs m) (.cons op t rest) =>
    (applyOps (m, fs.toFields) (.cons op t rest)).bind fun acc =>
      if acc.2.toList.isEmpty then .error
      else if acc.2.toList.any (fun f => f.1.isEmpty) then .abort
      else .ok (.record (ofFields acc.2) { acc.1 with name := n })
  | _ => .abort

/-- schema.hpp:174-181: the state of the resolver: the unresolved symbols in the order of the hash table, the
    resolved ones, and the schema -/
structure St where
  unresolved : List (Name × T)
  resolved : List (Name × T)
  sch : List T
  deriving DecidableEq

mutual
/-- schema.hpp:49-138: the visitor, where `look` is `lookup` -/
def visit (look : Name → St → R (T × St)) : T → St → R (T × St)
  | .none m, st =>
    if m.name.isEmpty then .abort
    else (look m.name st).bind fun (t, st') => .ok (t.update m.attrs, st')
  | .basic b m, st => .ok (.basic b m, st)
  | .enum l m, st => .ok (.enum l m, st)
  | .list t m, st => (visit look t st).bind fun (t', st') => .ok (.list t' m, st')
  | .map k v m, st =>
    (visit look v st).bind fun (v', st') => (visit look k st').bind fun (k', st'') => .ok (.map k' v' m, st'')
  | .alias t m, st => (visit look t st).bind fun (t', st') => .ok (.alias t' m, st')
  | .record fs m, st =>
    (visitFields look fs st).bind fun (fs', st') =>
      if Meta.isAlgebra m then (algebra m.name fs').bind fun t => .ok (t, st')
      else .ok (.record fs' m, st')

/-- schema.hpp:87-92: the loop over the fields -/
def visitFields (look : Name → St → R (T × St)) : Fs → St → R (Fs × St)
  | .nil, st => .ok (.nil, st)
  | .cons n t rest, st =>
    (visit look t st).bind fun (t', st') =>
      (visitFields look rest st').bind fun (rest', st'') => .ok (.cons n t' rest', st'')
end

/-- `find` of a map -/
def assoc (n : Name) : List (Name × T) → Option T
  | [] => none
  | (k, t) :: l => if k = n then some t else assoc n l

/-- `erase` of a map -/
def remove (n : Name) : List (Name × T) → List (Name × T)
  | [] => []
  | (k, t) :: l => if k = n then l else (k, t) :: remove n l

/-- schema.hpp:140-159 `resolve` of a symbol. (A symbol that is resolved already is no more among the unresolved
    ones, so that the first error cannot occur when the names are distinct; it is modelled nevertheless.) -/
def resolveSymbol (look : Name → St → R (T × St)) (n : Name) (d : T) (st : St) : R (T × St) :=
  if (assoc n st.resolved).isSome then .error
  else
    (visit look d { st with unresolved := remove n st.unresolved }).bind fun (t, st') =>
      if (assoc n st'.resolved).isSome then .error
      else
        let added := Schema.add t st'.sch
        if added.2 then .ok (t, { st' with resolved := st'.resolved ++ [(n, t)], sch := added.1 }) else .error

/-- schema.hpp:29-46 `lookup`; each unresolved symbol on the way takes one unit of fuel. -/
def lookup (globals : List (Name × T)) : Nat → Name → St → R (T × St)
  | fuel, n, st =>
    match assoc n st.resolved with
    | some t => .ok (t, st)
    | none =>
      match assoc n st.unresolved with
      | some d =>
        match fuel with
        | 0 => .stuck
        | fuel + 1 => resolveSymbol (lookup globals fuel) n d st
      | none =>
        match assoc n globals with
        | some t => .ok (t, st)
        | none => .error

/-- schema.hpp:161-172: the loop of `resolve`: as long as there are symbols, resolve the first. -/
def resolveLoop (globals : List (Name × T)) : Nat → St → R St
  | fuel, st =>
    match st.unresolved with
    | [] => .ok st
    | (n, d) :: _ =>
      match fuel with
      | 0 => .stuck
      | fuel + 1 =>
        (resolveSymbol (lookup globals st.unresolved.length) n d st).bind fun (_, st') => resolveLoop globals fuel st'

/-- schema.hpp:161-172 `resolve`: the schema and the resolved symbols. The order of the symbols is the order in which
    the hash table is iterated. -/
def resolve (globals symbols : List (Name × T)) : R (List T × List (Name × T)) :=
  (resolveLoop globals symbols.length ⟨symbols, [], []⟩).bind fun st => .ok (st.sch, st.resolved)

/-- schema.cpp:304-305 `merge` of maps: the symbols that are not yet defined are added. -/
def mergeSymbols (newer older : List (Name × T)) : List (Name × T) :=
  newer ++ older.filter fun s => (assoc s.1 newer).isNone

/-- schema.cpp:279-313: the loop over the directories, with the symbols of each; the schema and the symbols so far -/
def loadDirs : List (List (Name × T)) → List T → List (Name × T) → R (List T)
  | [], types, _ => .ok types
  | symbols :: dirs, types, globals =>
    (resolve globals symbols).bind fun (sch, resolved) =>
      loadDirs dirs (Schema.combine types sch) (mergeSymbols resolved globals)

/-- schema.cpp:273-315 `load_schema`, for the symbols of the existing directories; reading of files and
    directories is not modelled. -/
def load (dirs : List (List (Name × T))) : R (List T) := loadDirs dirs [] []

end Verif.SchemaText
