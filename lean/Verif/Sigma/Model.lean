import Verif.QueryText.Model
/-!
# Sigma rules

Models `libvast/src/detail/sigma.cpp`: the search identifiers of a rule and its condition.  The grammar of the
condition is that of queries with other tokens, see component `QueryText`.
-/
namespace Verif.Sigma
open Verif.QueryText

variable {α : Type}

/-! ## Hoisting -/

mutual
/-- `hoister` (libvast/src/expression_visitors.cpp:80-112). -/
def hoist : E α → E α
  | .leaf a => .leaf a
  | .conj xs => single .conj (hoistConj xs)
  | .disj xs => single .disj (hoistDisj xs)
  | .neg x => .neg (hoist x)

/-- The loop over the operands of a conjunction (86-91). -/
def hoistConj : List (E α) → List (E α)
  | [] => []
  | x :: xs => match x with
    | .conj ys => hoistAll ys ++ hoistConj xs
    | .leaf a => .leaf a :: hoistConj xs
    | .disj ys => single .disj (hoistDisj ys) :: hoistConj xs
    | .neg y => .neg (hoist y) :: hoistConj xs

/-- The loop over the operands of a disjunction (97-102). -/
def hoistDisj : List (E α) → List (E α)
  | [] => []
  | x :: xs => match x with
    | .disj ys => hoistAll ys ++ hoistDisj xs
    | .leaf a => .leaf a :: hoistDisj xs
    | .conj ys => single .conj (hoistConj ys) :: hoistDisj xs
    | .neg y => .neg (hoist y) :: hoistDisj xs

/-- The inner loops. -/
def hoistAll : List (E α) → List (E α)
  | [] => []
  | x :: xs => hoist x :: hoistAll xs
end

/-! ## The condition -/

/-- The search identifiers with their expressions (sigma.cpp:44-49). -/
abbrev Table (α : Type) := List (Text × E α)

/-- Is the first text a prefix of the second? -/
def isPrefix : Text → Text → Bool
  | [], _ => true
  | _ :: _, [] => false
  | a :: s, b :: t => decide (a = b) && isPrefix s t

/-- `symbol_table::parse` (libvast/vast/concept/parseable/string/symbol_table.hpp:34-55): the longest identifier the
text starts with. -/
def longest (s : Text) : Table α → Option (Text × E α) → Option (Text × E α)
  | [], best => best
  | (k, x) :: tbl, best =>
    longest s tbl
      (if isPrefix k s && decide (((best.map (·.1.length)).getD 0) < k.length) then some (k, x) else best)

/-- `id`. -/
def ident (tbl : Table α) (s : Text) : Option (E α × Text) :=
  match longest s tbl none with
  | none => none
  | some (k, x) => some (x, s.drop k.length)

/-- `search` (sigma.cpp:77-85); `find pattern id` tells whether the regular expression obtained from the pattern by
replacing `*` with `.*` is found in the identifier (`std::regex_search`). -/
def search (find : Text → Text → Bool) (tbl : Table α) (pat : Text) : List (E α) :=
  (tbl.filter fun k => find pat k.1).map (·.2)

/-- `+(parsers::any - parsers::space)` -/
def word (s : Text) : Option (Text × Text) :=
  match s.takeWhile fun c => !isSpace c with
  | [] => none
  | p => some (p, s.drop p.length)

/-- `selection` (sigma.cpp:93-96). -/
def selection (find : Text → Text → Bool) (tbl : Table α) (s : Text) : Option (List (E α) × Text) :=
  match lit "them".toList s with
  | some r => some (search find tbl ['*'], r)
  | none =>
    match word s with
    | some (p, r) => some (search find tbl p, r)
    | none => none

/-- `force` (sigma.cpp:61-74); `any` tells whether to force a disjunction. -/
def force (any : Bool) : E α → E α
  | .disj xs => if any then .disj xs else .conj xs
  | .conj xs => if any then .disj xs else .conj xs
  | x => x

/-- `join` (sigma.cpp:52-58). -/
def join (any : Bool) (xs : List (E α)) : E α := hoist (if any then .disj xs else .conj xs)

/-- A quantifier, whitespace, and what `p` parses. -/
def quantified {β : Type} (tok : Text) (p : Text → Option (β × Text)) (f : β → E α) (s : Text) : Option (E α × Text) :=
  match lit tok s with
  | none => none
  | some r =>
    match p (ws r) with
    | none => none
    | some (x, r) => some (f x, r)

/-- The operand of a condition (sigma.cpp:88-107). -/
def searchId (find : Text → Text → Bool) (tbl : Table α) (s : Text) : Option (E α × Text) :=
  match quantified "all of".toList (ident tbl) (force false) s with
  | some r => some r
  | none =>
    match quantified "1 of".toList (ident tbl) (force true) s with
    | some r => some r
    | none =>
      match quantified "all of".toList (selection find tbl) (join false) s with
      | some r => some r
      | none =>
        match quantified "1 of".toList (selection find tbl) (join true) s with
        | some r => some r
        | none =>
          match ident tbl s with
          | some r => some r
          | none =>
            match selection find tbl s with
            | some (xs, r) => some (join false xs, r)
            | none => none

/-- The grammar of a condition (sigma.cpp:150-174). -/
def condition (find : Text → Text → Bool) (tbl : Table α) : Grammar α :=
  ⟨"and".toList, "or".toList, "not".toList, searchId find tbl, false⟩

/-! ## Search identifiers -/

/-- Modifiers behind a field name (sigma.cpp:267-301).  Simplification: the key is already split at `|`. -/
inductive Mod where
  | all
  | contains
  | startswith
  | endswith
  | re
  | unimplemented
  | unknown
deriving DecidableEq, Repr

/-- A key: the field and its modifiers. -/
structure Key where
  field : Text
  mods : List Mod
deriving DecidableEq, Repr

/-- YAML: strings, other scalars, lists, maps. -/
inductive Y where
  | str (s : Text)
  | scalar (n : Int)
  | list (xs : List Y)
  | map (xs : List (Key × Y))

/-- The operators that occur. -/
inductive Op where
  | equal
  | ni
  | match
deriving DecidableEq, Repr

/-- The right-hand sides of predicates. -/
inductive Val where
  | str (s : Text)
  | scalar (n : Int)
  | pattern (rx : Text)
deriving DecidableEq, Repr

/-- A predicate. -/
structure Pred where
  field : Text
  op : Op
  value : Val
deriving DecidableEq, Repr

/-- The loop of `make_pattern` (sigma.cpp:194-228). -/
def patternLoop : Text → Text
  | [] => []
  | '\\' :: [] => ['\\']
  | '\\' :: '*' :: s => '*' :: patternLoop s
  | '\\' :: '?' :: s => '?' :: patternLoop s
  | '\\' :: '\\' :: [] => ['\\', '\\']
  | '\\' :: '\\' :: s => '\\' :: patternLoop s
  | '\\' :: w :: s => '\\' :: w :: patternLoop s
  | '*' :: s => '.' :: '*' :: patternLoop s
  | '?' :: s => '.' :: patternLoop s
  | c :: s => c :: patternLoop s

/-- `make_pattern` (sigma.cpp:187-234). -/
def makePattern (s : Text) : Option Text := if s = patternLoop s then none else some (patternLoop s)

/-- The operator the modifiers ask for (sigma.cpp:267-301): the last one that sets it. -/
def opOf : List Mod → Op → Op
  | [], op => op
  | .contains :: ms, _ => opOf ms .ni
  | .startswith :: ms, _ => opOf ms .ni
  | .endswith :: ms, _ => opOf ms .ni
  | .re :: ms, _ => opOf ms .match
  | _ :: ms, op => opOf ms op

/-- `make_predicate` (sigma.cpp:249-265), for a scalar. -/
def makePredicate (k : Key) : Y → Option Pred
  | .str s =>
    if k.mods.contains .re then some ⟨k.field, .match, .pattern s⟩
    else if s = [] then some ⟨k.field, opOf k.mods .equal, .str s⟩
    else match makePattern s with
      | some rx => some ⟨k.field, .match, .pattern rx⟩
      | none => some ⟨k.field, opOf k.mods .equal, .str s⟩
  | .scalar n => some ⟨k.field, opOf k.mods .equal, .scalar n⟩
  | _ => none

/-- The values of a list (sigma.cpp:305-313); nested lists and maps are refused. -/
def predicates (k : Key) : List Y → Option (List (E Pred))
  | [] => some []
  | y :: ys =>
    match makePredicate k y, predicates k ys with
    | some p, some ps => some (.leaf p :: ps)
    | _, _ => none

/-- One entry of a map (sigma.cpp:242-319). -/
def entry (k : Key) (y : Y) : Option (E Pred) :=
  if k.mods.contains .unimplemented then none
  else match y with
    | .list ys => (predicates k ys).map fun ps => hoist (if k.mods.contains .all then .conj ps else .disj ps)
    | y => (makePredicate k y).map .leaf

/-- The entries of a map. -/
def entries : List (Key × Y) → Option (List (E Pred))
  | [] => some []
  | (k, y) :: xs =>
    match entry k y, entries xs with
    | some e, some es => some (e :: es)
    | _, _ => none

mutual
/-- `parse_search_id` (sigma.cpp:238-333). -/
def parseSearchId : Y → Option (E Pred)
  | .map xs => (entries xs).map (single .conj)
  | .list ys => (parseSearchIds ys).map (single .disj)
  | _ => none

/-- The elements of a list (sigma.cpp:324-328). -/
def parseSearchIds : List Y → Option (List (E Pred))
  | [] => some []
  | y :: ys =>
    match parseSearchId y, parseSearchIds ys with
    | some e, some es => some (e :: es)
    | _, _ => none
end

/-- Parses the named search identifiers. -/
def parseTable : List (Text × Y) → Option (Table Pred)
  | [] => some []
  | (k, y) :: xs =>
    match parseSearchId y, parseTable xs with
    | some e, some es => some ((k, e) :: es)
    | _, _ => none

/-- `parse_rule` (sigma.cpp:335-371), from the `detection` attribute on: the search identifiers and the condition. -/
def parseRule (find : Text → Text → Bool) (ids : List (Text × Y)) (cond : Text) : Option (E Pred) :=
  match parseTable ids with
  | none => none
  | some tbl => parse (condition find tbl) cond

end Verif.Sigma
