import Verif.Expr.Model

/-! # Concepts and models

Models libvast/src/taxonomies.cpp. Maps are lists of pairs that are searched from the front. -/

namespace Verif.Taxonomy
open Verif.Expr
open Verif.Data (Data RelOp Str)

abbrev Name := Str

/-- taxonomies.hpp:26-45 `concept_`, without the description -/
structure Concept where
  fields : List Name
  concepts : List Name
deriving DecidableEq

/-- taxonomies.hpp:48 `concepts_map` -/
abbrev Concepts := List (Name × Concept)

/-- taxonomies.hpp:75 `models_map`; a model is its definition. -/
abbrev Models := List (Name × List Name)

/-- `stable_map::find` -/
def find {α : Type} (m : List (Name × α)) (n : Name) : Option α := (m.find? (·.1 = n)).map (·.2)

/-! ### Resolving lists of names -/

/-- The state of taxonomies.cpp:189-220: the concepts in `resolved_concepts_cache` and `fields_or_concepts` -/
structure State where
  cache : List Name
  out : List Name

/-- taxonomies.cpp:193-216 `try_resolve_concept`; the first argument is `recursion_limit`. -/
def tryResolve (cs : Concepts) : Nat → Name → State → State
  | 0, _, s => s
  | limit + 1, x, s =>
    match find cs x with
    | some c =>
      if x ∈ s.cache then s
      else c.concepts.foldl (fun s y => tryResolve cs limit y s) ⟨x :: s.cache, s.out ++ c.fields⟩
    | none => { s with out := s.out ++ [x] }

/-- defaults.hpp:28 `max_recursion` -/
def maxRecursion : Nat := 100

/-- taxonomies.cpp:189-220 `resolve_concepts` -/
def resolveConcepts (cs : Concepts) (names : List Name) : List Name :=
  (names.foldl (fun s x => tryResolve cs maxRecursion x s) ⟨[], []⟩).out

/-! ### Resolving predicates -/

/-- stable_set.hpp `insert` for a list of names -/
def insertNew (s : List Name) (xs : List Name) : List Name := xs.foldl (fun s x => if x ∈ s then s else s ++ [x]) s

/-- taxonomies.cpp:267-276 `load_definition` on `log` and `target_fields` -/
def loadDefinition (c : Concept) (s : List Name × List Name) : List Name × List Name :=
  (insertNew s.1 c.concepts, insertNew s.2 c.fields)

/-- taxonomies.cpp:281-282: one iteration of the loop -/
def loadNamed (cs : Concepts) (s : List Name × List Name) (x : Name) : List Name × List Name :=
  match find cs x with
  | some d => loadDefinition d s
  | none => s

/-- taxonomies.cpp:280-282: the loop over the log. Appending to a deque invalidates all its iterators, so `none` is
    the undefined behavior of a loop that appends. -/
def loadLog (cs : Concepts) (s : List Name × List Name) : Option (List Name) :=
  if (s.1.foldl (loadNamed cs) s).1 = s.1 then some (s.1.foldl (loadNamed cs) s).2 else none

/-- taxonomies.cpp:263-282: `target_fields` of a concept -/
def targetFields (cs : Concepts) (c : Concept) : Option (List Name) := loadLog cs (loadDefinition c ([], []))

/-- The layouts seen for every name, as lists of flat fields (see C49 for flattening) -/
abbrev Seen (T : Type) := List (Name × List (List (Name × T)))

/-- taxonomies.cpp:225-243: the loop of `contains`. `pre` is what is left of the position `pos` and `rest` what is
    right of it. -/
def containsFrom {T : Type} (seen : Seen T) (compat : T → Bool) : Name → Name → Bool
  | _, [] => false
  | pre, c :: rest =>
    if c = 46 then
      match find seen pre with
      | some layouts => layouts.any fun l =>
        match find l rest with
        | some t => compat t
        | none => false
      | none => containsFrom seen compat (pre ++ [c]) rest
    else containsFrom seen compat (pre ++ [c]) rest

/-- taxonomies.cpp:222-244 `contains` -/
def contains {T : Type} (seen : Seen T) (compat : T → RelOp → Data → Bool) (x : Name) (op : RelOp) (d : Data) : Bool :=
  containsFrom seen (fun t => compat t op d) [] x

/-- The result of resolving: a value, an error, undefined behavior, or no result with the given fuel -/
inductive Outcome (α : Type) where
  | ok (x : α)
  | error
  | ub
  | timeout
deriving DecidableEq

def Outcome.bind {α β : Type} (x : Outcome α) (f : α → Outcome β) : Outcome β :=
  match x with
  | .ok a => f a
  | .error => .error
  | .ub => .ub
  | .timeout => .timeout

variable {τ : Type}

/-- taxonomies.cpp: the arguments of `resolve_impl`; `keep` is `!prune || contains(seen, …)`. -/
structure Context where
  concepts : Concepts
  models : Models
  keep : Name → RelOp → Data → Bool

/-- taxonomies.cpp:290-297: a disjunction of the predicates, or the original predicate if there is none -/
def anyOf (p : Pred τ) : List (Pred τ) → Expr τ
  | [] => .pred p
  | [x] => .pred x
  | xs => .disj (xs.map .pred)

/-- taxonomies.cpp:251-298 the local function `resolve_concepts` -/
def conceptExpr (ctx : Context) (p : Pred τ) (name : Name) (op : RelOp) (d : Data)
    (mk : RelOp → Data → Name → Pred τ) : Outcome (Expr τ) :=
  match find ctx.concepts name with
  | none => .ok (.pred p)
  | some c =>
    match targetFields ctx.concepts c with
    | none => .ub
    | some fs => .ok (anyOf p ((fs.filter (ctx.keep · op d)).map (mk op d)))

/-- taxonomies.cpp:323-330 `descend`. A level is the rest of a definition, and the levels are from the top of the
    stack. The number is fuel. -/
def descend (models : Models) : Nat → List (List Name) → Outcome (List (List Name))
  | 0, _ => .timeout
  | fuel + 1, levels =>
    match levels with
    | (x :: rest) :: more =>
      match find models x with
      | some d => descend models fuel (d :: (x :: rest) :: more)
      | none => .ok ((x :: rest) :: more)
    | _ => .ub

/-- taxonomies.cpp:335-336: the loop of `next_leaf` -/
def advance : List (List Name) → List (List Name)
  | [] => []
  | [] :: more => advance more
  | [_] :: more => advance more
  | (_ :: y :: rest) :: more => (y :: rest) :: more

/-- taxonomies.cpp:333-342 and the loops over `next_leaf` (366, 379): the leaves from here on. The levels are those
    after `descend`. -/
def leafSeq (models : Models) : Nat → List (List Name) → Outcome (List Name)
  | 0, _ => .timeout
  | fuel + 1, levels =>
    match levels with
    | (x :: rest) :: more =>
      match advance ((x :: rest) :: more) with
      | [] => .ok [x]
      | l :: ls => (descend models fuel (l :: ls)).bind fun ls => (leafSeq models fuel ls).bind fun xs => .ok (x :: xs)
    | _ => .ub

/-- taxonomies.cpp:320-332: the leaves of a model's definition, from left to right -/
def modelLeaves (models : Models) (fuel : Nat) (definition : List Name) : Outcome (List Name) :=
  (descend models fuel [definition]).bind (leafSeq models fuel)

/-- taxonomies.cpp:351-359 `make_meta_field_predicate` -/
def metaField : RelOp → Data → Name → Pred τ := fun op _ x => ⟨.metaField, op, .data (.string x)⟩

/-- The two conjunctions `restricted` and `unrestricted` (345-347) -/
abbrev Parts (τ : Type) := List (Expr τ) × List (Expr τ)

/-- taxonomies.cpp:349-360 `insert_meta_field_predicate` -/
def addMeta (ctx : Context) (p : Pred τ) (leaf : Name) (acc : Parts τ) : Outcome (Parts τ) :=
  (conceptExpr ctx p leaf .equal .none metaField).bind fun e => .ok (acc.1, acc.2 ++ [e])

/-- taxonomies.cpp:373-375, 393-395 -/
def addValue (ctx : Context) (p : Pred τ) (op : RelOp) (mk : RelOp → Data → Name → Pred τ) (leaf : Name) (d : Data)
    (acc : Parts τ) : Outcome (Parts τ) :=
  (conceptExpr ctx p leaf op d mk).bind fun e => .ok (acc.1 ++ [e], acc.2)

/-- taxonomies.cpp:366-376: the loop for records with names -/
def namedLoop (ctx : Context) (p : Pred τ) (op : RelOp) (mk : RelOp → Data → Name → Pred τ) (r : List (Name × Data)) :
    List Name → Parts τ → Outcome (Parts τ)
  | [], acc => .ok acc
  | x :: xs, acc =>
    (match find r x with
     | none => addMeta ctx p x acc
     | some d => addValue ctx p op mk x d acc).bind (namedLoop ctx p op mk r xs)

/-- taxonomies.cpp:390: a null value in a record without names is a placeholder. -/
def placeholder : Data → Option Data
  | .none => none
  | d => some d

/-- taxonomies.cpp:378-408: the loop for records without names -/
def unnamedLoop (ctx : Context) (p : Pred τ) (op : RelOp) (mk : RelOp → Data → Name → Pred τ) :
    List (Name × Data) → List Name → Parts τ → Outcome (Parts τ)
  | [], [], acc => .ok acc
  | _ :: _, [], _ => .error
  | [], _ :: _, _ => .error
  | (_, d) :: r, x :: xs, acc =>
    (match placeholder d with
     | none => addMeta ctx p x acc
     | some d => addValue ctx p op mk x d acc).bind (unnamedLoop ctx p op mk r xs)

/-- taxonomies.cpp:411-423: one operand or a conjunction -/
def allOf : List (Expr τ) → Expr τ
  | [x] => x
  | xs => .conj xs

/-- taxonomies.cpp:410-429 -/
def combine (op : RelOp) : Parts τ → Expr τ
  | ([], un) => .conj un
  | (x :: xs, []) => if op.isNegated then .neg (allOf (x :: xs)) else allOf (x :: xs)
  | (x :: xs, u :: us) =>
    .conj ((u :: us) ++ [if op.isNegated then .neg (allOf (x :: xs)) else allOf (x :: xs)])

/-- taxonomies.cpp:299-430 `resolve_models`. The code makes the predicates while it walks over the leaves; here all
    leaves come first, which only differs in which of an error, undefined behavior and an endless loop it is. -/
def modelExpr (ctx : Context) (fuel : Nat) (p : Pred τ) (name : Name) (op : RelOp) (d : Data)
    (mk : RelOp → Data → Name → Pred τ) : Outcome (Expr τ) :=
  match d with
  | .record names vals =>
    match names.zip vals with
    | [] => .ok .none
    | (k, v) :: r =>
      match find ctx.models name with
      | none => conceptExpr ctx p name op d mk
      | some definition =>
        (modelLeaves ctx.models fuel definition).bind fun leaves =>
          (if k ≠ [] then namedLoop ctx p (if op.isNegated then op.negate else op) mk ((k, v) :: r) leaves ([], [])
           else unnamedLoop ctx p (if op.isNegated then op.negate else op) mk ((k, v) :: r) leaves ([], [])).bind
            fun parts => .ok (combine op parts)
  | _ => conceptExpr ctx p name op d mk

/-- taxonomies.cpp:431-453: one predicate -/
def resolvePred (ctx : Context) (fuel : Nat) (p : Pred τ) : Outcome (Expr τ) :=
  match p.lhs, p.rhs with
  | .field name, .data d => modelExpr ctx fuel p name p.op d fun op d x => ⟨.field x, op, .data d⟩
  | .data d, .field name => modelExpr ctx fuel p name p.op d fun op d x => ⟨.data d, op, .field x⟩
  | _, _ => .ok (.pred p)

mutual
/-- expression.hpp:270-327 `for_each_predicate` with taxonomies.cpp:246-455 `resolve_impl`. The transformer uses
    the operand of a negation without a check for an error (286-293). -/
def resolve (ctx : Context) (fuel : Nat) : Expr τ → Outcome (Expr τ)
  | .none => .ok .none
  | .pred p => resolvePred ctx fuel p
  | .conj xs => (resolveAll ctx fuel xs).bind fun ys => .ok (.conj ys)
  | .disj xs => (resolveAll ctx fuel xs).bind fun ys => .ok (.disj ys)
  | .neg x =>
    match resolve ctx fuel x with
    | .error => .ub
    | r => r.bind fun y => .ok (.neg y)

/-- expression.hpp:301-316 `make_result` -/
def resolveAll (ctx : Context) (fuel : Nat) : List (Expr τ) → Outcome (List (Expr τ))
  | [] => .ok []
  | x :: xs => (resolve ctx fuel x).bind fun y => (resolveAll ctx fuel xs).bind fun ys => .ok (y :: ys)
end

end Verif.Taxonomy
