import Verif.Expr.Spec
import Verif.Bitmap.AlgoSpec

/-! # Evaluating an expression from the results of indexers

Models libvast/src/system/evaluator.cpp, and the positions of predicates of libvast/src/expression.cpp. An ID set is
the list of its bits; see C03 for the operations of the bitmap that it is in the code. Nothing is known about the order
in which replies to requests arrive. -/

namespace Verif.Evaluator
open Verif.Expr
open Verif.Bitmap.Spec (pointwise)

/-- ids.hpp `ids` -/
abbrev Ids := List Bool

/-- offset.hpp `offset` -/
abbrev Position := List Nat

variable {τ : Type}

/-! ### Positions -/

/-- expression.cpp:208-223 the local function `at` -/
def child (i : Nat) : Expr τ → Option (Expr τ)
  | .conj xs => xs[i]?
  | .disj xs => xs[i]?
  | .neg x => if i = 0 then some x else none
  | _ => none

/-- expression.cpp:233-238: the loop of `at` -/
def follow : Position → Expr τ → Option (Expr τ)
  | [], e => some e
  | i :: o, e => (child i e).bind (follow o)

/-- expression.cpp:227-239 `at` -/
def at_ (e : Expr τ) : Position → Option (Expr τ)
  | [] => none
  | [i] => if i = 0 then some e else none
  | _ :: i :: o => follow (i :: o) e

mutual
/-- expression.cpp:243-283 `resolve_impl`. `res` is what `type_resolver` and `predicatizer` make of a predicate, and
    `none` is an error. -/
def resolveAt (res : Pred τ → Option (List (Pred τ))) (o : Position) : Expr τ → Option (List (Position × Pred τ))
  | .none => none
  | .pred p => (res p).map fun qs => qs.map fun q => (o, q)
  | .conj xs => resolveFrom res o 0 xs
  | .disj xs => resolveFrom res o 0 xs
  | .neg x => resolveAt res (o ++ [0]) x

/-- expression.cpp:246-259: the loop over the operands of a connective -/
def resolveFrom (res : Pred τ → Option (List (Pred τ))) (o : Position) : Nat → List (Expr τ) → Option (List (Position × Pred τ))
  | _, [] => some []
  | i, x :: xs => (resolveAt res (o ++ [i]) x).bind fun a => (resolveFrom res o (i + 1) xs).map fun b => a ++ b
end

/-- expression.cpp:287-294 `resolve` -/
def resolve (res : Pred τ → Option (List (Pred τ))) (e : Expr τ) : List (Position × Pred τ) :=
  (resolveAt res [0] e).getD []

/-! ### The evaluator -/

/-- evaluator.hpp:27 `predicate_hits_map` -/
abbrev HitsMap := Position → Option (Nat × Ids)

mutual
/-- evaluator.cpp:27-84 `ids_evaluator`; the position is that of the expression. -/
def evalAt (hits : HitsMap) (o : Position) : Expr τ → Ids
  | .none => []
  | .pred _ => match hits o with
    | some (_, ids) => ids
    | none => []
  | .conj xs => evalFrom (· && ·) hits o 0 none xs
  | .disj xs => evalFrom (· || ·) hits o 0 none xs
  | .neg x => (evalAt hits (o ++ [0]) x).map (!·)

/-- evaluator.cpp:37-53: the loop over the operands of a connective, which are at least one (39) -/
def evalFrom (f : Bool → Bool → Bool) (hits : HitsMap) (o : Position) : Nat → Option Ids → List (Expr τ) → Ids
  | _, acc, [] => acc.getD []
  | i, none, x :: xs => evalFrom f hits o (i + 1) (some (evalAt hits (o ++ [i]) x)) xs
  | i, some a, x :: xs => evalFrom f hits o (i + 1) (some (pointwise f a (evalAt hits (o ++ [i]) x))) xs
end

/-- evaluator.hpp:26-73 `evaluator_state`, with what was delivered to the promise -/
structure State (τ : Type) where
  expr : Expr τ
  pending : Nat
  hits : HitsMap
  result : Ids
  delivered : List Ids

/-- evaluator.cpp:158-165: `pending_responses`, and `predicate_hits` when all requests are sent -/
def start (e : Expr τ) (positions : List Position) : State τ where
  expr := e
  pending := positions.length
  hits := fun o => if positions.count o = 0 then none else some (positions.count o, [])
  result := []
  delivered := if positions.length = 0 then [[]] else []

/-- evaluator.cpp:124-127: the hits that are new -/
def delta (s : State τ) : Ids := pointwise (fun a b => a && !b) (evalAt s.hits [0] s.expr) s.result

/-- evaluator.cpp:123-130 `evaluate` -/
def evaluate (s : State τ) : State τ :=
  if (delta s).any id then { s with result := pointwise (· || ·) s.result (delta s) } else s

/-- evaluator.cpp:132-140 `decrement_pending` -/
def decrementPending (s : State τ) : State τ :=
  if s.pending - 1 = 0 then { s with pending := s.pending - 1, delivered := s.delivered ++ [s.result] }
  else { s with pending := s.pending - 1 }

/-- evaluator.cpp:99-101, 116: the entry of a position after a reply -/
def accumulate (s : State τ) (o : Position) (missing : Nat) (ids : Ids) (r : Option Ids) : State τ :=
  { s with hits := fun p => if p = o then some (missing - 1, match r with
      | some r => pointwise (· || ·) ids r
      | none => ids) else s.hits p }

/-- evaluator.cpp:94-121 `handle_result` and `handle_missing_result`: `none` is an error instead of a result. An unknown
    position does not occur (98, 115). -/
def handle (s : State τ) (o : Position) (r : Option Ids) : State τ :=
  match s.hits o with
  | none => s
  | some (missing, ids) =>
    decrementPending (if missing - 1 = 0 then evaluate (accumulate s o missing ids r) else accumulate s o missing ids r)

/-- The replies arrive in some order. -/
def run (s : State τ) (replies : List (Position × Option Ids)) : State τ := replies.foldl (fun s r => handle s r.1 r.2) s

end Verif.Evaluator
