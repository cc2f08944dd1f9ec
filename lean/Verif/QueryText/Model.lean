/-!
# The text of expressions

Models the grammar of the query language in `libvast/src/concept/parseable/vast/expression.cpp:198-263` and the
printer `libvast/vast/concept/printable/vast/expression.hpp:26-83`.  The condition of a Sigma rule has the same
grammar with other tokens (`libvast/src/detail/sigma.cpp:114-177`: "directly copied"), so tokens and the parser of
the operands are parameters.

Parsers are functions from a text to a value and the rest of the text; the combinators of
`vast/concept/parseable/core` (sequence, choice, kleene) restore the position when they fail.
-/
namespace Verif.QueryText

/-- Text. -/
abbrev Text := List Char

/-- An expression over operands `α` (libvast/vast/expression.hpp:166-260).  Simplification: a predicate, and
whatever else an operand of the grammar may stand for, is one leaf. -/
inductive E (α : Type) where
  | leaf (a : α)
  | conj (xs : List (E α))
  | disj (xs : List (E α))
  | neg (x : E α)

/-- The parts of the grammar that differ between queries and Sigma conditions. -/
structure Grammar (α : Type) where
  andTok : Text
  orTok : Text
  notTok : Text
  /-- `pred_expr`, respectively `search_id` -/
  leaf : Text → Option (E α × Text)
  /-- whether a negated operand is tried before a negated parenthesis (expression.cpp:245-246) or after
  (sigma.cpp:160-161) -/
  leafFirst : Bool

variable {α : Type}

/-- Whitespace (`std::isspace` in the C locale). -/
def isSpace (c : Char) : Bool :=
  c == ' ' || c == '\t' || c == '\n' || c == '\r' || c == Char.ofNat 11 || c == Char.ofNat 12

/-- `ignore(*parsers::space)`. -/
def ws : Text → Text
  | [] => []
  | c :: s => if isSpace c then ws s else c :: s

/-- A literal. -/
def lit : Text → Text → Option Text
  | [], s => some s
  | _ :: _, [] => none
  | t :: ts, c :: s => if t = c then lit ts s else none

/-- A connective over the elements, or the element itself if there is one only (expression.cpp:220-223, 228-232). -/
def single (mk : List (E α) → E α) : List (E α) → E α
  | [x] => x
  | xs => mk xs

/-- `to_expr` (expression.cpp:207-233, sigma.cpp:120-148), the loop: the disjunction and the conjunction in progress.
`true` stands for OR. -/
def toExprLoop : List (E α) → List (E α) → List (Bool × E α) → List (E α) × List (E α)
  | dis, con, [] => (dis, con)
  | dis, con, (false, x) :: xs => toExprLoop dis (con ++ [x]) xs
  | dis, con, (true, x) :: xs => toExprLoop (dis ++ [single .conj con]) [x] xs

/-- `to_expr` (expression.cpp:207-233, sigma.cpp:120-148). -/
def toExpr (x : E α) (xs : List (Bool × E α)) : E α :=
  match xs with
  | [] => x
  | _ =>
    let (dis, con) := toExprLoop [] [x] xs
    single .disj (dis ++ [single .conj con])

/-- `'(' >> ws >> ref(expr) >> ws >> ')'` -/
def parens (sub : Text → Option (E α × Text)) (s : Text) : Option (E α × Text) :=
  match lit ['('] s with
  | none => none
  | some s =>
    match sub (ws s) with
    | none => none
    | some (x, s) =>
      match lit [')'] (ws s) with
      | none => none
      | some s => some (x, s)

/-- A negation in front of what `p` parses. -/
def negated (g : Grammar α) (p : Text → Option (E α × Text)) (s : Text) : Option (E α × Text) :=
  match lit g.notTok s with
  | none => none
  | some s =>
    match p (ws s) with
    | none => none
    | some (x, s) => some (.neg x, s)

/-- `group` (expression.cpp:243-248, sigma.cpp:158-163). -/
def group (g : Grammar α) (sub : Text → Option (E α × Text)) (s : Text) : Option (E α × Text) :=
  match parens sub s with
  | some r => some r
  | none =>
    match negated g (if g.leafFirst then g.leaf else parens sub) s with
    | some r => some r
    | none =>
      match negated g (if g.leafFirst then parens sub else g.leaf) s with
      | some r => some r
      | none => g.leaf s

/-- `and_or` (expression.cpp:249-252, sigma.cpp:164-167). -/
def andOr (g : Grammar α) (s : Text) : Option (Bool × Text) :=
  match lit g.orTok s with
  | some s => some (true, s)
  | none =>
    match lit g.andTok s with
    | some s => some (false, s)
    | none => none

/-- `*(ws >> and_or >> ws >> ref(group))` (expression.cpp:259, sigma.cpp:169).  Every round consumes a token, so the
length of the text bounds the number of rounds. -/
def chain (g : Grammar α) (grp : Text → Option (E α × Text)) : Nat → Text → List (Bool × E α) × Text
  | 0, s => ([], s)
  | n + 1, s =>
    match andOr g (ws s) with
    | none => ([], s)
    | some (op, r) =>
      match grp (ws r) with
      | none => ([], s)
      | some (x, r) =>
        let (xs, r) := chain g grp n r
        ((op, x) :: xs, r)

/-- `expr` (expression.cpp:253-260, sigma.cpp:168-170).  Every level consumes a parenthesis, so the length of the text
bounds the nesting. -/
def expr (g : Grammar α) : Nat → Text → Option (E α × Text)
  | 0, _ => none
  | d + 1, s =>
    match group g (expr g d) s with
    | none => none
    | some (x, r) =>
      let (xs, r) := chain g (group g (expr g d)) r.length r
      some (toExpr x xs, ws r)

/-- `expr >> parsers::eoi` (expression.cpp:262, sigma.cpp:172). -/
def parse (g : Grammar α) (s : Text) : Option (E α) :=
  match expr g (s.length + 1) s with
  | some (x, []) => some x
  | _ => none

mutual
/-- `expression_printer` (libvast/vast/concept/printable/vast/expression.hpp:34-58) for an expression that is not
empty; `pr` prints a predicate. -/
def print (pr : α → Text) : E α → Text
  | .leaf a => pr a
  | .conj xs => ['('] ++ printAll pr [' ', '&', '&', ' '] xs ++ [')']
  | .disj xs => ['('] ++ printAll pr [' ', '|', '|', ' '] xs ++ [')']
  | .neg x => ['!', ' '] ++ print pr x

/-- `expression_printer{} % sep` (libvast/vast/concept/printable/core/list.hpp:29-43). -/
def printAll (pr : α → Text) (sep : Text) : List (E α) → Text
  | [] => []
  | x :: xs => print pr x ++ printMore pr sep xs

/-- The elements behind the first. -/
def printMore (pr : α → Text) (sep : Text) : List (E α) → Text
  | [] => []
  | x :: xs => sep ++ print pr x ++ printMore pr sep xs
end

end Verif.QueryText
