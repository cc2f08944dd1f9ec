/-!
# Recursive grammars

Parser combinators (`libvast/vast/concept/parseable/core`) with `rule` and `ref`, with which grammars become recursive: which input is accepted, and where a
parser stops.  Attributes, guards and `skip` are left out.  Parsers without rules can be given as functions.
-/
namespace Verif.Grammar

/-- Parsers over characters `α`. -/
inductive Parser (α : Type)
  /-- A parser without rules: what is left if it succeeds.  If it fails, it does not move. -/
  | leaf (f : List α → Option (List α))
  /-- `p >> q` -/
  | seq (p q : Parser α)
  /-- `p | q` -/
  | choice (p q : Parser α)
  /-- `*p` -/
  | kleene (p : Parser α)
  /-- `+p` -/
  | plus (p : Parser α)
  /-- `-p`, `~p` -/
  | opt (p : Parser α)
  /-- `p % q` -/
  | list (p q : Parser α)
  /-- `&p` -/
  | conj (p : Parser α)
  /-- `!p` -/
  | neg (p : Parser α)
  /-- `p - q` -/
  | diff (p q : Parser α)
  /-- `rule`, `ref(rule)` -/
  | rule (i : Nat)

variable {α : Type}

/-- What a call returns, and the position after it.  `none`: there are more calls within calls than allowed. -/
abbrev Res (α : Type) := Option (Bool × List α)

/-- `if (call) ... else ...` -/
def on (r : Res α) (yes no : List α → Res α) : Res α := match r with
  | none => none
  | some (true, t) => yes t
  | some (false, t) => no t

/-- The functions `parse`.  The parser of each rule is `G`; rules are alive as long as they are referred to (core/rule.hpp:180-183, 223-233).  The depth of calls is bounded; a loop
counts as a call for each step.  A list (core/list.hpp:30-38) goes back to the position before the last separator, as the sequence of separator and element does. -/
def Parser.run (G : Nat → Parser α) : Nat → Parser α → List α → Res α
  | 0, _, _ => none
  | _ + 1, .leaf f, s => match f s with
    | some t => some (true, t)
    | none => some (false, s)
  | n + 1, .seq p q, s =>                                                 -- core/sequence.hpp:69-75
    on (run G n p s) (fun t => on (run G n q t) (fun u => some (true, u)) (fun _ => some (false, s))) (fun _ => some (false, s))
  | n + 1, .choice p q, s =>                                              -- core/choice.hpp:66-75
    on (run G n p s) (fun t => some (true, t)) (fun _ => on (run G n q s) (fun t => some (true, t)) (fun _ => some (false, s)))
  | n + 1, .kleene p, s =>                                                -- core/kleene.hpp:28-32
    on (run G n p s) (fun t => run G n (.kleene p) t) (fun t => some (true, t))
  | n + 1, .plus p, s =>                                                  -- core/plus.hpp:28-34
    on (run G n p s) (fun t => run G n (.kleene p) t) (fun t => some (false, t))
  | n + 1, .opt p, s =>                                                   -- core/optional.hpp:35-44, core/maybe.hpp:26-29
    on (run G n p s) (fun t => some (true, t)) (fun t => some (true, t))
  | n + 1, .list p q, s =>                                                -- core/list.hpp:30-38
    on (run G n p s) (fun t => run G n (.kleene (.seq q p)) t) (fun t => some (false, t))
  | n + 1, .conj p, s =>                                                  -- core/and.hpp:25-28
    on (run G n p s) (fun _ => some (true, s)) (fun _ => some (false, s))
  | n + 1, .neg p, s =>                                                   -- core/not.hpp:24-27
    on (run G n p s) (fun _ => some (false, s)) (fun _ => some (true, s))
  | n + 1, .diff p q, s =>                                                -- core/difference.hpp:27-33
    on (run G n q s) (fun _ => some (false, s)) (fun t => run G n p t)
  | n + 1, .rule i, s => run G n (G i) s                                  -- core/rule.hpp:180-183, 223-233

/-- A character of a class: string/char_class.hpp:40-46. -/
def sat (p : Char → Bool) : Parser Char := .leaf fun s => match s with
  | c :: t => if p c then some t else none
  | [] => none

/-- string/literal.hpp:25-34. -/
def strip : List Char → List Char → Option (List Char)
  | [], s => some s
  | _ :: _, [] => none
  | a :: w, b :: s => if a = b then strip w s else none

/-- `'c'`, `"text"`. -/
def lit (w : String) : Parser Char := .leaf (strip w.toList)

/-- core/end_of_input.hpp:21-23. -/
def eoi : Parser Char := .leaf fun s => if s.isEmpty then some s else none

/-- `isspace`. -/
def isSpace (c : Char) : Bool := c == ' ' || (9 ≤ c.toNat && c.toNat ≤ 13)

/-- `ws`: concept/parseable/vast/expression.cpp:234, data.hpp:43. -/
def ws : Parser Char := .kleene (sat isSpace)

infixr:60 " ⟫ " => Parser.seq
infixr:55 " ∣∣ " => Parser.choice

/-- The grammar of queries (src/concept/parseable/vast/expression.cpp:234-262): rule 0 is `expr`, rule 1 `group`; `pred` is `pred_expr`. -/
def query (pred : Parser Char) : Nat → Parser Char
  | 0 => .rule 1 ⟫ .kleene (ws ⟫ (lit "||" ∣∣ lit "&&") ⟫ ws ⟫ .rule 1) ⟫ ws
  | _ => lit "(" ⟫ ws ⟫ .rule 0 ⟫ ws ⟫ lit ")"
    ∣∣ lit "!" ⟫ ws ⟫ pred
    ∣∣ lit "!" ⟫ ws ⟫ lit "(" ⟫ ws ⟫ .rule 0 ⟫ ws ⟫ lit ")"
    ∣∣ pred

/-- `x` (concept/parseable/vast/data.hpp:44). -/
def value : Parser Char := ws ⟫ .rule 0 ⟫ ws

/-- `trailing_comma` (concept/parseable/vast/data.hpp:46). -/
def comma : Parser Char := .opt (lit "," ⟫ ws)

/-- The grammar of data (concept/parseable/vast/data.hpp:41-81): rule 0 is `p`; `scalar` are the alternatives before lists, `name` is `identifier`. -/
def datum (scalar name : Parser Char) : Nat → Parser Char := fun _ =>
  scalar
  ∣∣ lit "[" ⟫ .opt (.list value (lit ",")) ⟫ comma ⟫ lit "]"
  ∣∣ lit "{" ⟫ .opt (.list (value ⟫ lit "->" ⟫ value) (lit ",")) ⟫ comma ⟫ lit "}"
  ∣∣ (lit "<" ⟫ .opt (.list (ws ⟫ name ⟫ lit ":" ⟫ value) (lit ",")) ⟫ comma ⟫ lit ">"
    ∣∣ lit "<" ⟫ .list value (lit ",") ⟫ comma ⟫ lit ">")
  ∣∣ lit "nil"
  ∣∣ lit "_"

/-- The grammar of the conditions of Sigma rules (src/detail/sigma.cpp:153-172): rule 0 is `expr`, rule 1 `group`; `search` is `search_id`. -/
def sigma (search : Parser Char) : Nat → Parser Char
  | 0 => .rule 1 ⟫ .kleene (ws ⟫ (lit "or" ∣∣ lit "and") ⟫ ws ⟫ .rule 1) ⟫ ws
  | _ => lit "(" ⟫ ws ⟫ .rule 0 ⟫ ws ⟫ lit ")"
    ∣∣ lit "not" ⟫ ws ⟫ lit "(" ⟫ ws ⟫ .rule 0 ⟫ ws ⟫ lit ")"
    ∣∣ lit "not" ⟫ ws ⟫ search
    ∣∣ search

/-- `identifier_char`, for ASCII (concept/parseable/vast/identifier.hpp:19). -/
def isName (c : Char) : Bool := c.isAlphanum || c == '_' || c == '.'

/-- `identifier` (concept/parseable/vast/identifier.hpp:20). -/
def identifier : Parser Char := .plus (sat isName)

/-- `record_type_parser` (src/concept/parseable/vast/type.cpp:97-102); `skp` and `fieldName` are parameters. -/
def recordType (skp fieldName : Parser Char) : Parser Char :=
  lit "record" ⟫ skp ⟫ lit "{" ⟫ .list (skp ⟫ (fieldName ⟫ skp ⟫ lit ":" ⟫ skp ⟫ .rule 0) ⟫ skp) (lit ",") ⟫ .opt (lit "," ⟫ skp) ⟫ lit "}"

/-- `algebra_operand_parser` (src/concept/parseable/vast/type.cpp:110-117). -/
def operand (skp fieldName : Parser Char) : Parser Char := (recordType skp fieldName ∣∣ identifier) ∣∣ .rule 1

/-- The grammar of types (src/concept/parseable/vast/type.cpp:68-172): rule 0 is `type_type`, rule 1 `type_expr_parser`.  Comments and spaces, the names of fields, basic types, enumerations, attributes and the
names behind a minus are parameters. -/
def types (skp fieldName basic enumeration attributes qualified : Parser Char) : Nat → Parser Char
  | 0 => (.rule 1 ∣∣ basic ∣∣ enumeration
      ∣∣ lit "list" ⟫ skp ⟫ lit "<" ⟫ skp ⟫ .rule 0 ⟫ skp ⟫ lit ">"
      ∣∣ lit "map" ⟫ skp ⟫ lit "<" ⟫ skp ⟫ .rule 0 ⟫ skp ⟫ lit "," ⟫ skp ⟫ .rule 0 ⟫ skp ⟫ lit ">"
      ∣∣ recordType skp fieldName ∣∣ identifier) ⟫ attributes
  | _ => operand skp fieldName ⟫ skp ⟫ .plus (skp ⟫ (lit "+>" ⟫ skp ⟫ operand skp fieldName ∣∣ lit "+" ⟫ skp ⟫ operand skp fieldName
      ∣∣ lit "<+" ⟫ skp ⟫ operand skp fieldName ∣∣ lit "-" ⟫ skp ⟫ qualified))

end Verif.Grammar
