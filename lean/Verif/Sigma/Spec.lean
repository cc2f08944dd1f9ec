import Verif.Sigma.Model
import Verif.QueryText.Spec
/-!
# What a Sigma rule means
-/
namespace Verif.Sigma
open Verif.QueryText

variable {α : Type}

/-- A list of values under a key: any of them, or all of them with the modifier `all`. -/
def valuesHold (m : Key → Y → Bool) (k : Key) : Y → Bool
  | .list ys => if .all ∈ k.mods then ys.all (m k) else ys.any (m k)
  | y => m k y

mutual
/-- A search identifier holds: a map if all of its entries do, a list if any of its elements does; `m` tells whether a
field matches a value. -/
def Y.holds (m : Key → Y → Bool) : Y → Bool
  | .map xs => xs.all fun x => valuesHold m x.1 x.2
  | .list ys => Y.holdsAny m ys
  | _ => false

/-- Any of them holds. -/
def Y.holdsAny (m : Key → Y → Bool) : List Y → Bool
  | [] => false
  | y :: ys => Y.holds m y || Y.holdsAny m ys
end

/-- A scalar. -/
def Y.isScalar : Y → Bool
  | .str _ => true
  | .scalar _ => true
  | _ => false

/-- A scalar or a list of scalars. -/
def Y.isValues : Y → Bool
  | .list ys => ys.all (·.isScalar)
  | y => y.isScalar

mutual
/-- The search identifier has the form Sigma prescribes and no modifier that is not implemented. -/
def Y.wellFormed : Y → Bool
  | .map xs => xs.all fun x => !x.1.mods.contains .unimplemented && x.2.isValues
  | .list ys => Y.wellFormedAll ys
  | _ => false

/-- All of them have. -/
def Y.wellFormedAll : List Y → Bool
  | [] => true
  | y :: ys => Y.wellFormed y && Y.wellFormedAll ys
end

/-- A predicate on an event whose field has the string value `x`; `rx` is the matching of regular expressions. -/
def strHolds (rx : Text → Text → Bool) (p : Pred) (x : Text) : Bool :=
  match p.op, p.value with
  | .equal, .str s => decide (x = s)
  | .ni, .str s => decide (s <:+: x)
  | .match, .pattern r => rx r x
  | _, _ => false

/-- Text without the special characters of Sigma. -/
def NoWildcards (s : Text) : Prop := ∀ c ∈ s, c ≠ '*' ∧ c ≠ '?' ∧ c ≠ '\\'

/-! ## Conditions -/

/-- Identifiers as they usually are: no blanks or parentheses, not one of the words of the grammar, and not beginning
with `not`. -/
structure PlainName (n : Text) : Prop where
  chars : ∀ c ∈ n, isSpace c = false ∧ c ≠ '(' ∧ c ≠ ')'
  nonempty : n ≠ []
  all : n ≠ "all".toList
  one : n ≠ "1".toList
  not : isPrefix "not".toList n = false
  them : isPrefix n "them".toList = false

/-- Plain, distinct identifiers. -/
structure PlainTable (tbl : Table α) : Prop where
  plain : ∀ k ∈ tbl, PlainName k.1
  nodup : (tbl.map (·.1)).Nodup

/-- The parts of a connective. -/
def members : E α → List (E α)
  | .conj xs => xs
  | .disj xs => xs
  | x => [x]

/-- What the operands of a condition stand for: an identifier for its expression, `all of them` and `1 of them` for all
or any of the identifiers, `all of` and `1 of` an identifier for all or any of the parts of its expression. -/
inductive Operand (tbl : Table α) : Text → E α → Prop where
  | name (n : Text) (x : E α) (h : (n, x) ∈ tbl) : Operand tbl n x
  | allThem (w : Text) (hw : Blank w) : Operand tbl ("all of".toList ++ w ++ "them".toList) (.conj (tbl.map (·.2)))
  | oneThem (w : Text) (hw : Blank w) : Operand tbl ("1 of".toList ++ w ++ "them".toList) (.disj (tbl.map (·.2)))
  | allOf (w n : Text) (x : E α) (hw : Blank w) (h : (n, x) ∈ tbl) :
      Operand tbl ("all of".toList ++ w ++ n) (.conj (members x))
  | oneOf (w n : Text) (x : E α) (hw : Blank w) (h : (n, x) ∈ tbl) :
      Operand tbl ("1 of".toList ++ w ++ n) (.disj (members x))

/-- All operands of a condition are such. -/
def Operands (tbl : Table α) : Syn α → Prop
  | .leaf t x => Operand tbl t x
  | .paren _ s _ => Operands tbl s
  | .not _ s => Operands tbl s
  | .and l _ _ r => Operands tbl l ∧ Operands tbl r
  | .or l _ _ r => Operands tbl l ∧ Operands tbl r

/-- The words of a condition are separated by blanks. -/
def Spaced : Syn α → Prop
  | .leaf _ _ => True
  | .paren _ s _ => Spaced s
  | .not _ s => Spaced s
  | .and l w₁ _ r => w₁ ≠ [] ∧ Spaced l ∧ Spaced r
  | .or l w₁ _ r => w₁ ≠ [] ∧ Spaced l ∧ Spaced r

end Verif.Sigma
