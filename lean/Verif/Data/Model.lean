import Verif.Address.Model
/-
Model of data values, relational operators and predicate evaluation.

Modelled code: libvast/vast/data.hpp, libvast/src/data.cpp (operator==,
operator<, evaluate), libvast/src/operator.cpp, libvast/src/view.cpp
(evaluate_view) and the container comparisons of libvast/vast/view.hpp.
-/
namespace Verif.Data
open Verif.Address

/-- A `std::string`: a sequence of bytes. -/
abbrev Str := List UInt8

/-- String literals for examples (ASCII only). -/
def str (s : String) : Str := s.toList.map fun c => c.toNat.toUInt8

/-- The values of a `double` as far as comparisons can see them: the finite
doubles are rationals, the two zeros compare equal and are one value here, and
all NaNs behave alike. -/
inductive Real where
  | nan
  | negInf
  | fin (q : Rat)
  | posInf
deriving DecidableEq

/-- IEEE 754 `==`: NaN differs from everything. -/
def Real.eq : Real → Real → Bool
  | .negInf, .negInf => true
  | .posInf, .posInf => true
  | .fin a, .fin b => a == b
  | _, _ => false

/-- IEEE 754 `<`: false whenever a NaN is involved. -/
def Real.lt : Real → Real → Bool
  | .nan, _ => false
  | _, .nan => false
  | .negInf, .negInf => false
  | .negInf, _ => true
  | .fin _, .negInf => false
  | .fin a, .fin b => decide (a < b)
  | .fin _, .posInf => true
  | .posInf, _ => false

/-- `vast::data` (vast/data.hpp:90-110), alternatives in the order of the
variant. A map and a record hold their entries as two lists of equal length
(keys and values) instead of a list of pairs. -/
inductive Data where
  | none
  | bool (b : Bool)
  | int (i : Int)
  | count (n : Nat)
  | real (r : Real)
  | duration (ns : Int)
  | time (ns : Int)
  | string (s : Str)
  | pattern (s : Str)
  | address (a : Address)
  | subnet (s : Subnet)
  | enum (n : Nat)
  | list (xs : List Data)
  | map (keys vals : List Data)
  | record (names : List Str) (vals : List Data)

/-- `variant::index()`. -/
def Data.index : Data → Nat
  | .none => 0 | .bool _ => 1 | .int _ => 2 | .count _ => 3 | .real _ => 4
  | .duration _ => 5 | .time _ => 6 | .string _ => 7 | .pattern _ => 8
  | .address _ => 9 | .subnet _ => 10 | .enum _ => 11 | .list _ => 12
  | .map _ _ => 13 | .record _ _ => 14

/-- The pair `(x < y, y < x)`. Carrying both directions lets the recursion
below stay structural. -/
abbrev Cmp := Bool × Bool

/-- Lexicographic comparison of a range from the comparisons of its elements:
the first pair of elements ordered either way decides, then the lengths
(`std::lexicographical_compare`). `tail` is the comparison of the lengths. -/
def lexCmp (tail : Cmp) : List Cmp → Cmp
  | [] => tail
  | c :: cs => if c.1 then (true, c.2) else if c.2 then (false, true) else lexCmp tail cs

/-- `(a < b, b < a)` on numbers. -/
def natCmp (a b : Nat) : Cmp := (decide (a < b), decide (b < a))

/-- `(a < b, b < a)` on numbers. -/
def intCmp (a b : Int) : Cmp := (decide (a < b), decide (b < a))

/-- `(a < b, b < a)` for `std::string`: lexicographic on bytes. -/
def strCmp (x y : Str) : Cmp :=
  lexCmp (natCmp x.length y.length) (List.zipWith (fun a b => natCmp a.toNat b.toNat) x y)

/-- Interleaves key and value comparisons, for ranges of pairs. -/
def interleave : List Cmp → List Cmp → List Cmp
  | k :: ks, v :: vs => k :: v :: interleave ks vs
  | _, _ => []

mutual
/-- `operator==(data, data)` (src/data.cpp:37-39): the alternatives agree and
their values compare equal. -/
def Data.eq : Data → Data → Bool
  | .none, .none => true
  | .bool a, .bool b => a == b
  | .int a, .int b => a == b
  | .count a, .count b => a == b
  | .real a, .real b => a.eq b
  | .duration a, .duration b => a == b
  | .time a, .time b => a == b
  | .string a, .string b => a == b
  | .pattern a, .pattern b => a == b
  | .address a, .address b => a == b
  | .subnet a, .subnet b => a == b
  | .enum a, .enum b => a == b
  | .list a, .list b => Data.eqList a b
  | .map k v, .map k' v' => Data.eqList k k' && Data.eqList v v'
  | .record n v, .record n' v' => n == n' && Data.eqList v v'
  | _, _ => false

/-- `std::vector<data>::operator==`. -/
def Data.eqList : List Data → List Data → Bool
  | [], [] => true
  | x :: xs, y :: ys => Data.eq x y && Data.eqList xs ys
  | _, _ => false
end

mutual
/-- `(x < y, y < x)` for `operator<(data, data)` (src/data.cpp:41-43): first by
alternative, then by value. Lists compare lexicographically
(`std::vector::operator<`), maps and records as vectors of pairs
(vast/detail/vector_map.hpp:215-217). -/
def Data.cmp : Data → Data → Cmp
  | .bool a, .bool b => (!a && b, !b && a)
  | .int a, .int b => intCmp a b
  | .count a, .count b => natCmp a b
  | .real a, .real b => (a.lt b, b.lt a)
  | .duration a, .duration b => intCmp a b
  | .time a, .time b => intCmp a b
  | .string a, .string b => strCmp a b
  | .pattern a, .pattern b => strCmp a b
  | .address a, .address b => (a.lt b, b.lt a)
  | .subnet a, .subnet b => (a.lt b, b.lt a)
  | .enum a, .enum b => natCmp a b
  | .list a, .list b => lexCmp (natCmp a.length b.length) (Data.cmpAll a b)
  | .map k v, .map k' v' => lexCmp (natCmp k.length k'.length)
      (interleave (Data.cmpAll k k') (Data.cmpAll v v'))
  | .record n v, .record n' v' => lexCmp (natCmp n.length n'.length)
      (interleave (List.zipWith strCmp n n') (Data.cmpAll v v'))
  | x, y => natCmp x.index y.index

/-- Element-wise comparison. -/
def Data.cmpAll : List Data → List Data → List Cmp
  | x :: xs, y :: ys => Data.cmp x y :: Data.cmpAll xs ys
  | _, _ => []
end

/-- `operator<(data, data)` (src/data.cpp:41-43). -/
def Data.lt (x y : Data) : Bool := (x.cmp y).1

/-- The comparison loop of `container_view` (vast/view.hpp:357-365): unequal
sizes decide, otherwise `x < y` as soon as *some* element is smaller. -/
def viewCmp (lenCmp : Cmp) (cs : List Cmp) : Cmp :=
  if lenCmp.1 || lenCmp.2 then lenCmp else (cs.any (·.1), cs.any (·.2))

/-- `(x < y, y < x)` for a `std::pair`, from its two components. -/
def pairCmp (k v : Cmp) : Cmp := lexCmp (false, false) [k, v]

mutual
/-- `(x < y, y < x)` on `data_view`: scalars as for `data`, containers with the
loop of `container_view` (vast/view.hpp:357-365). -/
def Data.cmpView : Data → Data → Cmp
  | .list a, .list b => viewCmp (natCmp a.length b.length) (Data.cmpViewAll a b)
  | .map k v, .map k' v' => viewCmp (natCmp k.length k'.length)
      (List.zipWith pairCmp (Data.cmpViewAll k k') (Data.cmpViewAll v v'))
  | .record n v, .record n' v' => viewCmp (natCmp n.length n'.length)
      (List.zipWith pairCmp (List.zipWith strCmp n n') (Data.cmpViewAll v v'))
  | x, y => Data.cmp x y

/-- Element-wise comparison of views. -/
def Data.cmpViewAll : List Data → List Data → List Cmp
  | x :: xs, y :: ys => Data.cmpView x y :: Data.cmpViewAll xs ys
  | _, _ => []
end

/-- `<` on `data_view`. -/
def Data.ltView (x y : Data) : Bool := (x.cmpView y).1

/-- `relational_operator` (vast/operator.hpp). -/
inductive RelOp where
  | match_ | notMatch | in_ | notIn | ni | notNi
  | equal | notEqual | less | lessEqual | greater | greaterEqual
deriving DecidableEq, Repr

/-- `is_negated` (src/operator.cpp:35-53). -/
def RelOp.isNegated : RelOp → Bool
  | .equal | .match_ | .less | .lessEqual | .greater | .greaterEqual | .in_ | .ni => false
  | .notNi | .notIn | .notEqual | .notMatch => true

/-- `negate(relational_operator)` (src/operator.cpp:55-83). -/
def RelOp.negate : RelOp → RelOp
  | .match_ => .notMatch
  | .notMatch => .match_
  | .equal => .notEqual
  | .notEqual => .equal
  | .less => .greaterEqual
  | .lessEqual => .greater
  | .greater => .lessEqual
  | .greaterEqual => .less
  | .in_ => .notIn
  | .notIn => .in_
  | .ni => .notNi
  | .notNi => .ni

/-- `flip(relational_operator)` (src/operator.cpp:85-110). -/
def RelOp.flip : RelOp → RelOp
  | .match_ => .match_
  | .notMatch => .notMatch
  | .equal => .equal
  | .notEqual => .notEqual
  | .less => .greater
  | .lessEqual => .greaterEqual
  | .greater => .less
  | .greaterEqual => .lessEqual
  | .in_ => .ni
  | .notIn => .notNi
  | .ni => .in_
  | .notNi => .notIn

/-- The regular expression engine (`std::regex`, used in src/pattern.cpp) is
not modelled: `fullMatch pattern text` stands for `pattern::match`, and
`search pattern text` for `pattern::search`. All theorems hold for any choice
of the two. -/
structure Regex where
  fullMatch : Str → Str → Bool
  search : Str → Str → Bool

/-- `std::string::find(needle) != npos`. -/
def isInfix (needle : Str) : Str → Bool
  | [] => needle.isEmpty
  | h :: t => needle.isPrefixOf (h :: t) || isInfix needle t

/-- `eval_match` in `evaluate` (src/data.cpp:59-67). -/
def evalMatch (R : Regex) : Data → Data → Bool
  | .string l, .pattern r => R.fullMatch r l
  | _, _ => false

/-- `eval_string_and_pattern` in `evaluate` (src/data.cpp:46-58). -/
def evalStringAndPattern (R : Regex) : Data → Data → Option Bool
  | .string l, .pattern r => some (R.fullMatch r l)
  | .pattern l, .string r => some (R.fullMatch l r)
  | _, _ => none

/-- `eval_in` in `evaluate` (src/data.cpp:68-85). -/
def evalIn (R : Regex) : Data → Data → Bool
  | .string l, .string r => isInfix l r
  | .string l, .pattern r => R.search r l
  | .address l, .subnet r => r.containsAddr l
  | .subnet l, .subnet r => r.containsSubnet l
  | l, .list r => r.any fun y => y.eq l
  | _, _ => false

/-- `evaluate(const data&, relational_operator, const data&)`
(src/data.cpp:45-119). `<=`, `>` and `>=` come from `detail::totally_ordered`,
which derives them from `<`. -/
def evaluate (R : Regex) (l : Data) (op : RelOp) (r : Data) : Bool :=
  match op with
  | .match_ => evalMatch R l r
  | .notMatch => !evalMatch R l r
  | .in_ => evalIn R l r
  | .notIn => !evalIn R l r
  | .ni => evalIn R r l
  | .notNi => !evalIn R r l
  | .equal => match evalStringAndPattern R l r with
    | some b => b
    | none => l.eq r
  | .notEqual => match evalStringAndPattern R l r with
    | some b => !b
    | none => !l.eq r
  | .less => l.lt r
  | .lessEqual => !r.lt l
  | .greater => r.lt l
  | .greaterEqual => !l.lt r

/-- `check_match` in `evaluate_view` (src/view.cpp:286-294). The specific
overload takes its first argument as a non-const lvalue reference
(`view<std::string>&`), but `visit` runs on `const data_view&`, so overload
resolution always selects the generic lambda, which returns `false`. -/
def checkMatch : Data → Data → Bool := fun _ _ => false

/-- `check_in` in `evaluate_view` with `contains_predicate`
(src/view.cpp:242-280 and 295-297). -/
def checkIn (R : Regex) : Data → Data → Bool
  | .string l, .string r => isInfix l r
  | .string l, .pattern r => R.search r l
  | .address l, .subnet r => r.containsAddr l
  | .subnet l, .subnet r => r.containsSubnet l
  | l, .list r => r.any fun y => l.eq y
  | _, _ => false

/-- `evaluate_view` (src/view.cpp:284-327). -/
def evaluateView (R : Regex) (l : Data) (op : RelOp) (r : Data) : Bool :=
  match op with
  | .match_ => checkMatch l r
  | .notMatch => !checkMatch l r
  | .in_ => checkIn R l r
  | .notIn => !checkIn R l r
  | .ni => checkIn R r l
  | .notNi => !checkIn R r l
  | .equal => l.eq r
  | .notEqual => !l.eq r
  | .less => l.ltView r
  | .lessEqual => !r.ltView l
  | .greater => r.ltView l
  | .greaterEqual => !l.ltView r

end Verif.Data
