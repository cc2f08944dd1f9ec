/-!
# The interval map

Models /repo/libvast/vast/detail/range_map.hpp. `std::map<Point, std::pair<Point, Value>>` is a list
of entries sorted by their left endpoint; an iterator is the entry it points to (entries have distinct
keys), and `none` is the past-the-end iterator. Points are natural numbers: the code only compares them.
-/

namespace Verif.RangeMap

/-- One interval `[left, right)` and its value. -/
structure Entry (V : Type) where
  left : Nat
  right : Nat
  value : V
  deriving DecidableEq, Repr

/-- The map. -/
abbrev Map (V : Type) := List (Entry V)

variable {V : Type} [DecidableEq V]

/-! ## `std::map` -/

/-- `std::map::lower_bound`. -/
def lowerBound (m : Map V) (k : Nat) : Option (Entry V) := m.find? fun e => decide (k ≤ e.left)

/-- The entry after the one with key `k`. -/
def next (m : Map V) (k : Nat) : Option (Entry V) := m.find? fun e => decide (k < e.left)

/-- The entry before the one with key `k`. -/
def prev (m : Map V) (k : Nat) : Option (Entry V) := (m.filter fun e => decide (e.left < k)).getLast?

/-- The entry before an iterator. -/
def before (m : Map V) : Option (Entry V) → Option (Entry V)
  | some e => prev m e.left
  | none => m.getLast?

/-- `std::map::emplace`: nothing happens if the key exists. -/
def emplace (m : Map V) (l r : Nat) (v : V) : Map V :=
  if m.any fun e => decide (e.left = l) then m
  else m.takeWhile (fun e => decide (e.left < l)) ++ ⟨l, r, v⟩ :: m.dropWhile (fun e => decide (e.left < l))

/-- `std::map::erase(iterator)`. -/
def eraseKey (m : Map V) (k : Nat) : Map V := m.filter fun e => decide (e.left ≠ k)

/-- Assignment to the right endpoint of an entry. -/
def setRight (m : Map V) (k r : Nat) : Map V := m.map fun e => if e.left = k then { e with right := r } else e

/-! ## range_map -/

/-- range_map.hpp:274-288 `locate`, with the result of `lower_bound`. -/
def locate (m : Map V) (p : Nat) (lb : Option (Entry V)) : Option (Entry V) :=
  match lb, before m lb with
  | some e, b =>
    if p = e.left then some e
    else match b with
      | some b => if p < b.right then some b else none
      | none => none
  | none, some b => if p < b.right then some b else none
  | none, none => none

/-- range_map.hpp:215-218 `lookup`. -/
def lookup (m : Map V) (p : Nat) : Option V := (locate m p (lowerBound m p)).map (·.value)

/-- range_map.hpp:227-234 `find`; `none` stands for the null pointer. -/
def find (m : Map V) (p : Nat) : Option (Nat × Nat × V) :=
  (locate m p (lowerBound m p)).map fun e => (e.left, e.right, e.value)

/-- range_map.hpp:86: the test of `insert`. -/
def insertFits (m : Map V) (l r : Nat) : Bool :=
  (locate m l (lowerBound m l)).isNone && (match lowerBound m l with | none => true | some e => decide (r ≤ e.left))

/-- range_map.hpp:83-89 `insert`. -/
def insert (m : Map V) (l r : Nat) (v : V) : Map V × Bool :=
  if insertFits m l r then
    (emplace m l r v, !m.any fun e => decide (e.left = l))
  else (m, false)

/-- range_map.hpp:103-106: the entry `i` that `inject` works on; the map is not empty. -/
def injectPos (m : Map V) (l : Nat) : Option (Entry V) :=
  match lowerBound m l with
  | none => m.getLast?
  | some e => if (prev m e.left).isSome ∧ l ≠ e.left then prev m e.left else some e

/-- range_map.hpp:117-131, `fits_left`: the new interval is before `i` and after `p`. -/
def injectLeft (m : Map V) (i : Entry V) (p : Option (Entry V)) (l r : Nat) (v : V) : Map V :=
  match p with
  | none =>
    if r = i.left ∧ v = i.value then eraseKey (emplace m l i.right v) i.left else emplace m l r v
  | some p =>
    if (l = p.right ∧ v = p.value) ∧ (r = i.left ∧ v = i.value) then eraseKey (setRight m p.left i.right) i.left
    else if l = p.right ∧ v = p.value then setRight m p.left r
    else if r = i.left ∧ v = i.value then eraseKey (emplace m l i.right v) i.left
    else emplace m l r v

/-- range_map.hpp:132-147, `fits_right`: the new interval is after `i` and before `n`. -/
def injectRight (m : Map V) (i : Entry V) (n : Option (Entry V)) (l r : Nat) (v : V) : Map V :=
  match n with
  | none => if l = i.right ∧ v = i.value then setRight m i.left r else emplace m l r v
  | some n =>
    if (l = i.right ∧ v = i.value) ∧ (r = n.left ∧ v = n.value) then eraseKey (setRight m i.left n.right) n.left
    else if l = i.right ∧ v = i.value then setRight m i.left r
    else if r = n.left ∧ v = n.value then eraseKey (emplace m l n.right v) n.left
    else emplace m l r v

/-- range_map.hpp:115 `fits_left`. -/
def fitsLeft (i : Entry V) (p : Option (Entry V)) (l r : Nat) : Bool :=
  decide (r ≤ i.left) && (match p with | none => true | some p => decide (p.right ≤ l))

/-- range_map.hpp:116 `fits_right`. -/
def fitsRight (i : Entry V) (n : Option (Entry V)) (l r : Nat) : Bool :=
  decide (i.right ≤ l) && (match n with | none => true | some n => decide (r ≤ n.left))

/-- range_map.hpp:99-149 `inject`. -/
def inject (m : Map V) (l r : Nat) (v : V) : Map V × Bool :=
  match injectPos m l with
  | none => (emplace m l r v, true)
  | some i =>
    if fitsLeft i (prev m i.left) l r then (injectLeft m i (prev m i.left) l r v, true)
    else if fitsRight i (next m i.left) l r then (injectRight m i (next m i.left) l r v, true)
    else (m, false)

/-- range_map.hpp:156-162 `erase(p)`. -/
def erasePoint (m : Map V) (p : Nat) : Map V × Bool :=
  match locate m p (lowerBound m p) with
  | none => (m, false)
  | some e => (eraseKey m e.left, true)

/-- range_map.hpp:174-176: the entry the loop of `erase(l, r)` works on. -/
def erasePos (m : Map V) (nextLeft : Nat) : Option (Entry V) :=
  match locate m nextLeft (lowerBound m nextLeft) with
  | none => lowerBound m nextLeft
  | some e => some e

/-- range_map.hpp:172-197, the loop of `erase(l, r)`. The first argument bounds the number of
iterations; `none` means it was not enough. -/
def eraseLoop (l r : Nat) : (fuel : Nat) → Map V → (nextLeft : Nat) → Option (Map V)
  | 0, _, _ => none
  | fuel + 1, m, nextLeft =>
    match erasePos m nextLeft with
    | none => some m
    | some i =>
      if r ≤ i.left then some m
      else if l ≤ i.left ∧ i.right ≤ r then eraseLoop l r fuel (eraseKey m i.left) i.right
      else if i.left ≤ l ∧ r ≤ i.right then some (inject (setRight m i.left l) r i.right i.value).1
      else if l ≤ i.left ∧ i.left < r then some (eraseKey (emplace m r i.right i.value) i.left)
      else if l < i.right ∧ i.right ≤ r then eraseLoop l r fuel (setRight m i.left l) i.right
      else eraseLoop l r fuel m i.right

/-- range_map.hpp:168-198 `erase(l, r)`. -/
def eraseRange (m : Map V) (l r : Nat) : Option (Map V) :=
  if r < l then some m else eraseLoop l r (m.length + 1) m l

/-- range_map.hpp:201-209 `erase_value`. -/
def eraseValue (m : Map V) (x : V) : Map V := m.filter fun e => decide (e.value ≠ x)

end Verif.RangeMap
