import Verif.ArrowSlice.Model
import Verif.Address.Spec

/-! # Specification of Arrow table slices: what values a column may hold -/

namespace Verif.ArrowSlice.Spec
open Verif.MsgpackSlice Verif.Address

mutual
/-- The value is of the type, in all its parts; a null is of every type. Enumerations have 8 bits, and a subnet was made
    from an address and a length. -/
def HasType : Ty → Datum → Prop
  | .alias t, x => HasType t x
  | .none, x => x = .none
  | .bool, x => x = .none ∨ ∃ b, x = .bool b
  | .int, x => x = .none ∨ ∃ n, x = .int n
  | .count, x => x = .none ∨ ∃ n, x = .count n
  | .real, x => x = .none ∨ ∃ b, x = .real b
  | .duration, x => x = .none ∨ ∃ n, x = .duration n
  | .time, x => x = .none ∨ ∃ n, x = .time n
  | .string, x => x = .none ∨ ∃ s, x = .string s
  | .pattern, x => x = .none ∨ ∃ s, x = .pattern s
  | .address, x => x = .none ∨ ∃ a, x = .address a
  | .subnet, x => x = .none ∨ ∃ a l, l ≤ Address.maxLength a ∧ x = .subnet (Subnet.make a l)
  | .enum _, x => x = .none ∨ ∃ k, k < 256 ∧ x = .enum k
  | .list t, x => x = .none ∨ ∃ xs, x = .list xs ∧ ∀ y, y ∈ xs → HasType t y
  | .map k v, x => x = .none ∨ ∃ ks vs, x = .map ks vs ∧ ks.length = vs.length ∧ (∀ y, y ∈ ks → HasType k y) ∧ ∀ y, y ∈ vs → HasType v y
  | .record ts, x => x = .none ∨ ∃ xs, x = .record xs ∧ AllHaveType ts xs

/-- One value for each type. -/
def AllHaveType : List Ty → List Datum → Prop
  | [], xs => xs = []
  | t :: ts, xs => ∃ y ys, xs = y :: ys ∧ HasType t y ∧ AllHaveType ts ys
end

mutual
/-- There is no alias in the type. -/
def NoAlias : Ty → Prop
  | .alias _ => False
  | .list t => NoAlias t
  | .map k v => NoAlias k ∧ NoAlias v
  | .record ts => NoAliases ts
  | _ => True

@[inherit_doc NoAlias] def NoAliases : List Ty → Prop
  | [] => True
  | t :: ts => NoAlias t ∧ NoAliases ts
end

/-- The type that an alias stands for. -/
def meaning : Ty → Ty
  | .alias t => meaning t
  | t => t

/-- Calls `add` for one value after the other: the builder afterwards and the results. -/
def addAll (cols : List Ty) (b : Builder) : List Datum → Option (Builder × List Bool)
  | [] => some (b, [])
  | x :: xs => (b.add cols x).bind fun r => (addAll cols r.1 xs).map fun r' => (r'.1, r.2 :: r'.2)

/-- The values of a column that are not null, with their positions. -/
def present (offset : Nat) : List Datum → List (Datum × Nat)
  | [] => []
  | .none :: xs => present (offset + 1) xs
  | x :: xs => (x, offset) :: present (offset + 1) xs

end Verif.ArrowSlice.Spec
