import Verif.MsgpackSlice.Model
import Verif.Address.Spec

/-! # Specification of MessagePack table slices: what values a column may hold -/

namespace Verif.MsgpackSlice.Spec
open Verif.Address

/-- The value is of the type, in all its parts; a null is of every type. A type without values of its own has only
    the null, and so have records, which do not occur as columns. -/
def HasType : Ty → Datum → Prop
  | .alias t, x => HasType t x
  | .bool, x => x = .none ∨ ∃ b, x = .bool b
  | .int, x => x = .none ∨ ∃ n, x = .int n
  | .count, x => x = .none ∨ ∃ n, x = .count n
  | .real, x => x = .none ∨ ∃ b, x = .real b
  | .duration, x => x = .none ∨ ∃ n, x = .duration n
  | .time, x => x = .none ∨ ∃ n, x = .time n
  | .string, x => x = .none ∨ ∃ s, x = .string s
  | .pattern, x => x = .none ∨ ∃ s, x = .pattern s
  | .address, x => x = .none ∨ ∃ a, x = .address a
  | .subnet, x => x = .none ∨ ∃ s, x = .subnet s
  | .enum n, x => x = .none ∨ ∃ k, k < n ∧ x = .enum k
  | .list t, x => x = .none ∨ ∃ xs, x = .list xs ∧ ∀ y, y ∈ xs → HasType t y
  | .map k v, x => x = .none ∨ ∃ ks vs, x = .map ks vs ∧ (∀ y, y ∈ ks → HasType k y) ∧ ∀ y, y ∈ vs → HasType v y
  | .none, x => x = .none
  | .record _, x => x = .none

mutual
/-- The value is one of its C++ type, and strings, lists and maps are shorter than 2^32, 2^32 and 2^31: 64 bits for
    numbers, 8 bits for enumerations, a subnet that was made from an address and a length. -/
def Sized : Datum → Prop
  | .int x => -2 ^ 63 ≤ x ∧ x < 2 ^ 63
  | .count n => n < 2 ^ 64
  | .real b => b.length = 8
  | .duration x => -2 ^ 63 ≤ x ∧ x < 2 ^ 63
  | .time x => -2 ^ 63 ≤ x ∧ x < 2 ^ 63
  | .string s => s.length < 2 ^ 32
  | .pattern s => s.length < 2 ^ 32
  | .subnet s => ∃ a l, l ≤ Address.maxLength a ∧ s = Subnet.make a l
  | .enum n => n < 256
  | .list xs => xs.length < 2 ^ 32 ∧ AllSized xs
  | .map ks vs => ks.length = vs.length ∧ ks.length < 2 ^ 31 ∧ AllSized ks ∧ AllSized vs
  | _ => True

@[inherit_doc Sized] def AllSized : List Datum → Prop
  | [] => True
  | x :: xs => Sized x ∧ AllSized xs
end

mutual
/-- Every map in the value has at most 7 entries, or between 16 and 32767, or at least 65536. -/
def MapsSmall : Datum → Prop
  | .list xs => AllMapsSmall xs
  | .map ks vs => (ks.length ≤ 7 ∨ (16 ≤ ks.length ∧ ks.length ≤ 32767) ∨ 65536 ≤ ks.length) ∧ AllMapsSmall ks ∧ AllMapsSmall vs
  | _ => True

@[inherit_doc MapsSmall] def AllMapsSmall : List Datum → Prop
  | [] => True
  | x :: xs => MapsSmall x ∧ AllMapsSmall xs
end

/-- A row for the layout: one value of the right type for each column. -/
def RowOk (chk : Bool) : List Ty → List Datum → Prop
  | [], [] => True
  | t :: ts, x :: xs => (HasType t x ∧ Sized x ∧ (chk = true → MapsSmall x)) ∧ RowOk chk ts xs
  | _, _ => False

/-- Calls `add` for one value after the other: the builder afterwards and the results. -/
def addAll (chk : Bool) (cols : List Ty) (b : Builder) : List Datum → Option (Builder × List Bool)
  | [] => some (b, [])
  | x :: xs => (add chk cols b x).bind fun r => (addAll chk cols r.1 xs).map fun r' => (r'.1, r.2 :: r'.2)

end Verif.MsgpackSlice.Spec
