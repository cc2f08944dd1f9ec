import Verif.Index.Coder
import Verif.Index.Order
import Verif.Index.Value

/-!
# Numeric indexes

Models /repo/libvast/vast/index/arithmetic_index.hpp, bitmap_index.hpp and binner.hpp.
-/

namespace Verif.Index

open Verif.Data (RelOp)

/-- A binner together with the key of a bin: the types `arithmetic_index` is instantiated with.
Binned values are whole numbers in all of them. `defined` fails for values that cannot be indexed
(NaN). -/
structure Numeric (T : Type) where
  bin : T → Int
  key : Int → Nat
  defined : T → Bool
  identity : Bool

namespace Numeric

/-- arithmetic_index.hpp:67-82 with identity_binner (binner.hpp:21-26) and the order of unsigned
integers (order.hpp:28-30). -/
def count : Numeric Nat := ⟨fun x => x, Int.toNat, fun _ => true, true⟩

/-- Signed integers: identity_binner and order.hpp:31-37. -/
def integer : Numeric Int := ⟨id, orderInt, fun _ => true, true⟩

/-- binner.hpp:36-39, `decimal_binner<9>::bin` for `int64_t`: the divisor is unsigned, so that the
dividend is converted to `uint64_t`. The quotient is below 2^63. -/
def decimalBin (x : Int) : Int := (x % 2 ^ 64) / 1000000000

/-- Times and durations, nanoseconds in seconds: `decimal_binner<9>`. -/
def time : Numeric Int := ⟨decimalBin, orderInt, fun _ => true, false⟩

/-- binner.hpp:74-82, without the sign: the result of `std::modf`, clamped to 10^10 or rounded. -/
def roundedMagnitude (x : Double) : Nat :=
  if 10000000000 ≤ Spec.magnitude x / 2 ^ 1074 then 10000000000
  else Spec.magnitude x / 2 ^ 1074 + (Spec.magnitude x % 2 ^ 1074 + 2 ^ 1073) / 2 ^ 1074

/-- binner.hpp:69-83, `precision_binner<10, 0>::bin` for `double`: clamped to ±10^10, else the
integral part plus the rounded fractional part. The sum is exact: its operands are whole numbers
below 2^34. The result is given as a whole number; the sign of zero is lost, which `order`
ignores. -/
def precisionBin (x : Double) : Int := if x.neg then -(roundedMagnitude x : Int) else roundedMagnitude x

/-- The double that represents a whole number below 2^53. -/
def ofNat (neg : Bool) (n : Nat) : Double :=
  if n = 0 then ⟨neg, 0, 0⟩ else ⟨neg, 1023 + n.log2, (n - 2 ^ n.log2) * 2 ^ (52 - n.log2)⟩

/-- The double that represents a whole number of absolute value below 2^53. -/
def ofInt (n : Int) : Double := ofNat (decide (n < 0)) n.natAbs

/-- bitmap_index.hpp:138-142 `transform` with `digits2 = 34`. The key of a binned value is always
defined. -/
def doubleKey (n : Int) : Nat := ((orderDouble (ofInt n)).getD 0) >>> (52 - 34)

/-- Reals: `precision_binner<10>`. -/
def real : Numeric Double := ⟨precisionBin, doubleKey, fun x => !x.isNaN, false⟩

end Numeric

/-- A result of the coder; an assertion or out-of-bounds access is undefined behaviour. -/
def Res.ofOption {α : Type} : Option α → Res α
  | some x => .ok x
  | none => .undefined

namespace Arithmetic

variable {T : Type}

/-- arithmetic_index.hpp:118-134 `append_impl` and bitmap_index.hpp:62-64, 75-77. -/
def append (N : Numeric T) (c : MultiLevelCoder) (x : T) (pos : Nat) : Res MultiLevelCoder :=
  if N.defined x then Res.ofOption ((c.skip (pos - c.size)).encode (N.key (N.bin x)) 1) else .undefined

/-- bitmap_index.hpp:90-95: the adjustment of the binned operand. -/
def adjust (identity : Bool) (op : RelOp) (b : Int) : Int :=
  if identity then b
  else match op with
    | .greater => b - 1
    | .less => b + 1
    | _ => b

/-- arithmetic_index.hpp:136-157 `lookup_impl` and bitmap_index.hpp:83-97. -/
def lookup (N : Numeric T) (c : MultiLevelCoder) (op : RelOp) (x : T) : Res Bm :=
  if N.defined x then Res.ofOption (c.decode op (N.key (adjust N.identity op (N.bin x)))) else .undefined

/-- arithmetic_index as a concrete index. -/
def impl (N : Numeric T) : Impl MultiLevelCoder T T := ⟨append N, fun _ _ => lookup N⟩

/-- arithmetic_index.hpp:90-105, the constructor, with the given base. -/
def index (base : List Nat) (h : List (Nat × Option T)) (N : Numeric T) : Option (ValueIndex MultiLevelCoder) :=
  (MultiLevelCoder.make .range base).bind fun c => (ValueIndex.make c).run (impl N) h

/-- `arithmetic_index<bool>`: a singleton coder. -/
def boolImpl : Impl Bm Bool Bool where
  append b x pos := .ok (SingletonCoder.encode (SingletonCoder.skip b (pos - b.length)) x 1)
  lookup _ _ b op x := Res.ofOption (SingletonCoder.decode b op x)

/-- A boolean index after a history. -/
def boolIndex (h : List (Nat × Option Bool)) : Option (ValueIndex Bm) := (ValueIndex.make []).run boolImpl h

end Arithmetic

/-! ## enumeration_index -/

/-- /repo/libvast/src/index/enumeration_index.cpp:21-60: a bitmap index with 256 bitmaps and an
equality coder. `enumeration` is `uint8_t`. -/
def enumerationImpl : Impl VectorCoder Nat Nat where
  append c x pos := Res.ofOption (EqualityCoder.encode (c.skip (pos - c.size)) x 1)
  lookup _ _ c op x :=
    match op with
    | .in_ | .notIn => .error
    | _ => Res.ofOption (EqualityCoder.decode c op x)

end Verif.Index
