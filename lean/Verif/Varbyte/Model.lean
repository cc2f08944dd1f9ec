/-
Model of the variable byte coding, `libvast/vast/detail/varbyte.hpp`.

Bytes are natural numbers below 256, the unsigned integer type `T` with `w` bits
is the set of naturals below `2 ^ w`.  Bit operations are those of `Nat`, which
agree with the C++ operations on unsigned integers as long as the result is
reduced modulo `2 ^ w`; the reductions are explicit below.
-/
namespace Verif.Varbyte

/-- The only integral types `size` accepts: `sizeof(T)` is 1, 2, 4 or 8
(varbyte.hpp:21-44). -/
def Width (w : Nat) : Prop := w = 8 ∨ w = 16 ∨ w = 32 ∨ w = 64

/-- varbyte.hpp:20-44 `size`: number of bytes of the encoding, as the cascade of
comparisons that the code uses for `sizeof(T)`. -/
def size (w x : Nat) : Nat :=
  if w = 64 then
    if x ≥ 2 ^ 63 then 10 else
    if x ≥ 2 ^ 56 then 9 else
    if x ≥ 2 ^ 49 then 8 else
    if x ≥ 2 ^ 42 then 7 else
    if x ≥ 2 ^ 35 then 6 else
    if x ≥ 2 ^ 28 then 5 else
    if x ≥ 2 ^ 21 then 4 else
    if x ≥ 2 ^ 14 then 3 else
    if x ≥ 2 ^ 7 then 2 else 1
  else if w = 32 then
    if x ≥ 2 ^ 28 then 5 else
    if x ≥ 2 ^ 21 then 4 else
    if x ≥ 2 ^ 14 then 3 else
    if x ≥ 2 ^ 7 then 2 else 1
  else if w = 16 then
    if x ≥ 2 ^ 14 then 3 else
    if x ≥ 2 ^ 7 then 2 else 1
  else
    if x ≥ 2 ^ 7 then 2 else 1

/-- varbyte.hpp:46-52 `max_size`: `digits` of an unsigned type is its width. -/
def maxSize (w : Nat) : Nat := if w % 7 = 0 then w / 7 else w / 7 + 1

/-- varbyte.hpp:62-70 `encode`: the bytes written to `sink`; the returned byte
count is the length of this list. `static_cast<uint8_t>(x)` is `x % 256`. -/
def encode (x : Nat) : List Nat :=
  if x > 0x7f then
    (((x % 256) &&& 0x7f) ||| 0x80) :: encode (x >>> 7)
  else
    [(x % 256) &&& 0x7f]
termination_by x
decreasing_by
  simp only [Nat.shiftRight_eq_div_pow]
  omega

/-- Outcome of decoding.  `outOfBounds` is reading past the end of the buffer and
`badShift` a shift by at least the width of the promoted operand; both are
undefined behaviour in C++. -/
inductive Decoded where
  | ok (value : Nat) (consumed : Nat)
  | outOfBounds
  | badShift
  deriving DecidableEq, Repr

/-- varbyte.hpp:80-92 `decode`, the do-while loop.  `acc` is `x`, `i` the loop
counter.  Types narrower than `int` are promoted, so the shift is defined up to
31 for them; the assignment to `x` reduces modulo `2 ^ w`. -/
def decodeLoop (w acc i : Nat) : List Nat → Decoded
  | [] => .outOfBounds
  | low7 :: rest =>
    if 7 * i ≥ max w 32 then .badShift
    else
      let acc' := acc ||| (((low7 &&& 0x7f) <<< (7 * i)) % 2 ^ w)
      if low7 &&& 0x80 ≠ 0 then decodeLoop w acc' (i + 1) rest
      else .ok acc' (i + 1)

/-- varbyte.hpp:80-92 `decode`. -/
def decode (w : Nat) (source : List Nat) : Decoded := decodeLoop w 0 0 source

end Verif.Varbyte
