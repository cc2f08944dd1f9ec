import Verif.Address.Model
/-
What subnets mean, independent of the code: an address is a sequence of 128
bits, most significant first, and a prefix of length `k` fixes the first `k`
of them.
-/
namespace Verif.Address

/-- Bit `i` (0 = most significant) of an address. -/
def Address.bit (a : Address) (i : Nat) : Bool :=
  (a.bytes.getD (i / 8) 0).getMsbD (i % 8)

/-- Two addresses share their first `k` bits. -/
def SamePrefix (k : Nat) (a b : Address) : Prop := ∀ i, i < k → a.bit i = b.bit i

/-- The width of the family of an address: lengths a user may write after the
slash. -/
def Address.maxLength (a : Address) : Nat := if a.isV4 then 32 else 128

/-- The prefix length in the 128-bit space. -/
def Address.fullLength (a : Address) (length : Nat) : Nat :=
  if a.isV4 then 96 + length else length

end Verif.Address
