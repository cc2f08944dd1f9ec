import Verif.Uuid.Model
import Mathlib.Data.List.Forall2
/-!
# The text of a UUID (RFC 4122, section 3)
-/
namespace Verif.Uuid.Spec
open Verif.Data Verif.DataText

/-- A hexadecimal digit, in either case, and its value. -/
inductive Denotes : UInt8 → Nat → Prop
  | decimal {c : UInt8} : 48 ≤ c.toNat → c.toNat ≤ 57 → Denotes c (c.toNat - 48)
  | upper {c : UInt8} : 65 ≤ c.toNat → c.toNat ≤ 70 → Denotes c (c.toNat - 65 + 10)
  | lower {c : UInt8} : 97 ≤ c.toNat → c.toNat ≤ 102 → Denotes c (c.toNat - 97 + 10)

/-- The values of the digits of some bytes. -/
def nibbles (bs : List UInt8) : List Nat := bs.flatMap fun b => [b.toNat / 16, b.toNat % 16]

/-- Digits in groups of 8, 4, 4, 4 and 12. -/
def dashed (t : Str) : Str :=
  t.take 8 ++ [45] ++ (t.drop 8).take 4 ++ [45] ++ (t.drop 12).take 4 ++ [45] ++ (t.drop 16).take 4 ++ [45] ++ t.drop 20

/-- Lower-case digits of some bytes. -/
def lowerHex (bs : List UInt8) : Str :=
  (nibbles bs).map fun n => [48, 49, 50, 51, 52, 53, 54, 55, 56, 57, 97, 98, 99, 100, 101, 102].getD n 0

/-- Names in the directory of the index: its state, the synopsis of a partition, and a partition. -/
inductive Known : Str → Option Uuid → Prop
  | state : Known (str "index.bin") none
  | synopsis (u : Uuid) : Known (dashed (lowerHex u.bytes) ++ str ".mdx") none
  | partition (u : Uuid) : Known (dashed (lowerHex u.bytes)) (some u)

end Verif.Uuid.Spec
