import Verif.Options.Model
import Verif.DataText.LiteralSpec
/-! What options mean.  Of the model, this uses only the types. -/
namespace Verif.Options.Spec
open Verif.Data Verif.DataText.Spec

/-- The units of sizes. -/
def factors : List (String × Nat) :=
  [("", 1), ("k", 10 ^ 3), ("M", 10 ^ 6), ("G", 10 ^ 9), ("T", 10 ^ 12), ("P", 10 ^ 15), ("E", 10 ^ 18),
   ("Ki", 1024), ("Mi", 1024 ^ 2), ("Gi", 1024 ^ 3), ("Ti", 1024 ^ 4), ("Pi", 1024 ^ 5), ("Ei", 1024 ^ 6)]

/-- A byte that counts as a space. -/
def Space (b : UInt8) : Prop := b = 32 ∨ (9 ≤ b.toNat ∧ b.toNat ≤ 13)

/-- The text of a size: 1 to 20 digits, then perhaps spaces and a unit, then perhaps a `B`. -/
inductive Size : Str → List Nat → Nat → Prop
  | mk (ds : List Nat) (spaces : Str) (unit : String) (f : Nat) (b : String) (hd : Digits ds) (hl : ds.length ≤ 20)
      (hs : ∀ x ∈ spaces, Space x) (hu : (unit, f) ∈ factors) (h0 : unit = "" → spaces = []) (hb : b = "" ∨ b = "B") :
      Size (digitText ds ++ spaces ++ str unit ++ str b) ds f

/-- What an option that is a size means: nothing means 0, a number itself, and a text that is a size the number times its unit,
modulo 2^64. -/
def Means (v : Option Opt) (n : Nat) : Prop :=
  v = none ∧ n = 0 ∨ v = some (.num n) ∨ ∃ t, v = some (.text t) ∧ ∃ ds f, Size t ds f ∧ n = numeral ds * f % 2 ^ 64

/-- The size of a step: 1 unless a number is given. -/
def stepOf : Option Opt → Nat
  | some (.num n) => n
  | _ => 1

/-- The seconds between two scans: 60 unless a number is given. -/
def intervalOf : Option Opt → Int
  | some (.num n) => n
  | some (.neg n) => -(n : Int)
  | _ => 60

/-- The text of an option, if it is one. -/
def textOf : Option Opt → Option Str
  | some (.text s) => some s
  | _ => none

/-- The number of an option, if it is one. -/
def numberOf : Option Opt → Option Nat
  | some (.num n) => some n
  | _ => none

/-- The most events of a slice: 1024 unless a number is given; 0 stands for no limit. -/
def sliceOf (o : Option Opt) : Nat :=
  if numberOf o = some 0 then 2 ^ 64 - 1 else (numberOf o).getD 1024

end Verif.Options.Spec
