import Verif.Shutdown.Model

/-! # What a shutdown should do -/

namespace Verif.Shutdown.Spec

/-- Whenever `x` has happened, `P` was true of all that had happened before. -/
def Whenever (log : Log) (x : Act) (P : Log → Prop) : Prop := ∀ l1 l2, log = l1 ++ x :: l2 → P l2

/-- `z` is before `a` in a list. -/
def Precedes (xs : List Nat) (z a : Nat) : Prop := ∃ p m q, xs = p ++ z :: (m ++ a :: q)

end Verif.Shutdown.Spec
