import Verif.Notify.Model
/-!
# What the protocol of `sd_notify` says
-/
namespace Verif.Notify.Spec

/-- Values of environment variables have no NUL. -/
def Text (s : List Nat) : Prop := ∀ b ∈ s, b ≠ 0

/-- sd_notify(3): where `NOTIFY_SOCKET` says that the service manager listens.  An absolute path (`/` is 47) is a path; a name
that starts with `@` (64) is an abstract socket, without the `@`. -/
inductive Listens : List Nat → Address → Prop
  | path (p : List Nat) : Listens (47 :: p) (.path (47 :: p))
  | abstract (n : List Nat) : Listens (64 :: n) (.abstract n)

/-- Decimal digits (48 is `0`, 57 is `9`), at least one. -/
structure Digits (s : List Nat) : Prop where
  nonempty : s ≠ []
  digits : ∀ b ∈ s, 48 ≤ b ∧ b ≤ 57

/-- The number that digits stand for. -/
def value (s : List Nat) : Nat := s.foldl (fun a b => a * 10 + (b - 48)) 0

/-- The decimal text of a number: no zero in front, but for 0 itself. -/
def Decimal (s : List Nat) (n : Nat) : Prop := Digits s ∧ (s.head? ≠ some 48 ∨ s = [48]) ∧ value s = n

end Verif.Notify.Spec
