import Verif.Arena.Model
/-!
Histories of an arena, and what its clients rely on.
-/
namespace Verif.Arena.Spec

/-- Memory that a client owns. -/
structure Block where
  addr : Nat
  size : Nat
  /-- From `operator new`? -/
  heap : Bool
deriving DecidableEq

/-- The byte at an address belongs to the block. -/
def Owns (b : Block) (x : Nat) : Prop := b.addr ≤ x ∧ x < b.addr + b.size

/-- What is promised about `operator new`: the memory is not in the arena, and nobody owns it. -/
def Fresh (a : Arena) (live : List Block) (fresh n : Nat) : Prop :=
  (∀ x, fresh ≤ x → x ≤ fresh + n → x < a.buf ∨ a.buf + a.cap < x) ∧ ∀ b ∈ live, ∀ x, Owns b x → ¬ (fresh ≤ x ∧ x < fresh + n)

/-- The histories: memory is requested, and given back in any order, once each.  Nobody asks for so much that rounding it up needs more than
64 bits. -/
inductive History (buf cap align : Nat) : Arena → List Block → Prop
  | start : History buf cap align (create buf cap align) []
  | allocate {a a' : Arena} {live : List Block} {n fresh addr : Nat} {heap : Bool} : History buf cap align a live → n + 2 ^ align ≤ 2 ^ 64 →
      Fresh a live fresh n → Arena.allocate a n fresh = some (addr, heap, a') → History buf cap align a' (⟨addr, n, heap⟩ :: live)
  | deallocate {a a' : Arena} {live : List Block} {b : Block} {deleted : Bool} : History buf cap align a live → b ∈ live →
      Arena.deallocate a b.addr b.size = some (deleted, a') → History buf cap align a' (live.erase b)
  | reset {a : Arena} {live : List Block} : History buf cap align a live → (∀ b ∈ live, b.heap = true) → History buf cap align (Arena.reset a) live

end Verif.Arena.Spec
