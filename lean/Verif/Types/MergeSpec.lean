import Verif.Types.RemoveProps

/-! # C64: what merging record types should do -/

namespace Verif.Types
open Spec

variable {τ : Type}

namespace Spec

/-- Two records disagree on a field that both have: the types differ and are not both records, or the fields
    of the two records disagree. -/
inductive Conflict : Fields τ → Fields τ → Prop
  | here {fs gs : Fields τ} {n : Name} {a b : Ty τ} : (n, a) ∈ fs.toList → (n, b) ∈ gs.toList → a ≠ b →
    ¬ (a.isRecord = true ∧ b.isRecord = true) → Conflict fs gs
  | there {fs gs fs' gs' : Fields τ} {n : Name} {m m' : Meta} : (n, Ty.record m fs') ∈ fs.toList →
    (n, Ty.record m' gs') ∈ gs.toList → Ty.record m fs' ≠ .record m' gs' → Conflict fs' gs' → Conflict fs gs

/-- No two fields of a record, or of a record within it, have the same name. -/
abbrev UniqueNames (fs : Fields τ) : Prop := AllNames List.Nodup fs

/-- The record has a field at the path, or a leaf on the way to it. -/
def Defines (fs : Fields τ) (p : List Name) : Prop :=
  (∃ o t, HasField fs o p t) ∨ ∃ c ∈ columns fs, c.1 <+: p

end Spec

end Verif.Types
