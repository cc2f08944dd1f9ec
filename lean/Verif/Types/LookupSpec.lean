import Verif.Types.Spec

/-! # Specification of looking up fields -/

namespace Verif.Types.Spec

variable {τ : Type}

/-- The field at offset `o`, with the names `p` on the way to it, has type `t`. -/
inductive HasField : Fields τ → List Nat → List Name → Ty τ → Prop
  | here {fs : Fields τ} {x : Nat} {n : Name} {t : Ty τ} : fs.toList[x]? = some (n, t) → HasField fs [x] [n] t
  | there {fs gs : Fields τ} {x : Nat} {n : Name} {m : Meta} {o : List Nat} {p : List Name} {t : Ty τ} :
    fs.toList[x]? = some (n, .record m gs) → HasField gs o p t → HasField fs (x :: o) (n :: p) t

/-- Every field of every nested record satisfies `P`, given the names of its record's other fields. -/
inductive AllNames (P : List Name → Prop) : Fields τ → Prop
  | mk {fs : Fields τ} : P (fs.toList.map (·.1)) →
    (∀ (x : Nat) (n : Name) (m : Meta) (gs : Fields τ), fs.toList[x]? = some (n, .record m gs) → AllNames P gs) →
    AllNames P fs

/-- No name is empty. -/
def NonEmptyNames (ns : List Name) : Prop := ∀ n ∈ ns, n ≠ []

/-- The names are not empty, contain no dot, and none is a prefix of another. -/
def PlainNames (ns : List Name) : Prop :=
  (∀ n ∈ ns, n ≠ [] ∧ 46 ∉ n) ∧ ns.Pairwise fun a b => ¬ a <+: b ∧ ¬ b <+: a

/-- The key consists of the names of the path with one byte, whichever, between any two. -/
def KeyLike : Name → List Name → Prop
  | _, [] => False
  | key, [n] => key = n
  | key, n :: m :: ns => ∃ c rest, key = n ++ c :: rest ∧ KeyLike rest (m :: ns)

end Verif.Types.Spec
