import Verif.Grammar.Model
/-! What grammars mean: the natural semantics of parsing expression grammars (B. Ford, 2004), and when they have no left recursion. -/
namespace Verif.Grammar.Spec
variable {α : Type}

/-- `Accepts G p s (some t)`: on `s`, the parser succeeds and `t` is left; `Accepts G p s none`: it fails. -/
inductive Accepts (G : Nat → Parser α) : Parser α → List α → Option (List α) → Prop
  | leaf {f : List α → Option (List α)} {s : List α} : Accepts G (.leaf f) s (f s)
  | seq {p q : Parser α} {s t : List α} {r : Option (List α)} : Accepts G p s (some t) → Accepts G q t r → Accepts G (.seq p q) s r
  | seqFail {p q : Parser α} {s : List α} : Accepts G p s none → Accepts G (.seq p q) s none
  | first {p q : Parser α} {s t : List α} : Accepts G p s (some t) → Accepts G (.choice p q) s (some t)
  | second {p q : Parser α} {s : List α} {r : Option (List α)} : Accepts G p s none → Accepts G q s r → Accepts G (.choice p q) s r
  | more {p : Parser α} {s t : List α} {r : Option (List α)} : Accepts G p s (some t) → Accepts G (.kleene p) t r → Accepts G (.kleene p) s r
  | stop {p : Parser α} {s : List α} : Accepts G p s none → Accepts G (.kleene p) s (some s)
  | plus {p : Parser α} {s t : List α} {r : Option (List α)} : Accepts G p s (some t) → Accepts G (.kleene p) t r → Accepts G (.plus p) s r
  | plusFail {p : Parser α} {s : List α} : Accepts G p s none → Accepts G (.plus p) s none
  | opt {p : Parser α} {s t : List α} : Accepts G p s (some t) → Accepts G (.opt p) s (some t)
  | optFail {p : Parser α} {s : List α} : Accepts G p s none → Accepts G (.opt p) s (some s)
  | list {p q : Parser α} {s t : List α} {r : Option (List α)} :
    Accepts G p s (some t) → Accepts G (.kleene (.seq q p)) t r → Accepts G (.list p q) s r
  | listFail {p q : Parser α} {s : List α} : Accepts G p s none → Accepts G (.list p q) s none
  | conj {p : Parser α} {s t : List α} : Accepts G p s (some t) → Accepts G (.conj p) s (some s)
  | conjFail {p : Parser α} {s : List α} : Accepts G p s none → Accepts G (.conj p) s none
  | neg {p : Parser α} {s : List α} : Accepts G p s none → Accepts G (.neg p) s (some s)
  | negFail {p : Parser α} {s t : List α} : Accepts G p s (some t) → Accepts G (.neg p) s none
  | diff {p q : Parser α} {s : List α} {r : Option (List α)} : Accepts G q s none → Accepts G p s r → Accepts G (.diff p q) s r
  | diffFail {p q : Parser α} {s t : List α} : Accepts G q s (some t) → Accepts G (.diff p q) s none
  | rule {i : Nat} {s : List α} {r : Option (List α)} : Accepts G (G i) s r → Accepts G (.rule i) s r

/-- Parsers that do not succeed without consuming anything, if the rules in `c` do not. -/
def Consumes (c : Nat → Prop) : Parser α → Prop
  | .leaf f => ∀ s t, f s = some t → t.length < s.length
  | .seq p q => Consumes c p ∨ Consumes c q
  | .choice p q => Consumes c p ∧ Consumes c q
  | .plus p => Consumes c p
  | .list p _ => Consumes c p
  | .diff p _ => Consumes c p
  | .rule i => c i
  | _ => False

/-- All loops are about such parsers. -/
def Bounded (c : Nat → Prop) : Parser α → Prop
  | .leaf f => ∀ s t, f s = some t → t.length ≤ s.length
  | .seq p q => Bounded c p ∧ Bounded c q
  | .choice p q => Bounded c p ∧ Bounded c q
  | .kleene p => Bounded c p ∧ Consumes c p
  | .plus p => Bounded c p ∧ Consumes c p
  | .opt p => Bounded c p
  | .list p q => Bounded c p ∧ Bounded c q ∧ (Consumes c p ∨ Consumes c q)
  | .conj p => Bounded c p
  | .neg p => Bounded c p
  | .diff p q => Bounded c p ∧ Bounded c q
  | .rule _ => True

/-- The rule `j` may be called before anything is consumed. -/
def Left (c : Nat → Prop) (j : Nat) : Parser α → Prop
  | .leaf _ => False
  | .seq p q => Left c j p ∨ (¬ Consumes c p ∧ Left c j q)
  | .choice p q => Left c j p ∨ Left c j q
  | .kleene p => Left c j p
  | .plus p => Left c j p
  | .opt p => Left c j p
  | .list p q => Left c j p ∨ (¬ Consumes c p ∧ Left c j q)
  | .conj p => Left c j p
  | .neg p => Left c j p
  | .diff p q => Left c j p ∨ Left c j q
  | .rule i => j = i

/-- No rule comes back to itself before anything is consumed: there is an order of the rules in which such calls go down; and no loop runs on the spot. -/
def WellFormed (G : Nat → Parser α) : Prop :=
  ∃ (c : Nat → Prop) (rank : Nat → Nat), ∀ i, (c i → Consumes c (G i)) ∧ Bounded c (G i) ∧ ∀ j, Left c j (G i) → rank j < rank i

end Verif.Grammar.Spec
