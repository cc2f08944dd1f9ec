import Verif.Combinator.Model
/-! What the combinators mean: those of parsing expression grammars (B. Ford, 2004). -/
namespace Verif.Combinator.Spec
variable {α : Type}

/-- `n` steps. -/
def Many (R : List α → List α → Prop) : Nat → List α → List α → Prop
  | 0, s, t => s = t
  | n + 1, s, t => ∃ u, R s u ∧ Many R n u t

/-- `Accepts p s (some t)`: on `s`, the parser succeeds and `t` is left; `Accepts p s none`: it fails. -/
def Accepts : Parser α → List α → Option (List α) → Prop
  | .eps, s, r => r = some s
  | .eoi, s, r => (s = [] ∧ r = some []) ∨ (s ≠ [] ∧ r = none)
  | .sat p, s, r => (∃ c t, s = c :: t ∧ p c = true ∧ r = some t) ∨ ((∀ c t, s = c :: t → p c = false) ∧ r = none)
  | .lit w, s, r => (∃ t, s = w ++ t ∧ r = some t) ∨ ((∀ t, s ≠ w ++ t) ∧ r = none)
  | .symbols ks, s, r =>
    (∃ k ∈ ks, ∃ t, s = k ++ t ∧ r = some t ∧ ∀ k' ∈ ks, k' <+: s → k'.length ≤ k.length) ∨ ((∀ k ∈ ks, ¬ k <+: s) ∧ r = none)
  | .skip n, s, r => (∃ u t, s = u ++ t ∧ u.length = n ∧ r = some t) ∨ (s.length < n ∧ r = none)
  | .seq p q, s, r => (∃ t, Accepts p s (some t) ∧ Accepts q t r) ∨ (Accepts p s none ∧ r = none)
  | .choice p q, s, r => (∃ t, Accepts p s (some t) ∧ r = some t) ∨ (Accepts p s none ∧ Accepts q s r)
  | .kleene p, s, r => ∃ n t, Many (fun a b => Accepts p a (some b)) n s t ∧ Accepts p t none ∧ r = some t
  | .plus p, s, r =>
    (∃ n t, Many (fun a b => Accepts p a (some b)) (n + 1) s t ∧ Accepts p t none ∧ r = some t) ∨ (Accepts p s none ∧ r = none)
  | .opt p, s, r => (∃ t, Accepts p s (some t) ∧ r = some t) ∨ (Accepts p s none ∧ r = some s)
  | .list p q, s, r =>
    (∃ t n u, Accepts p s (some t) ∧ Many (fun a b => ∃ m, Accepts q a (some m) ∧ Accepts p m (some b)) n t u ∧
      (Accepts q u none ∨ ∃ m, Accepts q u (some m) ∧ Accepts p m none) ∧ r = some u) ∨ (Accepts p s none ∧ r = none)
  | .conj p, s, r => (∃ t, Accepts p s (some t) ∧ r = some s) ∨ (Accepts p s none ∧ r = none)
  | .neg p, s, r => (∃ t, Accepts p s (some t) ∧ r = none) ∨ (Accepts p s none ∧ r = some s)
  | .diff p q, s, r => (∃ t, Accepts q s (some t) ∧ r = none) ∨ (Accepts q s none ∧ Accepts p s r)
  | .rep p min max, s, r =>
    ∃ n t, Many (fun a b => Accepts p a (some b)) n s t ∧ (n = max ∨ (n < max ∧ Accepts p t none)) ∧
      ((min ≤ n ∧ r = some t) ∨ (n < min ∧ r = none))
  | .guard p g, s, r =>
    (∃ u t, s = u ++ t ∧ Accepts p s (some t) ∧ ((g u = true ∧ r = some t) ∨ (g u = false ∧ r = none))) ∨ (Accepts p s none ∧ r = none)
  | .seqChoice p q, s, r =>
    (∃ t, Accepts p s (some t) ∧ ((∃ u, Accepts q t (some u) ∧ r = some u) ∨ (Accepts q t none ∧ r = some t))) ∨
      (Accepts p s none ∧ Accepts q s r)
  | .cond b p, s, r => (b = true ∧ Accepts p s r) ∨ (b = false ∧ r = none)

/-- Parsers that are no guards, also where they pass on the failure of another parser. -/
def restores : Parser α → Bool
  | .guard _ _ => false
  | .plus p => restores p
  | .list p _ => restores p
  | .diff p _ => restores p
  | .seqChoice _ q => restores q
  | .cond _ p => restores p
  | _ => true

/-- No loop, no option, no difference and no `sequence_choice_parser` is directly about a guard; nothing is skipped; the symbols are not empty and repetitions have bounds. -/
def proper : Parser α → Bool
  | .skip _ => false
  | .symbols ks => ks.all fun k => !k.isEmpty
  | .seq p q => proper p && proper q
  | .choice p q => proper p && proper q
  | .kleene p => proper p && restores p
  | .plus p => proper p && restores p
  | .opt p => proper p && restores p
  | .list p q => proper p && proper q
  | .conj p => proper p
  | .neg p => proper p
  | .diff p q => proper p && proper q && restores q
  | .rep p min max => proper p && restores p && decide (min ≤ max)
  | .guard p _ => proper p
  | .seqChoice p q => proper p && proper q && restores p && restores q
  | .cond _ p => proper p
  | _ => true

/-- Parsers that do not succeed without consuming anything, as far as this shows without the input. -/
def consumes : Parser α → Bool
  | .sat _ => true
  | .lit w => !w.isEmpty
  | .symbols _ => true
  | .skip n => decide (n > 0)
  | .seq p q => consumes p || consumes q
  | .choice p q => consumes p && consumes q
  | .plus p => consumes p
  | .list p _ => consumes p
  | .diff p _ => consumes p
  | .rep p min max => decide (0 < min ∧ min ≤ max) && consumes p
  | .guard p _ => consumes p
  | .seqChoice p q => consumes p && consumes q
  | .cond _ p => consumes p
  | _ => false

/-- All loops are about such parsers. -/
def bounded : Parser α → Bool
  | .seq p q => bounded p && bounded q
  | .choice p q => bounded p && bounded q
  | .kleene p => bounded p && consumes p
  | .plus p => bounded p && consumes p
  | .opt p => bounded p
  | .list p q => bounded p && bounded q && (consumes p || consumes q)
  | .conj p => bounded p
  | .neg p => bounded p
  | .diff p q => bounded p && bounded q
  | .rep p _ _ => bounded p
  | .guard p _ => bounded p
  | .seqChoice p q => bounded p && bounded q
  | .cond _ p => bounded p
  | _ => true

end Verif.Combinator.Spec
