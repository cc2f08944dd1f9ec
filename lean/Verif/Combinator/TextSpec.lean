import Verif.Combinator.TextModel
namespace Verif.Combinator.Text.Spec

/-- `n` steps, with the text that they keep. -/
def Many (R : List Char → List Char → List Char → Prop) : Nat → List Char → List Char → List Char → Prop
  | 0, s, t, u => s = t ∧ u = []
  | n + 1, s, t, u => ∃ m u1 u2, R s m u1 ∧ Many R n m t u2 ∧ u = u1 ++ u2

/-- `Keeps p s (some (t, u))`: on `s`, the parser succeeds, `t` is left, and of the text consumed, `u` is what is not ignored.  `Keeps p s none`: it fails. -/
def Keeps : Parser → List Char → Option (List Char × List Char) → Prop
  | .sat p, s, r => (∃ c t, s = c :: t ∧ p c = true ∧ r = some (t, [c])) ∨ ((∀ c t, s = c :: t → p c = false) ∧ r = none)
  | .str w, s, r => (∃ t, s = w ++ t ∧ r = some (t, w)) ∨ ((∀ t, s ≠ w ++ t) ∧ r = none)
  | .ignore p, s, r => (∃ t u, Keeps p s (some (t, u)) ∧ r = some (t, [])) ∨ (Keeps p s none ∧ r = none)
  | .seq p q, s, r =>
    (∃ t u, Keeps p s (some (t, u)) ∧ ((∃ t' u', Keeps q t (some (t', u')) ∧ r = some (t', u ++ u')) ∨ (Keeps q t none ∧ r = none))) ∨
      (Keeps p s none ∧ r = none)
  | .choice p q, s, r => (∃ x, Keeps p s (some x) ∧ r = some x) ∨ (Keeps p s none ∧ Keeps q s r)
  | .kleene p, s, r => ∃ n t u, Many (fun a b v => Keeps p a (some (b, v))) n s t u ∧ Keeps p t none ∧ r = some (t, u)
  | .plus p, s, r =>
    (∃ n t u, Many (fun a b v => Keeps p a (some (b, v))) (n + 1) s t u ∧ Keeps p t none ∧ r = some (t, u)) ∨ (Keeps p s none ∧ r = none)
  | .maybe p, s, r => (∃ x, Keeps p s (some x) ∧ r = some x) ∨ (Keeps p s none ∧ r = some (s, []))
  | .neg p, s, r => (∃ x, Keeps p s (some x) ∧ r = none) ∨ (Keeps p s none ∧ r = some (s, []))
  | .diff p q, s, r => (∃ x, Keeps q s (some x) ∧ r = none) ∨ (Keeps q s none ∧ Keeps p s r)

/-- Parsers that replace the text so far, instead of appending to it. -/
def replaces : Parser → Bool
  | .str _ => true
  | .seq p q => replaces p || replaces q
  | .choice p q => decide ((Parser.choice p q).ty ≠ some .unused)
  | .maybe p => replaces p
  | .diff p _ => replaces p
  | _ => false

/-- Parsers that leave the text as it was when they fail. -/
def tidy : Parser → Bool
  | .str _ => false
  | .seq p q => decide (p.ty = some .unused) && tidy p && tidy q
  | .diff p _ => tidy p
  | _ => true

/-- No parser that replaces text comes after something that is kept; all alternatives are of the same type; what may be missing is tidy; what is ignored has a type. -/
def proper : Parser → Bool
  | .sat _ => true
  | .str _ => true
  | .ignore p => proper p && p.ty.isSome
  | .seq p q => proper p && proper q && (decide (p.ty = some .unused) || !replaces q)
  | .choice p q => proper p && proper q && decide (p.ty = q.ty)
  | .kleene p => proper p
  | .plus p => proper p
  | .maybe p => proper p && tidy p && decide (p.ty ≠ some .chr)
  | .neg p => proper p && p.ty.isSome
  | .diff p q => proper p && proper q && q.ty.isSome

end Verif.Combinator.Text.Spec
