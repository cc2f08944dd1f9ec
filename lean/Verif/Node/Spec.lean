import Verif.Node.Model
/-!
# Words for the properties of a node
-/
namespace Verif.Node.Spec

/-- A label that the node could have made: a type, a dash and a number. -/
def Generated (l : Name) : Prop := ∃ type n, l = type ++ 45 :: decimal n

/-- No label given by a user looks like one that the node makes. -/
def OwnLabels (es : List Event) : Prop := ∀ type l ok, .spawn type (some l) ok ∈ es → ¬ Generated l

/-- The components that exist once are neither given labels nor registered from elsewhere. -/
def PlainSingletons (es : List Event) : Prop :=
  (∀ type l ok, .spawn type (some l) ok ∈ es → type ∉ singletons) ∧ ∀ n type, .put n type ∈ es → type ∉ singletons

/-- No user gives a component the name of a type that exists once. -/
def NoImpostor (es : List Event) : Prop := ∀ type l ok, .spawn type (some l) ok ∈ es → l ∉ singletons

/-- No component is killed after it has ended by itself, before the node has heard of that, and none is registered twice. -/
def Orderly : List Event → Prop
  | es => ∀ before after, es = before ++ after →
    (∀ label rest, after = .kill label :: rest → ∀ c ∈ (run before).registry, c.label = label → c.actor ∉ (run before).downs)
    ∧ ∀ n type rest, after = .put n type :: rest → ∀ c ∈ (run before).registry, c.actor ≠ .ext n

end Verif.Node.Spec
