import Verif.Taxonomy.Spec
/-!
# What the definitions of concepts and models in schema files mean
-/
namespace Verif.Registry.Spec
open Verif.Taxonomy (Name find)
open Verif.Data (Data str)

/-- The value with a key in an item of a document; an item that is no record has none. -/
def entry (key : String) : Data → Option Data
  | .record ns vs => find (ns.zip vs) (str key)
  | _ => none

/-- The values with a key in the items of a document, from top to bottom; a document that is no list has none. -/
def entries (key : String) : Data → List Data
  | .list items => items.filterMap (entry key)
  | _ => []

/-- A record has no value for a key, and `xs` is empty, or it has a list of the strings `xs`. -/
def Strings (r : List (Name × Data)) (key : String) (xs : List Name) : Prop :=
  (find r (str key) = none ∧ xs = []) ∨ find r (str key) = some (.list (xs.map .string))

/-- A definition of the concept `name` with these fields and these other concepts. -/
def IsConcept (d : Data) (name : Name) (fields concepts : List Name) : Prop :=
  ∃ ns vs, d = .record ns vs ∧ find (ns.zip vs) (str "name") = some (.string name)
    ∧ Strings (ns.zip vs) "fields" fields ∧ Strings (ns.zip vs) "concepts" concepts

/-- A definition of the model `name`. -/
def IsModel (d : Data) (name : Name) (definition : List Name) : Prop :=
  ∃ ns vs, d = .record ns vs ∧ find (ns.zip vs) (str "name") = some (.string name) ∧ Strings (ns.zip vs) "definition" definition

/-- All definitions of concepts. -/
def concepts (docs : List Data) : List Data := docs.flatMap (entries "concept")

/-- All definitions of models. -/
def models (docs : List Data) : List Data := docs.flatMap (entries "model")

end Verif.Registry.Spec
