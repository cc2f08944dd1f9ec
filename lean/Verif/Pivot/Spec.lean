import Verif.Data.Model
import Verif.Types.LookupSpec
/-!
# What a pivot should do
-/
namespace Verif.Pivot.Spec
open Verif.Types Verif.Types.Spec Verif.Data

/-- The field that links events of a type `name` to events of the type `target`. -/
def Link (target name field : Name) : Prop :=
  (str "zeek" <+: target ∧ str "zeek" <+: name ∧ field = str "uid")
  ∨ (¬ (str "zeek" <+: target ∧ str "zeek" <+: name) ∧ field = str "community_id")

/-- An event as seen by queries: its type, and the values of the fields that a name refers to. -/
structure Event where
  type : Name
  values : Name → List Data

/-- A batch of events of the same type: the name and the fields of the type, and the values of the columns of each event. -/
structure Batch (τ : Type) where
  name : Name
  fields : Fields τ
  rows : List (List Data)

/-- One of the events has the text `v` in its column for the field at the top that is called `field`. -/
def Has {τ : Type} (b : Batch τ) (field : Name) (v : Str) : Prop :=
  ∃ (i : Nat) (l : Leaf τ), (leaves 0 b.fields)[i]? = some l ∧ l.path = [field] ∧ ∃ row ∈ b.rows, row[i]? = some (Data.string v)

/-- One of the events has the text `v` in a column whose name ends with `field`. -/
def HasNested {τ : Type} (b : Batch τ) (field : Name) (v : Str) : Prop :=
  ∃ (i : Nat) (l : Leaf τ), (leaves 0 b.fields)[i]? = some l ∧ (46 :: field) <:+ dotted (b.name :: l.path) ∧ ∃ row ∈ b.rows, row[i]? = some (Data.string v)

/-- There is a field of that name at the top. -/
def HasTop {τ : Type} (b : Batch τ) (field : Name) : Prop := ∃ t, (field, t) ∈ b.fields.toList

/-- At most one field has a name that ends with `field`; it is at the top and is not a record. -/
def Clear {τ : Type} (b : Batch τ) (field : Name) : Prop :=
  (∀ o p t, HasField b.fields o p t → (46 :: field) <:+ dotted (b.name :: p) → p = [field] ∧ ∀ m gs, t ≠ .record m gs)
  ∧ ∀ (x y : Nat) (t u : Ty τ), b.fields.toList[x]? = some (field, t) → b.fields.toList[y]? = some (field, u) → x = y

/-- A query: events of the type with one of the values in a field. -/
def Finds (target field : Name) (values : List Str) (e : Event) : Prop :=
  e.type = target ∧ ∃ v ∈ values, Data.string v ∈ e.values field

end Verif.Pivot.Spec
