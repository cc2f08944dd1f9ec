import Verif.Select.Model
/-! Which layout an object tells.  Of the model, this uses only the types. -/
namespace Verif.Select.Spec
open Verif.Data

variable {R : Type}

/-- The object has the type `k`: the first member with that name is the text `k`. -/
def Tells (field : Str) (obj : List (Str × Option Str)) (k : Str) : Prop :=
  ∃ before after, obj = before ++ (field, some k) :: after ∧ ∀ m ∈ before, m.1 ≠ field

/-- The last record of a name in a schema. -/
def Defines (sch : List (Named R)) (name : Str) (r : R) : Prop :=
  ∃ before after, sch = before ++ (name, some r) :: after ∧ ∀ t ∈ after, ∀ r', t ≠ (name, some r')

/-- Of several schemas, the last that defines the name counts. -/
inductive Known (name : Str) : List (List (Named R)) → R → Prop
  | last {schs sch r} : Defines sch name r → Known name (schs ++ [sch]) r
  | older {schs sch r} : (∀ t ∈ sch, ∀ r', t ≠ (name, some r')) → Known name schs r → Known name (schs ++ [sch]) r

/-- The schemas in a history. -/
def schemas : List (Op R) → List (List (Named R))
  | [] => []
  | .schema sch :: os => sch :: schemas os
  | .object _ :: os => schemas os

/-- The objects in a history. -/
def objects : List (Op R) → List (List (Str × Option Str))
  | [] => []
  | .schema _ :: os => objects os
  | .object obj :: os => obj :: objects os

end Verif.Select.Spec
