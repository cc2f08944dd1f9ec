import Verif.ZeekFiles.Model
namespace Verif.ZeekFiles.Spec
open Verif.Data
variable {F : Type}

/-- How a reader of a log understands it: every row belongs to the header before it. -/
def readLog : Option (Layout F) → List (Line F) → List (Option (Layout F) × Str)
  | _, [] => []
  | _, .header l :: ls => readLog (some l) ls
  | h, .row t :: ls => (h, t) :: readLog h ls

/-- The rows of a slice that can be printed: those before the first that cannot. -/
def printed (x : Slice F) : List Str := (x.rows.takeWhile Row.ok).map Row.text

/-- All rows can be printed. -/
def Printable (x : Slice F) : Prop := ∀ r ∈ x.rows, r.ok = true

/-- Every name has one layout. -/
def OneLayout (xs : List (Slice F)) : Prop := ∀ x ∈ xs, ∀ y ∈ xs, x.layout.name = y.layout.name → x.layout = y.layout

end Verif.ZeekFiles.Spec
