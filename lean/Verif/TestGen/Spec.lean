import Verif.TestGen.Model
import Verif.DataText.LiteralSpec
/-! What the generator of test events promises.  Of the model, this uses only the types. -/
namespace Verif.TestGen.Spec
open Verif.DataText Verif.Data

mutual
/-- The columns of a type in order: the type and the attributes of each. -/
def columns : Ty → List (Kind × List Attr)
  | .leaf k attrs => [(k, attrs)]
  | .record fs => columnsAll fs
/-- The columns of the fields. -/
def columnsAll : Tys → List (Kind × List Attr)
  | .nil => []
  | .cons t ts => columns t ++ columnsAll ts
end

variable {S G : Type}

/-- The value of a column after a sample: times and durations advance by it, all others are computed from it. -/
def advance (rng : Rng S G) (k : Kind) (old : Leaf S) (x : S) (g : G) : Leaf S × G :=
  if k = .time ∨ k = .duration then
    (match old with | .summed xs => .summed (xs ++ [x]) | _ => .summed [x], g)
  else if k = .address then (.addr x (rng.version g).1, (rng.version g).2)
  else (.drawn x, g)

/-- The next event: column by column, each draws a sample of its own distribution; columns without one are null. -/
def event (rng : Rng S G) : List (Kind × Option Dist) → List (Leaf S) → G → List (Leaf S) × G
  | (_, none) :: cs, _ :: old, g => (.null :: (event rng cs old g).1, (event rng cs old g).2)
  | (k, some d) :: cs, x :: old, g =>
    let y := advance rng k x (rng.draw d g).1 (rng.draw d g).2
    (y.1 :: (event rng cs old y.2).1, (event rng cs old y.2).2)
  | _, _, g => ([], g)

/-- Some events one after the other. -/
def events (rng : Rng S G) (cs : List (Kind × Option Dist)) : Nat → List (Leaf S) → G → List (List (Leaf S))
  | 0, _, _ => []
  | n + 1, old, g => (event rng cs old g).1 :: events rng cs n (event rng cs old g).1 (event rng cs old g).2

/-- What the columns hold before the first event. -/
def start (cs : List (Kind × Option Dist)) : List (Leaf S) := cs.map fun c => if c.2 = none then .null else .blank

/-- The last event of a layout among some slices. -/
def last (j : Nat) (init : List (Leaf S)) : List (Nat × List (List (Leaf S))) → List (Leaf S)
  | [] => init
  | (i, rows) :: out => last j (if i = j then rows.getLast?.getD init else init) out

/-- The number of events in some slices. -/
def total (out : List (Nat × List (List (Leaf S)))) : Nat := (out.map fun x => x.2.length).sum

end Verif.TestGen.Spec

namespace Verif.TestGen.Spec
open Verif.DataText Verif.Data Verif.DataText.Spec

/-- A number in a specification: an optional minus, up to 20 digits, and perhaps a dot and up to 20 digits. -/
inductive Numeral : Str → Lit → Prop
  | whole (neg : Bool) (ds : List Nat) (h : Digits ds) (hl : ds.length ≤ 20) :
      Numeral ((if neg then [45] else []) ++ digitText ds) ⟨neg, ds, []⟩
  | dotted (neg : Bool) (ds fs : List Nat) (h : Digits ds) (hl : ds.length ≤ 20) (hf : Digits fs) (hlf : fs.length ≤ 20) :
      Numeral ((if neg then [45] else []) ++ digitText ds ++ [46] ++ digitText fs) ⟨neg, ds, fs⟩

/-- The distribution that a name means for a type. -/
def meaning (k : Kind) (name : Str) (a b : Lit) : Option Dist :=
  if name = str "normal" then some (.normal a b)
  else if name = str "pareto" then some (.pareto a b)
  else if name = str "uniform" then
    some (if k = .int then .uniformInt a b else if k = .bool ∨ k = .count ∨ k = .string then .uniformCount a b else .uniformReal a b)
  else none

end Verif.TestGen.Spec

namespace Verif.TestGen.Spec
open Verif.DataText Verif.Data Verif.DataText.Spec

/-- Everything that is read as a number: an optional sign, up to 20 digits, and a dot with up to 20 more, where digits may be
missing on one side of the dot; without a dot, the digits after the 20th (up to 20 of them) are taken for the fraction. -/
inductive Written : Str → Lit → Prop
  | mk (neg : Bool) (sign : Str) (hs : sign = [45] ∧ neg = true ∨ sign = [43] ∧ neg = false ∨ sign = [] ∧ neg = false)
      (ds fs : List Nat) (hd : ∀ d ∈ ds ++ fs, d < 10) (hl : ds.length ≤ 20) (hlf : fs.length ≤ 20) (dot : Str)
      (hdot : dot = [46] ∧ (ds ≠ [] ∨ fs ≠ []) ∨ dot = [] ∧ ds ≠ [] ∧ (fs = [] ∨ ds.length = 20)) :
      Written (sign ++ digitText ds ++ dot ++ digitText fs) ⟨neg, ds, fs⟩

end Verif.TestGen.Spec
