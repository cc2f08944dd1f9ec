import Verif.ArrowWriter.Model
/-! What a reader of Arrow streams makes of an output.  Of the model, this uses only the types. -/
namespace Verif.ArrowWriter.Spec

/-- A reader of one stream after the other: a batch belongs to the stream it is in.  `none` if the output is no such sequence. -/
def readFrom : Option Layout → List Out → Option (List Slice)
  | _, [] => some []
  | none, .schema l :: r => readFrom (some l) r
  | some l, .batch n :: r => (readFrom (some l) r).map (⟨l, n⟩ :: ·)
  | some _, .eos :: r => readFrom none r
  | _, _ => none

/-- What the output is read as. -/
def read (o : List Out) : Option (List Slice) := readFrom none o

/-- The schemas in the output, in order. -/
def schemas (o : List Out) : List Layout := o.filterMap fun | .schema l => some l | _ => none

/-- A list without the elements that are equal to their predecessor. -/
def runs : List Layout → List Layout
  | [] => []
  | [l] => [l]
  | l :: m :: r => if l = m then runs (m :: r) else l :: runs (m :: r)

/-- The output of a state. -/
def output : Res → Option (List Out)
  | .ok s | .error s => some s.out
  | .crash => none

end Verif.ArrowWriter.Spec
