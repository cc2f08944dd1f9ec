import Verif.Reader.Lines
/-!
# What the lines of an input are
-/
namespace Verif.Reader

/-- The bytes that arrive, without regard to time-outs. -/
def bytes : List Arr → List UInt8
  | [] => []
  | .byte b :: r => b :: bytes r
  | .timeout :: r => bytes r

/-- The line `cur` if it is not empty. -/
def nonEmpty (cur : List UInt8) : List (List UInt8) := if cur = [] then [] else [cur]

/-- The non-empty lines of a text of which `cur` has been read already: the pieces between line feeds
and carriage returns. -/
def linesFrom (cur : List UInt8) : List UInt8 → List (List UInt8)
  | [] => nonEmpty cur
  | c :: r => if c = 10 ∨ c = 13 then nonEmpty cur ++ linesFrom [] r else linesFrom (cur ++ [c]) r

/-- The non-empty lines of a text. -/
def linesOf (bs : List UInt8) : List (List UInt8) := linesFrom [] bs

/-- No carriage return is followed by a time-out, unless the next byte thereafter is a line feed,
another carriage return, or there is none. -/
def CrOk : List Arr → Prop
  | [] => True
  | .byte c :: r =>
    (c = 13 → ∀ r', r = .timeout :: r' → (bytes r').head? = none ∨ (bytes r').head? = some 10 ∨ (bytes r').head? = some 13)
      ∧ CrOk r
  | .timeout :: r => CrOk r

end Verif.Reader
