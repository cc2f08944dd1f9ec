/-!
CRC-32, as it is defined: division of the message, seen as a polynomial over the field of two elements, bit by bit with a shift register.
Bits enter in the order of their significance, the register starts with ones and is inverted at the end.  Nothing of the model is used.
-/
namespace Verif.Crc.Spec

/-- The polynomial x³² + x²⁶ + x²³ + x²² + x¹⁶ + x¹² + x¹¹ + x¹⁰ + x⁸ + x⁷ + x⁵ + x⁴ + x² + x + 1, the highest power left out and the
others from the least significant bit on in falling order: bit `31 - n` stands for xⁿ. -/
def polynomial : BitVec 32 := ([26, 23, 22, 16, 12, 11, 10, 8, 7, 5, 4, 2, 1, 0].map (fun n => 1#32 <<< (31 - n))).foldl (· ||| ·) 0#32

/-- One bit of the message enters. -/
def bit (register : BitVec 32) (b : Bool) : BitVec 32 :=
  if (register.getLsbD 0 ^^ b) then (register >>> 1) ^^^ polynomial else register >>> 1

/-- The bits of a byte, the least significant one first. -/
def bits (b : BitVec 8) : List Bool := (List.range 8).map b.getLsbD

/-- The register after a message. -/
def divide (register : BitVec 32) (message : List (BitVec 8)) : BitVec 32 := (message.flatMap bits).foldl bit register

/-- The checksum of a message. -/
def crc32 (message : List (BitVec 8)) : BitVec 32 := ~~~ divide (~~~ 0#32) message

end Verif.Crc.Spec
