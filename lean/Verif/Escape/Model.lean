/-!
# Escaping of strings

Models /repo/libvast/vast/detail/escapers.hpp, vast/detail/string.hpp and src/detail/string.cpp, and
the hexadecimal helpers of vast/detail/coding.hpp. A string is a list of bytes. `none` is an access
outside of the string. The character classes are those of the "C" locale, in which no byte above 127
is in any class (the code passes a possibly negative `char` to the classification functions, which the
C library used on Linux allows).
-/

namespace Verif.Escape

/-- The ASCII codes used below. -/
def backslash : UInt8 := 92
@[inherit_doc backslash] def quote : UInt8 := 34
@[inherit_doc backslash] def percent : UInt8 := 37

/-- escapers.hpp:39 `std::isprint` -/
def isPrint (c : UInt8) : Bool := decide (32 ≤ c.toNat ∧ c.toNat ≤ 126)

/-- escapers.hpp:74 `std::iscntrl` -/
def isCntrl (c : UInt8) : Bool := decide (c.toNat < 32 ∨ c.toNat = 127)

/-- escapers.hpp:32 `std::isxdigit` -/
def isXdigit (c : UInt8) : Bool :=
  decide ((48 ≤ c.toNat ∧ c.toNat ≤ 57) ∨ (65 ≤ c.toNat ∧ c.toNat ≤ 70) ∨ (97 ≤ c.toNat ∧ c.toNat ≤ 102))

/-- escapers.hpp:178-180 `is_unreserved` -/
def isUnreserved (c : UInt8) : Bool :=
  decide ((48 ≤ c.toNat ∧ c.toNat ≤ 57) ∨ (65 ≤ c.toNat ∧ c.toNat ≤ 90) ∨ (97 ≤ c.toNat ∧ c.toNat ≤ 122))
    || c == 45 || c == 95 || c == 46 || c == 126

/-- coding.hpp:59 the upper-case alphabet -/
def hexAlphabet : List UInt8 := [48, 49, 50, 51, 52, 53, 54, 55, 56, 57, 65, 66, 67, 68, 69, 70]

/-- coding.hpp:44-50 `byte_to_hex`, the high nibble -/
def hexHi (c : UInt8) : UInt8 := hexAlphabet.getD ((c.toNat >>> 4) &&& 0x0f) 0

/-- coding.hpp:44-50 `byte_to_hex`, the low nibble -/
def hexLo (c : UInt8) : UInt8 := hexAlphabet.getD (c.toNat &&& 0x0f) 0

/-- coding.hpp:94-104 `hex_to_byte(hex)` -/
def hexVal (c : UInt8) : Nat :=
  if 48 ≤ c.toNat ∧ c.toNat ≤ 57 then c.toNat - 48
  else if 65 ≤ c.toNat ∧ c.toNat ≤ 70 then c.toNat - 65 + 10
  else if 97 ≤ c.toNat ∧ c.toNat ≤ 102 then c.toNat - 97 + 10
  else 0

/-- coding.hpp:110-114 `hex_to_byte(hi, lo)` -/
def hexByte (hi lo : UInt8) : UInt8 := UInt8.ofNat ((hexVal hi <<< 4) ||| hexVal lo)

/-! ### Escapers: the text written for one character -/

/-- escapers.hpp:19-25 `hex_escaper` -/
def hexEscaper (c : UInt8) : List UInt8 := [backslash, 120, hexHi c, hexLo c]

/-- escapers.hpp:38-43 `print_escaper` -/
def printEscaper (c : UInt8) : List UInt8 := if isPrint c then [c] else hexEscaper c

/-- escapers.hpp:73-85 `json_print_escaper` -/
def jsonPrintEscaper (c : UInt8) : List UInt8 :=
  if isCntrl c then [backslash, 117, 48, 48, hexHi c, hexLo c] else [c]

/-- escapers.hpp:68-111 `json_escaper` -/
def jsonEscaper (c : UInt8) : List UInt8 :=
  if c = quote ∨ c = backslash then [backslash, c]
  else if c = 8 then [backslash, 98]
  else if c = 12 then [backslash, 102]
  else if c = 13 then [backslash, 114]
  else if c = 10 then [backslash, 110]
  else if c = 9 then [backslash, 116]
  else jsonPrintEscaper c

/-- escapers.hpp:177-189 `percent_escaper` -/
def percentEscaper (c : UInt8) : List UInt8 :=
  if isUnreserved c then [c] else [percent, hexHi c, hexLo c]

/-- escapers.hpp:201-210 `make_extra_print_escaper` -/
def extraPrintEscaper (extra : List UInt8) (c : UInt8) : List UInt8 :=
  if c ∈ extra then [backslash, c] else printEscaper c

/-- escapers.hpp:212-218 `make_double_escaper` -/
def doubleEscaper (esc : List UInt8) (c : UInt8) : List UInt8 :=
  if c ∈ esc then [c, c] else [c]

/-- string.hpp:23-33 `escape` -/
def escape (escaper : UInt8 → List UInt8) : List UInt8 → List UInt8
  | [] => []
  | c :: rest => escaper c ++ escape escaper rest

/-- string.cpp:20-22 `byte_escape(str)` -/
def byteEscape (s : List UInt8) : List UInt8 := escape printEscaper s

/-- string.cpp:24-26 `byte_escape(str, extra)` -/
def byteEscapeExtra (s extra : List UInt8) : List UInt8 := escape (extraPrintEscaper extra) s

/-- string.cpp:28-30 `byte_escape_all` -/
def byteEscapeAll (s : List UInt8) : List UInt8 := escape hexEscaper s

/-- string.cpp:36-49 `json_escape` -/
def jsonEscape (s : List UInt8) : List UInt8 :=
  if s = [] then [quote, quote] else [quote] ++ escape jsonEscaper s ++ [quote]

/-- string.cpp:70-72 `percent_escape` -/
def percentEscape (s : List UInt8) : List UInt8 := escape percentEscaper s

/-- string.cpp:78-80 `double_escape` -/
def doubleEscape (s esc : List UInt8) : List UInt8 := escape (doubleEscaper esc) s

/-! ### Unescapers -/

/-- The outcome of one call of an unescaper on the characters from `f` to `l`: `false`, an access
    outside of the string, or the text written and the characters from the new `f` to `l`. -/
inductive Step where
  | fail
  | ub
  | ok (out rest : List UInt8)
  deriving DecidableEq, Repr

/-- escapers.hpp:27-36 `hex_unescaper`; the first dereference is unchecked -/
def hexUnescaper : List UInt8 → Step
  | [] => .ub
  | [_] => .fail
  | hi :: lo :: rest => if isXdigit hi && isXdigit lo then .ok [hexByte hi lo] rest else .fail

/-- escapers.hpp:45-57 `byte_unescaper` -/
def byteUnescaper (c : UInt8) (rest : List UInt8) : Step :=
  if c ≠ backslash then .ok [c] rest
  else if rest.length + 1 < 4 then .fail
  else if rest.getD 0 0 ≠ 120 then .ok [rest.getD 0 0] (rest.drop 1)
  else hexUnescaper (rest.drop 1)

/-- escapers.hpp:191-199 `percent_unescaper` -/
def percentUnescaper (c : UInt8) (rest : List UInt8) : Step :=
  if c ≠ percent then .ok [c] rest
  else if rest.length + 1 < 3 then .fail
  else hexUnescaper rest

/-- escapers.hpp:220-233 `make_double_unescaper` -/
def doubleUnescaper (esc : List UInt8) (x : UInt8) : List UInt8 → Step
  | [] => .ok [x] []
  | y :: rest => .ok (if x = y ∧ x ∉ esc then [x, y] else [x]) rest

/-- escapers.hpp:154-171: the case `\u`, given the four bytes that are read and the rest -/
def jsonUnicode (b0 b1 b2 b3 : UInt8) (rest : List UInt8) : Step :=
  if b0 ≠ 48 ∨ b1 ≠ 48 then .ok [backslash, 117, b0, b1, b2, b3] rest
  else if isXdigit b2 && isXdigit b3 then .ok [hexByte b2 b3] rest
  else .fail

/-- An unescaper that has moved `f` behind `l`: the loop of the caller goes on outside of the
    string. -/
def beyond : Step → Step
  | .ok _ _ => .ub
  | s => s

/-- escapers.hpp:149-171: the case `\u`, given the characters behind the `u`. The check
    `l - f < 4` counts the `u`, so that three characters pass: the fourth byte read is the closing
    quote, and `f` ends up one behind `l`. -/
def jsonU : List UInt8 → Step
  | b0 :: b1 :: b2 :: b3 :: rest => jsonUnicode b0 b1 b2 b3 rest
  | [b0, b1, b2] => beyond (jsonUnicode b0 b1 b2 quote [])
  | _ => .fail

/-- escapers.hpp:122-173: the character `c` behind a backslash -/
def jsonEscaped (c : UInt8) (rest : List UInt8) : Step :=
  if c = backslash then .ok [backslash] rest
  else if c = quote then .ok [quote] rest
  else if c = 47 then .ok [47] rest
  else if c = 98 then .ok [8] rest
  else if c = 102 then .ok [12] rest
  else if c = 114 then .ok [13] rest
  else if c = 110 then .ok [10] rest
  else if c = 116 then .ok [9] rest
  else if c = 117 then jsonU rest
  else .fail

/-- escapers.hpp:113-175 `json_unescaper` -/
def jsonUnescaper (c : UInt8) (rest : List UInt8) : Step :=
  if c = quote then .fail
  else if c ≠ backslash then .ok [c] rest
  else if rest.length + 1 < 2 then .fail
  else jsonEscaped (rest.getD 0 0) (rest.drop 1)

/-- string.hpp:39-50 `unescape`: the loop, which returns an empty string if the unescaper fails. The
    fuel is the length of the string; every unescaper consumes a character (`Escape.run_fuel` shows
    that the fuel does not matter). -/
def run (u : UInt8 → List UInt8 → Step) : Nat → List UInt8 → List UInt8 → Option (List UInt8)
  | _, result, [] => some result
  | 0, result, _ :: _ => some result
  | n + 1, result, c :: rest =>
    match u c rest with
    | .fail => some []
    | .ub => none
    | .ok out rest' => run u n (result ++ out) rest'

/-- string.hpp:39-50 `unescape` -/
def unescape (u : UInt8 → List UInt8 → Step) (s : List UInt8) : Option (List UInt8) := run u s.length [] s

/-- string.cpp:32-34 `byte_unescape` -/
def byteUnescape (s : List UInt8) : Option (List UInt8) := unescape byteUnescaper s

/-- string.cpp:74-76 `percent_unescape` -/
def percentUnescape (s : List UInt8) : Option (List UInt8) := unescape percentUnescaper s

/-- string.cpp:82-84 `double_unescape` -/
def doubleUnescape (s esc : List UInt8) : Option (List UInt8) := unescape (doubleUnescaper esc) s

/-- string.cpp:51-68 `json_unescape` -/
def jsonUnescape (s : List UInt8) : Option (List UInt8) :=
  if s.length < 2 then some []
  else if s.head? = some quote ∧ s.getLast? = some quote then unescape jsonUnescaper (s.drop 1).dropLast
  else some []

end Verif.Escape
