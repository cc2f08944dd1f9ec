import Verif.DataText.Model
/-!
# Identifiers of partitions

Models `libvast/src/uuid.cpp`, the printer (`libvast/vast/concept/printable/vast/uuid.hpp`) and the parser
(`libvast/vast/concept/parseable/vast/uuid.hpp`) of UUIDs, and how the disk monitor finds partitions in the directory of the index
(`libvast/src/system/disk_monitor.cpp`).
-/
namespace Verif.Uuid
open Verif.Data Verif.DataText

/-- `uuid` (uuid.hpp:22-78): `id_`, sixteen bytes. -/
structure Uuid where
  bytes : List UInt8
  len : bytes.length = 16
deriving DecidableEq

/-- `detail::byte_to_char` (detail/coding.hpp:33-37), for a number below 16. -/
def hexChar (b : UInt8) : UInt8 := if b < 10 then ch '0' + b else ch 'a' + b - 10

/-- The loop of `uuid_printer::print` (printable/vast/uuid.hpp:27-38), from byte `i` on. -/
def printFrom (i : Nat) : List UInt8 → Str
  | [] => []
  | b :: bs =>
    hexChar ((b >>> 4) &&& 0x0f) :: hexChar (b &&& 0x0f) ::
      ((if i = 3 ∨ i = 5 ∨ i = 7 ∨ i = 9 then [ch '-'] else []) ++ printFrom (i + 1) bs)

/-- `uuid_printer::print` -/
def print (u : Uuid) : Str := printFrom 0 u.bytes

/-- The characters of `lookup` (parseable/vast/uuid.hpp:73). -/
def digits : Str := "0123456789abcdefABCDEF".toList.map ch

/-- Their values (parseable/vast/uuid.hpp:74-76). -/
def digitValues : List UInt8 := [0, 1, 2, 3, 4, 5, 6, 7, 8, 9, 10, 11, 12, 13, 14, 15, 10, 11, 12, 13, 14, 15, 0xff]

/-- `uuid_parser::lookup` (parseable/vast/uuid.hpp:72-79): the value of a hexadecimal digit, and 255 for all else. -/
def lookup (c : UInt8) : UInt8 := digitValues.getD (digits.findIdx (· == c)) 0

/-- `if (f == l) return false; c = *f++;` -/
def next : Str → Option (UInt8 × Str)
  | [] => none
  | c :: s => some (c, s)

/-- The dash before the fifth byte, which decides whether there are others (parseable/vast/uuid.hpp:44-49). -/
def firstDash (i : Nat) (dashes : Bool) (c : UInt8) (s : Str) : Option (Bool × UInt8 × Str) :=
  if i = 4 ∧ c = ch '-' then (next s).map fun (c, s) => (true, c, s) else some (dashes, c, s)

/-- The others (parseable/vast/uuid.hpp:50-54). -/
def otherDash (i : Nat) (dashes : Bool) (c : UInt8) (s : Str) : Option (UInt8 × Str) :=
  if dashes = true ∧ (i = 6 ∨ i = 8 ∨ i = 10) then if c ≠ ch '-' then none else next s else some (c, s)

/-- One round of the loop (parseable/vast/uuid.hpp:38-61). -/
def byteP (i : Nat) (dashes : Bool) (s : Str) : Option (UInt8 × Bool × Str) :=
  (next s).bind fun (c, s) => (firstDash i dashes c s).bind fun (dashes, c, s) => (otherDash i dashes c s).bind fun (hi, s) =>
    (next s).map fun (lo, s) => ((lookup hi <<< 4) ||| lookup lo, dashes, s)

/-- The loop: `n` more bytes, from byte `i` on. -/
def bytesP : Nat → Nat → Bool → Str → Option (List UInt8 × Str)
  | 0, _, _, s => some ([], s)
  | n + 1, i, dashes, s => (byteP i dashes s).bind fun (b, dashes, s) => (bytesP n (i + 1) dashes s).map fun (bs, s) => (b :: bs, s)

theorem bytesP_length : ∀ {n i : Nat} {d : Bool} {s r : Str} {bs : List UInt8}, bytesP n i d s = some (bs, r) → bs.length = n := by
  intro n
  induction n with
  | zero => intro i d s r bs h; simp [bytesP] at h; simp [h.1]
  | succ n ih =>
    intro i d s r bs h
    rw [bytesP] at h
    obtain ⟨⟨b, d', s'⟩, _, h⟩ := Option.bind_eq_some_iff.mp h
    obtain ⟨⟨bs', s''⟩, h1, h2⟩ := Option.map_eq_some_iff.mp h
    obtain ⟨e, _⟩ := Prod.mk.inj h2
    rw [← e, List.length_cons, ih h1]

/-- The result as a value with its length. -/
def pack (bs : List UInt8) : Option Uuid := if h : bs.length = 16 then some ⟨bs, h⟩ else none

/-- `uuid_parser::parse` (parseable/vast/uuid.hpp:24-69), for a whole string (core/parser.hpp:61-67). -/
def parse (s : Str) : Option Uuid :=
  match s with
  | [] => none
  | c :: r =>
    if c = ch '{' then
      (bytesP 16 0 false r).bind fun (bs, s) => (next s).bind fun (c, s) => if c = ch '}' then none else if s = [] then pack bs else none
    else (bytesP 16 0 false s).bind fun (bs, s) => if s = [] then pack bs else none

/-- The bytes of a random number, from the lowest on (uuid.cpp:37-43). -/
def numberBytes (r : UInt64) : List UInt8 := (List.range 8).map fun i => ((r >>> (UInt64.ofNat i * 8)) &&& 0xff).toUInt8

/-- `random_generator::operator()` (uuid.cpp:34-52), for the two numbers that the distribution gives. -/
def randomBytes (r1 r2 : UInt64) : List UInt8 :=
  let x := numberBytes r1 ++ numberBytes r2
  let x := x.set 8 ((x.getD 8 0 &&& 0xbf) ||| 0x80)
  x.set 6 ((x.getD 6 0 &&& 0x4f) ||| 0x40)

/-- `unpack` (uuid.cpp:118-125); `none` is `format_error`. -/
def unpack (bs : List UInt8) : Option Uuid := pack bs

/-! The directory of the index -/

/-- An entry of a directory: its name, whether it is a regular file, and its size and time if they can be found. -/
structure Entry where
  name : Str
  regular : Bool
  size : Option Nat
  mtime : Option Nat
deriving DecidableEq

/-- `std::filesystem::path::extension`: from the last dot on, unless that is the first character. -/
def extension (name : Str) : Str :=
  if name.contains (ch '.') ∧ name ≠ [ch '.', ch '.'] ∧ (name.reverse.takeWhile (· != ch '.')).length + 1 < name.length then
    ch '.' :: (name.reverse.takeWhile (· != ch '.')).reverse
  else []

/-- One round of the loop over the directory (disk_monitor.cpp:159-180). -/
def candidate (e : Entry) : Option (Uuid × Nat × Nat) :=
  if e.name = str "index.bin" then none
  else if extension e.name = str ".mdx" then none
  else match parse e.name with
    | none => none
    | some id => if e.regular then
        match e.size, e.mtime with
        | some size, some mtime => some (id, size, mtime)
        | _, _ => none
      else none

/-- The partitions that may be erased, before they are sorted (disk_monitor.cpp:158-180). -/
def candidates (dir : List Entry) : List (Uuid × Nat × Nat) := dir.filterMap candidate

end Verif.Uuid
