import Verif.Index.Coder
import Verif.Index.Value

/-!
# The string index

Models /repo/libvast/src/index/string_index.cpp. Strings are lists of bytes.
-/

namespace Verif.Index

open Verif.Data (RelOp)

/-- string_index.hpp:55-57, the members. -/
structure StringIndex where
  maxLength : Nat
  length : MultiLevelCoder
  chars : List VectorCoder
  deriving Repr

namespace StringIndex

/-- The integral part of `std::log10`, for positive numbers. -/
def log10 (n : Nat) : Nat := if n < 10 then 0 else log10 (n / 10) + 1

/-- string_index.cpp:27: the number of digits of the length index. The sum of the logarithm and a
boolean is truncated to an integer; for `n = 0`, where it is minus infinity, this is not
modelled. The logarithm is taken to be exact. -/
def lengthDigits (maxLength : Nat) : Nat := log10 maxLength + (if maxLength % 10 = 0 then 0 else 1)

/-- string_index.cpp:23-29, the constructor. -/
def make (maxLength : Nat) : Option StringIndex :=
  (MultiLevelCoder.make .range (uniform 10 (lengthDigits maxLength))).map fun c => ⟨maxLength, c, []⟩

/-- string_index.cpp:51-52: skip to `pos` and append a character to one character index. -/
def appendChar (pos : Nat) (c : VectorCoder) (x : UInt8) : VectorCoder :=
  BitsliceCoder.encode (c.skip (pos - c.size)) x.toNat 1

/-- string_index.cpp:50-53, the loop over the characters; the character indexes past the end of the
string stay as they are. The first case does not occur after the resize. -/
def appendChars (pos : Nat) : List VectorCoder → List UInt8 → List VectorCoder
  | [], _ => []
  | cs, [] => cs
  | c :: cs, x :: xs => appendChar pos c x :: appendChars pos cs xs

/-- string_index.cpp:48-49 `resize`. -/
def resize (cs : List VectorCoder) (n : Nat) : List VectorCoder :=
  cs ++ List.replicate (n - cs.length) (VectorCoder.make 8)

/-- string_index.cpp:41-57 `append_impl`. -/
def append (s : StringIndex) (x : List UInt8) (pos : Nat) : Res StringIndex :=
  match (s.length.skip (pos - s.length.size)).encode (x.take s.maxLength).length 1 with
  | some l => .ok { s with
      length := l
      chars := appendChars pos (resize s.chars (x.take s.maxLength).length) (x.take s.maxLength) }
  | none => .undefined

/-- string_index.cpp:86-92, the loop over the characters of the operand; `none` is the early return
if no row is left. -/
def equalLoop : List VectorCoder → List UInt8 → Bm → Option Bm
  | _, [], result => some result
  | [], _ :: _, result => some result
  | c :: cs, x :: xs, result =>
    if (result.and (BitsliceCoder.equal c x.toNat)).all (!·) then none
    else equalLoop cs xs (result.and (BitsliceCoder.equal c x.toNat))

/-- string_index.cpp:72-95, `==` and `!=` for the truncated operand. -/
def lookupEqual (offset : Nat) (s : StringIndex) (ne : Bool) (x : List UInt8) : Res Bm :=
  if x.length = 0 then
    match s.length.decode .equal 0 with
    | some r => .ok (if ne then r.not else r)
    | none => .undefined
  else if s.chars.length < x.length then .ok (Bm.fill offset ne)
  else match s.length.decode .lessEqual x.length with
    | none => .undefined
    | some r =>
      if r.all (!·) then .ok (Bm.fill offset ne)
      else match equalLoop s.chars x r with
        | none => .ok (Bm.fill offset ne)
        | some r => .ok (if ne then r.not else r)

/-- string_index.cpp:106-116, the loop over the characters at one position; `none` is `skip`. -/
def substrLoop : List VectorCoder → List UInt8 → Bm → Option Bm
  | _, [], substr => some substr
  | [], _ :: _, substr => some substr
  | c :: cs, x :: xs, substr =>
    if (BitsliceCoder.equal c x.toNat).all (!·) then none
    else substrLoop cs xs (substr.and (BitsliceCoder.equal c x.toNat))

/-- string_index.cpp:106-118, one position. -/
def niStep (offset : Nat) (x : List UInt8) (cs : List VectorCoder) (result : Bm) : Bm :=
  match substrLoop cs x (Bm.fill offset true) with
  | none => result
  | some substr => result.or substr

/-- string_index.cpp:105-119, the loop over the positions: `n` positions are left. -/
def niLoop (offset : Nat) (x : List UInt8) : (n : Nat) → List VectorCoder → Bm → Bm
  | 0, _, result => result
  | n + 1, cs, result => niLoop offset x n cs.tail (niStep offset x cs result)

/-- string_index.cpp:97-123, `ni` and `not_ni` for the truncated operand. -/
def lookupNi (offset : Nat) (s : StringIndex) (neg : Bool) (x : List UInt8) : Bm :=
  if x.length = 0 then Bm.fill offset (!neg)
  else if s.chars.length < x.length then Bm.fill offset neg
  else if neg then (niLoop offset x (s.chars.length - x.length + 1) s.chars (Bm.fill offset false)).not
  else niLoop offset x (s.chars.length - x.length + 1) s.chars (Bm.fill offset false)

/-- string_index.cpp:59-129 `lookup_impl`. -/
def lookup (offset : Nat) (s : StringIndex) (op : RelOp) (x : List UInt8) : Res Bm :=
  match op with
  | .equal => lookupEqual offset s false (x.take s.maxLength)
  | .notEqual => lookupEqual offset s true (x.take s.maxLength)
  | .ni => .ok (lookupNi offset s false (x.take s.maxLength))
  | .notNi => .ok (lookupNi offset s true (x.take s.maxLength))
  | _ => .error

/-- string_index as a concrete index. -/
def impl : Impl StringIndex (List UInt8) (List UInt8) := ⟨append, fun offset _ => lookup offset⟩

/-- A string index after a history of appends. -/
def index (maxLength : Nat) (h : List (Nat × Option (List UInt8))) : Option (ValueIndex StringIndex) :=
  (make maxLength).bind fun s => (ValueIndex.make s).run impl h

end StringIndex

namespace Spec

/-- `v` contains `q` as a substring. -/
def substring (q v : List UInt8) : Bool := (List.range (v.length + 1)).any fun k => q.isPrefixOf (v.drop k)

end Spec

end Verif.Index
