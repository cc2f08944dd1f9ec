/-!
# MessagePack

Models /repo/libvast/vast/msgpack_builder.hpp, vast/msgpack.hpp and src/msgpack.cpp: writing objects,
visiting them and skipping them. A buffer is a list of bytes.
-/

namespace Verif.Msgpack

/-! ### Numbers as bytes -/

/-- msgpack_builder.hpp:380-385 `write_count`, 398 `to_network_order`: the `k` bytes of a number, most
    significant first; higher bits are cut off by the narrowing conversion. -/
def be : Nat → Nat → List UInt8
  | 0, _ => []
  | k + 1, n => UInt8.ofNat (n / 256 ^ k) :: be k n

/-- msgpack.hpp:309-318 `to_num` for unsigned types: the number that bytes in network order make up. -/
def ofBe (s : List UInt8) : Nat := s.foldl (fun n b => n * 256 + b.toNat) 0

/-- A `static_cast` to the unsigned type of `k` bytes. -/
def toUnsigned (k : Nat) (x : Int) : Nat := (x % (256 ^ k : Nat)).toNat

/-- msgpack.hpp:314-316 `to_num` for signed types: a `static_cast` to the signed type of `k` bytes. -/
def toSigned (k : Nat) (n : Nat) : Int := if 2 * n < 256 ^ k then n else (n : Int) - (256 ^ k : Nat)

/-! ### Values and how they are written -/

/-- What the functions `put` and `add` accept, as far as it is modelled. -/
inductive Val where
  /-- `put(builder, caf::none)` -/
  | nil
  /-- `put(builder, bool)` -/
  | bool (b : Bool)
  /-- `put(builder, x)` for a signed integer type of `w` bytes -/
  | sint (w : Nat) (x : Int)
  /-- `put(builder, vast::integer)` -/
  | integer (x : Int)
  /-- `put(builder, x)` for an unsigned integer type of `w` bytes -/
  | uint (w : Nat) (x : Nat)
  /-- `builder.add<uint8>(x)` -/
  | u8 (x : Nat)
  /-- `put(builder, float)`: the four bytes of the number in memory -/
  | float (bytes : List UInt8)
  /-- `put(builder, double)`: the eight bytes of the number in memory -/
  | double (bytes : List UInt8)
  /-- `put(builder, std::string_view)` -/
  | str (s : List UInt8)
  /-- `builder.add<fixstr>(s)` -/
  | fixstr (s : List UInt8)
  /-- `put(builder, std::span<const std::byte>)` -/
  | bin (s : List UInt8)
  /-- `builder.add(vast::time)`: nanoseconds since the epoch -/
  | time (ns : Int)
  /-- `put_array(builder, xs)`: the size of `xs` and the objects that the elements are written as -/
  | arr (n : Nat) (xs : List Val)
  /-- `put_map(builder, xs)`: the size of `xs` and the objects that keys and values are written as,
      alternating -/
  | map (n : Nat) (kvs : List Val)

/-- msgpack_builder.hpp:393-400 `add_int`, with the format byte and the size of its type -/
def addInt (fmt : UInt8) (k : Nat) (x : Int) : List UInt8 := fmt :: be k (toUnsigned k x)

/-- msgpack_builder.hpp:250-251 `add<positive_fixint>`, `add<negative_fixint>`: `x & Format`, cut to a
    byte -/
def addFixint (mask : Nat) (x : Int) : List UInt8 := [UInt8.ofNat (toUnsigned 1 x &&& mask)]

/-- msgpack_builder.hpp:467-503 `put` for signed integers of `w` bytes -/
def putSigned (w : Nat) (x : Int) : List UInt8 :=
  if w = 8 ∧ x < -2147483648 then addInt 0xd3 8 x
  else if 4 ≤ w ∧ x < -32768 then addInt 0xd2 4 x
  else if 2 ≤ w ∧ x < -128 then addInt 0xd1 2 x
  else if x < -32 then addInt 0xd0 1 x
  else if x < 0 then addFixint 0xff x
  else if x < 32 then addFixint 0x7f x
  else if w = 1 then addInt 0xd0 1 x
  else if 2 ≤ w ∧ x ≤ 127 then addInt 0xd0 1 x
  else if w = 2 then addInt 0xd1 2 x
  else if 4 ≤ w ∧ x ≤ 32767 then addInt 0xd1 2 x
  else if w = 4 then addInt 0xd2 4 x
  else if x ≤ 2147483647 then addInt 0xd2 4 x
  else addInt 0xd3 8 x

/-- msgpack_builder.hpp:510-533 `put` for unsigned integers of `w` bytes -/
def putUnsigned (w : Nat) (x : Nat) : List UInt8 :=
  if x < 32 then addFixint 0x7f x
  else if w = 1 then addInt 0xcc 1 x
  else if 2 ≤ w ∧ x ≤ 255 then addInt 0xcc 1 x
  else if w = 2 then addInt 0xcd 2 x
  else if 4 ≤ w ∧ x ≤ 65535 then addInt 0xcd 2 x
  else if w = 4 then addInt 0xce 4 x
  else if x ≤ 4294967295 then addInt 0xce 4 x
  else addInt 0xcf 8 x

/-- msgpack_builder.hpp:409-413 `add_fixstr` -/
def addFixstr (s : List UInt8) : List UInt8 := UInt8.ofNat (0xa0 ||| s.length % 256) :: s

/-- msgpack_builder.hpp:423-428 `add_binary` (and 415-421 `add_str`, which writes the same) -/
def addBinary (fmt : UInt8) (k : Nat) (s : List UInt8) : List UInt8 := fmt :: (be k s.length ++ s)

/-- msgpack_builder.hpp:549-558 `put` for strings; `none` is the result 0. -/
def putStr (s : List UInt8) : Option (List UInt8) :=
  if s.length ≤ 31 then some (addFixstr s)
  else if s.length ≤ 65535 then some (addBinary 0xda 2 s)
  else if s.length ≤ 4294967295 then some (addBinary 0xdb 4 s)
  else none

/-- msgpack_builder.hpp:562-572 `put` for binary data; `none` is the result 0. -/
def putBin (s : List UInt8) : Option (List UInt8) :=
  if s.length ≤ 255 then some (addBinary 0xc4 1 s)
  else if s.length ≤ 65535 then some (addBinary 0xc5 2 s)
  else if s.length ≤ 4294967295 then some (addBinary 0xc6 4 s)
  else none

/-- msgpack_builder.hpp:289 the 64 bits of `(ns << 34) | secs`; the shift of a negative number is that
    of its two's complement (C++20). -/
def data64 (secs ns : Int) : Nat := toUnsigned 8 (ns * 2 ^ 34) ||| toUnsigned 8 secs

/-- msgpack_builder.hpp:281-306 `add(seconds, nanoseconds)`; `secs.count() >> 34` is an arithmetic
    shift -/
def addTime (secs ns : Int) : List UInt8 :=
  if secs / 2 ^ 34 = 0 then
    if data64 secs ns < 2 ^ 32 then [0xd6, 0xff] ++ be 4 (data64 secs ns)
    else [0xd7, 0xff] ++ be 8 (data64 secs ns)
  else [0xc7, 12, 0xff] ++ be 4 (toUnsigned 4 ns) ++ be 8 (toUnsigned 8 secs)

/-- msgpack_builder.hpp:311-317 `add(time)`; `duration_cast` truncates toward zero -/
def putTime (t : Int) : List UInt8 := addTime (t.tdiv 1000000000) (t - t.tdiv 1000000000 * 1000000000)

/-- msgpack_builder.hpp:596-606 the format of an array that `put_array` chooses: the number of bytes
    of its size field (0 for `fixarray`) -/
def arrFormat (n : Nat) : Option Nat :=
  if n ≤ 15 then some 0 else if n ≤ 65535 then some 2 else if n ≤ 4294967295 then some 4 else none

/-- msgpack.hpp:274-303 `capacity` of an array or map format -/
def formatCap (k : Nat) : Nat := if k = 0 then 15 else 256 ^ k - 1

/-- msgpack_builder.hpp:157-167 `finish`: the header of an array; `size` is the number of elements
    added. -/
def arrHeader (k size : Nat) : List UInt8 :=
  if k = 0 then [UInt8.ofNat ((0x9f &&& 0xf0) ||| size % 256)]
  else if k = 2 then 0xdc :: be 2 size
  else 0xdd :: be 4 size

/-- msgpack_builder.hpp:157-167 `finish`: the header of a map -/
def mapHeader (k size : Nat) : List UInt8 :=
  if k = 0 then [UInt8.ofNat ((0x8f &&& 0xf0) ||| size % 256)]
  else if k = 2 then 0xde :: be 2 size
  else 0xdf :: be 4 size

/-- msgpack_builder.hpp:97-99: whether a proxy accepts one more object. `cap` is the capacity of the
    proxy's format if input validation is on; there is none for the builder itself. -/
def accepts (cap : Option Nat) (size : Nat) : Bool :=
  match cap with
  | none => true
  | some c => decide (size < c)

mutual
/-- `put` or `add` on a builder or, if `cap` is given, on a proxy of that capacity that holds `size`
    elements. The result is what is appended to the buffer; `none` is the result 0 (what is in the
    buffer then is not modelled). `chk` says whether input validation is on. The header of a container,
    which the code reserves first and fills in last (118-123, 145-169), is written here where it
    ends up. -/
def put (chk : Bool) (cap : Option Nat) (size : Nat) : Val → Option (List UInt8)
  | .nil => if accepts cap size then some [0xc0] else none
  | .bool b => if accepts cap size then some [if b then 0xc3 else 0xc2] else none
  | .sint w x => if accepts cap size then some (putSigned w x) else none
  | .integer x => if accepts cap size then some (addInt 0xd3 8 x) else none
  | .uint w x => if accepts cap size then some (putUnsigned w x) else none
  | .u8 x => if accepts cap size then some (addInt 0xcc 1 x) else none
  | .float b => if accepts cap size then some (0xca :: b) else none
  | .double b => if accepts cap size then some (0xcb :: b) else none
  | .str s => if accepts cap size then putStr s else none
  | .fixstr s =>
    if accepts cap size then (if chk ∧ 31 < s.length then none else some (addFixstr s)) else none
  | .bin s => if accepts cap size then putBin s else none
  | .time t => if accepts cap size then some (putTime t) else none
  | .arr n xs =>
    (arrFormat n).bind fun k =>
      (putAll chk (if chk then some (formatCap k) else none) 0 xs).map fun body =>
        arrHeader k xs.length ++ body
  | .map n kvs =>
    (arrFormat n).bind fun k =>
      (putAll chk (if chk then some (formatCap k) else none) 0 kvs).bind fun body =>
        if chk ∧ kvs.length % 2 ≠ 0 then none else some (mapHeader k (kvs.length / 2) ++ body)

/-- The loops of `put_array` (592-596) and `put_map` (625-630). -/
def putAll (chk : Bool) (cap : Option Nat) (size : Nat) : List Val → Option (List UInt8)
  | [] => some []
  | x :: xs =>
    (put chk cap size x).bind fun e => (putAll chk cap (size + 1) xs).map fun es => e ++ es
end

/-! ### Visiting -/

/-- What `visit` passes to its visitor. `ub` is an access outside of the buffer. -/
inductive Seen where
  | ub
  | nil
  | bool (b : Bool)
  | unsigned (w n : Nat)
  | signed (w : Nat) (x : Int)
  | float (bytes : List UInt8)
  | double (bytes : List UInt8)
  | str (s : List UInt8)
  | bin (s : List UInt8)
  | array (isMap : Bool) (size : Nat) (data : List UInt8)
  | time (ns : Int)
  | ext (type : Int) (data : List UInt8)
  | format (fmt : Nat)

/-- The `k` bytes of the object `d` from offset `o` on; `none` if they are outside of the buffer. -/
def rd (d : List UInt8) (o k : Nat) : Option (List UInt8) :=
  if o + k ≤ d.length then some ((d.drop o).take k) else none

/-- `ub` if a read fails. -/
def seen (r : Option Seen) : Seen := r.getD .ub

/-- The number in the `k` bytes from offset 1 on. -/
def num (d : List UInt8) (k : Nat) : Option Nat := (rd d 1 k).map ofBe

/-- msgpack.hpp:478-510: the text of a string or binary object with a size field of `k` bytes -/
def text (d : List UInt8) (k : Nat) : Option (List UInt8) :=
  (num d k).bind fun n => if n = 0 then some [] else rd d (1 + k) n

/-- msgpack.hpp:511-520: array and map views; `subspan` is checked against the size here -/
def view (isMap : Bool) (d : List UInt8) (k f : Nat) : Option Seen :=
  (num d k).bind fun n => if 1 + k ≤ d.length then some (.array isMap (n * f % 2 ^ 32) (d.drop (1 + k))) else none

/-- msgpack.hpp:521-560: extensions with a fixed size of `k` bytes, except time stamps -/
def fixext (d : List UInt8) (k : Nat) : Option Seen :=
  (rd d 1 1).bind fun t => (rd d 2 k).map fun s => .ext (toSigned 1 (ofBe t)) s

/-- msgpack.hpp:580-595: extensions with a size field of `k` bytes -/
def extn (d : List UInt8) (k : Nat) : Option Seen :=
  (num d k).bind fun n => (rd d (1 + k) 1).bind fun t =>
    (if n = 0 then some [] else rd d (2 + k) n).map fun s => .ext (toSigned 1 (ofBe t)) s

/-- msgpack.hpp:531-542 `fixext4`, with `timestamp32` -/
def seeExt4 (d : List UInt8) : Option Seen :=
  (fixext d 4).map fun
    | .ext t s => if t = -1 then .time (toSigned 4 (ofBe s) * 1000000000) else .ext t s
    | s => s

/-- msgpack.hpp:543-555 `fixext8`, with `timestamp64` -/
def seeExt8 (d : List UInt8) : Option Seen :=
  (fixext d 8).map fun
    | .ext t s =>
      if t = -1 then .time ((ofBe s % 2 ^ 34 : Nat) * 1000000000 + (ofBe s / 2 ^ 34 : Nat)) else .ext t s
    | s => s

/-- msgpack.hpp:561-579 `ext8`, with `timestamp96` -/
def seeExtVar8 (d : List UInt8) : Option Seen :=
  (extn d 1).map fun
    | .ext t s =>
      if s ≠ [] ∧ t = -1 then
        if s.length = 12 then
          .time (toSigned 8 (ofBe (s.drop 4)) * 1000000000 + (ofBe (s.take 4) : Nat))
        else .format 0xc7
      else .ext t s
    | s => s

/-- msgpack.hpp:449-598: the formats other than the five ranges -/
def visitFormat (b : Nat) (d : List UInt8) : Option Seen :=
  if b = 0xc0 then some .nil
  else if b = 0xc2 then some (.bool false)
  else if b = 0xc3 then some (.bool true)
  else if b = 0xcc then (num d 1).map (.unsigned 1)
  else if b = 0xd0 then (num d 1).map fun n => .signed 1 (toSigned 1 n)
  else if b = 0xcd then (num d 2).map (.unsigned 2)
  else if b = 0xd1 then (num d 2).map fun n => .signed 2 (toSigned 2 n)
  else if b = 0xce then (num d 4).map (.unsigned 4)
  else if b = 0xd2 then (num d 4).map fun n => .signed 4 (toSigned 4 n)
  else if b = 0xcf then (num d 8).map (.unsigned 8)
  else if b = 0xd3 then (num d 8).map fun n => .signed 8 (toSigned 8 n)
  else if b = 0xca then (rd d 1 4).map .float
  else if b = 0xcb then (rd d 1 8).map .double
  else if b = 0xd9 then (text d 1).map .str
  else if b = 0xda then (text d 2).map .str
  else if b = 0xdb then (text d 4).map .str
  else if b = 0xc4 then (text d 1).map .bin
  else if b = 0xc5 then (text d 2).map .bin
  else if b = 0xc6 then (text d 4).map .bin
  else if b = 0xdc then view false d 2 1
  else if b = 0xdd then view false d 4 1
  else if b = 0xde then view true d 2 2
  else if b = 0xdf then view true d 4 2
  else if b = 0xd4 then fixext d 1
  else if b = 0xd5 then fixext d 2
  else if b = 0xd6 then seeExt4 d
  else if b = 0xd7 then seeExt8 d
  else if b = 0xd8 then fixext d 16
  else if b = 0xc7 then seeExtVar8 d
  else if b = 0xc8 then extn d 2
  else if b = 0xc9 then extn d 4
  else some (.format b)

/-- msgpack.hpp:434-448: dispatch on the format byte -/
def visitAt (b : Nat) (d : List UInt8) : Seen :=
  if b >>> 7 = 0 then .unsigned 1 b
  else if b >>> 5 = 7 then .signed 1 (toSigned 1 b)
  else if b >>> 5 = 0xbf >>> 5 then seen ((rd d 1 (b &&& 0x1f)).map .str)
  else if b >>> 4 = 0x9f >>> 4 then .array false (b &&& 0x0f) (d.drop 1)
  else if b >>> 4 = 0x8f >>> 4 then .array true ((b &&& 0x0f) * 2) (d.drop 1)
  else seen (visitFormat b d)

/-- msgpack.hpp:427-599 `visit`, on the bytes from the object on; an empty span is `nil` (324) -/
def visit : List UInt8 → Seen
  | [] => .nil
  | b :: rest => visitAt b.toNat (b :: rest)

/-! ### Skipping -/

/-- msgpack.cpp:32-35 `advance`: the bytes behind. Moving the position behind the end of the buffer
    counts as an access outside of it, `none`. -/
def advance (d : List UInt8) (n : Nat) : Option (List UInt8) := if n ≤ d.length then some (d.drop n) else none

/-- A loop of `n` calls of `next`. -/
def times (next : List UInt8 → Option (List UInt8)) : Nat → List UInt8 → Option (List UInt8)
  | 0, d => some d
  | n + 1, d => (next d).bind (times next n)

/-- msgpack.cpp:81-108: skip a header with a size field of `k` bytes and `f` objects for each unit of
    the size; the product is one of 32-bit numbers -/
def nextView (next : List UInt8 → Option (List UInt8)) (d : List UInt8) (k f : Nat) : Option (List UInt8) :=
  (num d k).bind fun n => (advance d (1 + k)).bind (times next (n * f % 2 ^ 32))

/-- msgpack.cpp:51-126: the formats other than the five ranges -/
def nextFormat (next : List UInt8 → Option (List UInt8)) (b : Nat) (d : List UInt8) : Option (List UInt8) :=
  if b = 0xc0 ∨ b = 0xc2 ∨ b = 0xc3 then advance d 1
  else if b = 0xcc ∨ b = 0xd0 then advance d 2
  else if b = 0xcd ∨ b = 0xd1 then advance d 3
  else if b = 0xce ∨ b = 0xd2 ∨ b = 0xca then advance d 5
  else if b = 0xcf ∨ b = 0xd3 ∨ b = 0xcb then advance d 9
  else if b = 0xd9 ∨ b = 0xc4 then (num d 1).bind fun n => advance d (1 + n)
  else if b = 0xda ∨ b = 0xc5 then (num d 2).bind fun n => advance d (1 + 2 + n)
  else if b = 0xdb ∨ b = 0xc6 then (num d 4).bind fun n => advance d (1 + 4 + n)
  else if b = 0xdc then nextView next d 2 1
  else if b = 0xdd then nextView next d 4 1
  else if b = 0xde then nextView next d 2 2
  else if b = 0xdf then nextView next d 4 2
  else if b = 0xd4 then advance d (1 + 1 + 1)
  else if b = 0xd5 then advance d (1 + 1 + 2)
  else if b = 0xd6 then advance d (1 + 1 + 4)
  else if b = 0xd7 then advance d (1 + 1 + 8)
  else if b = 0xd8 then advance d (1 + 1 + 16)
  else if b = 0xc7 then (num d 1).bind fun n => advance d (1 + 1 + 1 + n)
  else if b = 0xc8 then (num d 2).bind fun n => advance d (1 + 2 + 1 + n)
  else if b = 0xc9 then (num d 4).bind fun n => advance d (1 + 4 + 1 + n)
  else some d

/-- msgpack.cpp:36-50: dispatch on the format byte -/
def nextAt (next : List UInt8 → Option (List UInt8)) (b : Nat) (d : List UInt8) : Option (List UInt8) :=
  if b >>> 7 = 0 ∨ b >>> 5 = 7 then advance d 1
  else if b >>> 5 = 0xbf >>> 5 then advance d (1 + (b &&& 0x1f))
  else if b >>> 4 = 0x9f >>> 4 then (advance d 1).bind (times next (b &&& 0x0f))
  else if b >>> 4 = 0x8f >>> 4 then (advance d 1).bind (times next ((b &&& 0x0f) * 2))
  else nextFormat next b d

/-- msgpack.cpp:30-127 `overlay::next`: the bytes from the next object on. The recursion goes to
    containers within containers; every level skips a byte first, so that a fuel of the number of bytes
    is enough. -/
def nextFuel : Nat → List UInt8 → Option (List UInt8)
  | _, [] => none
  | 0, _ :: _ => none
  | n + 1, b :: rest => nextAt (nextFuel n) b.toNat (b :: rest)

/-- msgpack.cpp:30-127 `overlay::next` -/
def next (d : List UInt8) : Option (List UInt8) := nextFuel d.length d

/-- msgpack.cpp:129-137 `overlay::next(n)`, up to its result -/
def skip (n : Nat) (d : List UInt8) : Option (List UInt8) := times next n d

end Verif.Msgpack
