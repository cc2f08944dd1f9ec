import Verif.Msgpack.Model
import Verif.Address.Model

/-!
# Model of table slices encoded with MessagePack

Modelled code: libvast/src/msgpack_table_slice_builder.cpp, libvast/src/msgpack_table_slice.cpp and
`type_check` of libvast/src/view.cpp. The MessagePack functions are those of `Verif.Msgpack`, addresses and
subnets those of `Verif.Address`.

Simplifications: the FlatBuffers table around the three vectors of a slice is left out, a layout is the list of
the types of its leaves (C49 and C62 relate it to the record type), and a container view is the list of the data it
gives when it is read from front to back.
-/

namespace Verif.MsgpackSlice
open Verif.Msgpack Verif.Address

/-- vast/type.hpp: the types of columns, without names and attributes. `enum n` has `n` fields. -/
inductive Ty where
  | none
  | bool
  | int
  | count
  | real
  | duration
  | time
  | string
  | pattern
  | address
  | subnet
  | enum (n : Nat)
  | list (t : Ty)
  | map (k v : Ty)
  | record (ts : List Ty)
  | alias (t : Ty)

/-- vast/view.hpp `data_view`, with strings as their bytes, a real as the eight bytes of its representation,
    durations and times as their counts of nanoseconds, and a map as its keys and its values in order. The names
    of record fields are left out. -/
inductive Datum where
  | none
  | bool (b : Bool)
  | int (x : Int)
  | count (n : Nat)
  | real (bytes : List UInt8)
  | duration (ns : Int)
  | time (ns : Int)
  | string (s : List UInt8)
  | pattern (s : List UInt8)
  | address (a : Address)
  | subnet (s : Subnet)
  | enum (n : Nat)
  | list (xs : List Datum)
  | map (ks vs : List Datum)
  | record (xs : List Datum)

/-- Whether `f` holds for the first element, if there is one. -/
def headOk {α : Type} (f : α → Bool) : List α → Bool
  | [] => true
  | x :: _ => f x

mutual
/-- view.cpp:190-237 `type_check` -/
def typeCheck : Ty → Datum → Bool
  | _, .none => true
  | .none, _ => true
  | .bool, .bool _ => true
  | .int, .int _ => true
  | .count, .count _ => true
  | .real, .real _ => true
  | .duration, .duration _ => true
  | .time, .time _ => true
  | .string, .string _ => true
  | .pattern, .pattern _ => true
  | .address, .address _ => true
  | .subnet, .subnet _ => true
  | .enum n, .enum e => decide (e < n)
  | .list t, .list xs => headOk (typeCheck t) xs
  | .map k v, .map ks vs => headOk (typeCheck k) ks && headOk (typeCheck v) vs
  | .record ts, .list xs => typeCheckAll ts xs
  | .alias t, x => typeCheck t x
  | _, _ => false

/-- view.cpp:227-232, the size and the fields of a record -/
def typeCheckAll : List Ty → List Datum → Bool
  | [], [] => true
  | t :: ts, x :: xs => typeCheck t x && typeCheckAll ts xs
  | _, _ => false
end

/-- The bytes of an address as the builder writes them, msgpack_table_slice_builder.cpp:34-43. -/
def addressBytes (a : Address) : List UInt8 :=
  if a.isV4 then (a.bytes.drop 12).map UInt8.ofBitVec else a.bytes.map UInt8.ofBitVec

/-- The objects of keys and values in turn, msgpack_builder.hpp `put_map`. -/
def weave {α : Type} : List α → List α → List α
  | k :: ks, v :: vs => k :: v :: weave ks vs
  | _, _ => []

/-- The objects of a record, which must not be none at all: for no field the size is 0, which means failure
    (msgpack_table_slice_builder.cpp:60-72). -/
def recordObjects (vs : List Val) : Option (List Val) := if vs.isEmpty then none else some vs

mutual
/-- msgpack_table_slice_builder.cpp:26-75 `encode`, as the sequence of MessagePack objects it puts. `none` is a
    failure. -/
def encode : Datum → Option (List Val)
  | .none => some [.nil]
  | .bool b => some [.bool b]
  | .int x => some [.integer x]
  | .count n => some [.uint 8 n]
  | .real b => some [.double b]
  | .duration x => some [.sint 8 x]
  | .time x => some [.sint 8 x]
  | .string s => some [.str s]
  | .pattern s => some [.str s]
  | .address a => some [.fixstr (addressBytes a)]
  | .subnet s => some [.arr 2 [.fixstr (addressBytes s.network), .u8 s.length]]
  | .enum n => some [.uint 1 n]
  | .list xs => (encodeEach xs).map fun vss => [.arr xs.length vss.flatten]
  | .map ks vs => (encodeEach ks).bind fun kss => (encodeEach vs).map fun vss =>
      [.map ks.length (weave kss vss).flatten]
  | .record xs => (encodeEach xs).bind fun vss => recordObjects vss.flatten

/-- `encode` for each element of a container -/
def encodeEach : List Datum → Option (List (List Val))
  | [] => some []
  | x :: xs => (encode x).bind fun v => (encodeEach xs).map fun vs => v :: vs
end

/-- vast/msgpack_table_slice_builder.hpp:93-110: the position in the row, the start of each row and the encoded
    data -/
structure Builder where
  column : Nat
  offsets : List Nat
  data : List UInt8
deriving DecidableEq

/-- msgpack_table_slice_builder.cpp:168-175, a new builder -/
def Builder.init : Builder := ⟨0, [], []⟩

/-- msgpack_table_slice_builder.cpp:177-187 `add_impl`. `cols` are the types of the flat layout, `chk` tells whether
    assertions are enabled, and with them input validation (vast/msgpack_table_slice_builder.hpp:29-33). The result
    `none` is a failure of `put`: the assertion fails or, without assertions, the encoded data are damaged, because a
    container that fails truncates the buffer (vast/msgpack_builder.hpp `reset`). An access behind the last column
    does not happen. -/
def add (chk : Bool) (cols : List Ty) (b : Builder) (x : Datum) : Option (Builder × Bool) :=
  match cols[b.column]? with
  | none => none
  | some t =>
    if typeCheck t x then
      ((encode x).bind (putAll chk none 0)).map fun e =>
        (⟨(b.column + 1) % cols.length, if b.column = 0 then b.offsets ++ [b.data.length] else b.offsets, b.data ++ e⟩, true)
    else some (b, false)

/-- vast/fbs/table_slice.fbs `msgpack.v0`, without the layout -/
structure Slice where
  offsets : List Nat
  data : List UInt8
deriving DecidableEq

/-- msgpack_table_slice_builder.cpp:110-151 `finish`: the slice, and the builder afterwards. The assertion that the
    last row is complete is compiled out. -/
def finish (b : Builder) : Slice × Builder := (⟨b.offsets, b.data⟩, ⟨b.column, [], []⟩)

/-- msgpack_table_slice.cpp:274-277 `rows` -/
def Slice.rows (s : Slice) : Nat := s.offsets.length

/-- The results of all calls, unless one has none. -/
def gather {α : Type} : List (Option α) → Option (List α)
  | [] => some []
  | x :: xs => x.bind fun y => (gather xs).map fun ys => y :: ys

/-- msgpack_table_slice.cpp:103-117, for 147-150, 157-166: what the visitor of signed integers makes of an object;
    other objects than integers give null -/
def asSigned (f : Int → Datum) : Seen → Option Datum
  | .ub => none
  | .nil => some .none
  | .unsigned 1 n => some (f (toSigned 1 n))
  | .signed _ x => some (f x)
  | _ => some .none

/-- msgpack_table_slice.cpp:119-128, for 151-153: the visitor of unsigned integers -/
def asUnsigned : Seen → Option Datum
  | .ub => none
  | .nil => some .none
  | .unsigned _ n => some (.count n)
  | _ => some .none

/-- msgpack_table_slice.cpp:145-146; another object ends the process (214) -/
def asBool : Seen → Option Datum
  | .nil => some .none
  | .bool b => some (.bool b)
  | _ => none

/-- msgpack_table_slice.cpp:155-156 -/
def asReal : Seen → Option Datum
  | .nil => some .none
  | .double b => some (.real b)
  | _ => none

/-- msgpack_table_slice.cpp:168-172 -/
def asText (f : List UInt8 → Datum) : Seen → Option Datum
  | .nil => some .none
  | .str s => some (f s)
  | _ => none

/-- msgpack_table_slice.cpp:176-177 and 185-186 with address.cpp:42-57: four bytes are an IPv4 address, otherwise 16
    bytes are read, which must exist. -/
def addressOf (s : List UInt8) : Option Address :=
  match s with
  | [a, b, c, d] => some (.v4 a.toBitVec b.toBitVec c.toBitVec d.toBitVec)
  | _ => if h : s.length = 16 then some (.v6 (s.map UInt8.toBitVec) (by simp [h])) else none

/-- msgpack_table_slice.cpp:174-179 -/
def asAddress : Seen → Option Datum
  | .nil => some .none
  | .str s => (addressOf s).map .address
  | _ => none

/-- msgpack_table_slice.cpp:184-186, the address in a subnet -/
def subnetAddress : Seen → Option Address
  | .str s => addressOf s
  | _ => none

/-- msgpack_table_slice.cpp:188 -/
def subnetLength : Seen → Option Nat
  | .unsigned 1 n => some n
  | _ => none

/-- msgpack_table_slice.cpp:181-190 -/
def asSubnet : Seen → Option Datum
  | .nil => some .none
  | .array _ _ d => (subnetAddress (visit d)).bind fun a => (next d).bind fun d' =>
      (subnetLength (visit d')).map fun l => .subnet (.make a l)
  | _ => none

/-- msgpack_table_slice.cpp:192-193 -/
def asEnum : Seen → Option Datum
  | .nil => some .none
  | .unsigned 1 n => some (.enum n)
  | _ => none

/-- msgpack_table_slice.cpp:32-35 and 223-228: the array view, with `f` to decode an element -/
def asList (f : List UInt8 → Option Datum) : Seen → Option Datum
  | .nil => some .none
  | .array _ n d => (gather ((List.range n).map fun i => (skip i d).bind f)).map .list
  | _ => none

/-- msgpack_table_slice.cpp:53-61 and 230-239: the map view -/
def asMap (f g : List UInt8 → Option Datum) : Seen → Option Datum
  | .nil => some .none
  | .array _ n d =>
    (gather ((List.range (n / 2)).map fun i => (skip (2 * i) d).bind f)).bind fun ks =>
      (gather ((List.range (n / 2)).map fun i => (skip (2 * i + 1) d).bind g)).map fun vs => .map ks vs
  | _ => none

/-- msgpack_table_slice.cpp:133-221 `decode`, together with view.cpp:143-186 `materialize`, which reads the container
    views. `none` is undefined behavior or the end of the process. The assertions for the null type and for records
    are compiled out. -/
def decode : Ty → List UInt8 → Option Datum
  | .none, _ => some .none
  | .bool, d => asBool (visit d)
  | .int, d => asSigned .int (visit d)
  | .count, d => asUnsigned (visit d)
  | .real, d => asReal (visit d)
  | .duration, d => asSigned .duration (visit d)
  | .time, d => asSigned .time (visit d)
  | .string, d => asText .string (visit d)
  | .pattern, d => asText .pattern (visit d)
  | .address, d => asAddress (visit d)
  | .subnet, d => asSubnet (visit d)
  | .enum _, d => asEnum (visit d)
  | .list t, d => asList (decode t) (visit d)
  | .map k v, d => asMap (decode k) (decode v) (visit d)
  | .record _, _ => some .none
  | .alias t, d => decode t d

/-- msgpack_table_slice.cpp:304-320 `at`, with the type of the column from the layout; the overload with a type
    (322-338) and `append_column_to_index` (287-302) read a value in the same way. An access behind the last row or
    column violates the precondition. -/
def Slice.get (cols : List Ty) (s : Slice) (row column : Nat) : Option Datum :=
  s.offsets[row]?.bind fun o => (skip column (s.data.drop o)).bind fun d => cols[column]?.bind fun t => decode t d

end Verif.MsgpackSlice
