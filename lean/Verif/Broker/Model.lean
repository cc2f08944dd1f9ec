import Verif.Reader.Model
import Verif.Calendar.Double
import Verif.Data.Model
import Verif.DataText.Model
/-!
# The Broker plugin: logs from a running Zeek

Models `plugins/broker/src/zeek.cpp`, `plugins/broker/src/reader.cpp` and `libvast/src/detail/zeekify.cpp`.  Zeek announces a
log with the names and types of its columns, and then sends the rows in a binary format.  Not modelled: the Broker library, i.e.
the connection and the outer structure of its messages; log messages of VAST; the conversion of three points in time for one of
them (zeek.cpp:406-414).
-/
namespace Verif.Broker
open Verif.Data Verif.DataText Verif.Calendar

abbrev Bytes := List UInt8

/-- The type tags of Zeek (zeek.cpp:28-56), in their order. -/
inductive Tag where
  | void | bool | int | count | counter | double | time | interval | string | pattern | enum | timer | port | addr | subnet | any
  | table | union | record | list | func | file | vector | opaque | type | error
  deriving DecidableEq, Repr

def Tag.all : List Tag :=
  [.void, .bool, .int, .count, .counter, .double, .time, .interval, .string, .pattern, .enum, .timer, .port, .addr, .subnet, .any,
   .table, .union, .record, .list, .func, .file, .vector, .opaque, .type, .error]

/-- `static_cast<zeek::tag>(i)`; numbers without a name fall into the default case wherever they are used. -/
def Tag.of (i : Int) : Option Tag := if 0 ≤ i then Tag.all[i.toNat]? else none

/-- The result of a function that takes something off the input.  `thrown`: an exception, which nobody catches; `undefined`:
undefined behaviour. -/
inductive Out (α : Type) where
  | ok (x : α) (rest : Bytes)
  | error
  | thrown
  | undefined

/-- `if (auto err = ...) return err;` -/
def Out.bind {α β : Type} : Out α → (α → Bytes → Out β) → Out β
  | .ok x rest, f => f x rest
  | .error, _ => .error
  | .thrown, _ => .thrown
  | .undefined, _ => .undefined

/-- An unsigned number in network byte order (`memcpy` and `to_host_order`, zeek.cpp:106-107). -/
def number (bs : Bytes) : Nat := bs.foldl (fun n b => n * 256 + b.toNat) 0

/-- `extract` for unsigned numbers of `k` bytes (zeek.cpp:102-108). -/
def uintE (k : Nat) (bs : Bytes) : Out Nat := if bs.length < k then .error else .ok (number (bs.take k)) (bs.drop k)

/-- Two's complement of `k` bytes (`narrow_cast`, zeek.cpp:107; `static_cast`, zeek.cpp:79). -/
def signed (k n : Nat) : Int := if n < 2 ^ (8 * k - 1) then n else n - 2 ^ (8 * k)

/-- `extract` for `char` (zeek.cpp:64-68). -/
def charE : Bytes → Out UInt8
  | [] => .error
  | b :: bs => .ok b bs

/-- `extract` for `bool` (zeek.cpp:69-73). -/
def boolE (bs : Bytes) : Out Bool := (charE bs).bind fun c bs => .ok (c == 1) bs

/-- `extract` for `int` (zeek.cpp:74-79). -/
def intE (bs : Bytes) : Out Int := (uintE 4 bs).bind fun n bs => .ok (signed 4 n) bs

/-- `extract` for `int64_t` (zeek.cpp:102-108). -/
def longE (bs : Bytes) : Out Int := (uintE 8 bs).bind fun n bs => .ok (signed 8 n) bs

/-- The number that 64 bits stand for in IEEE 754; the two zeros are one. -/
def ieee (n : Nat) : Real :=
  let sign : Rat := if n < 2 ^ 63 then 1 else -1
  let exponent : Nat := n / 2 ^ 52 % 2 ^ 11
  let fraction : Nat := n % 2 ^ 52
  if exponent = 2047 then
    if fraction ≠ 0 then .nan else if n < 2 ^ 63 then .posInf else .negInf
  else if exponent = 0 then .fin (sign * fraction / 2 ^ 1074)
  else .fin (sign * (2 ^ 52 + fraction) * 2 ^ exponent / 2 ^ 1075)

/-- `extract` for `double` (zeek.cpp:80-101): the bytes in reverse order. -/
def doubleE (bs : Bytes) : Out Real := (uintE 8 bs).bind fun n bs => .ok (ieee n) bs

/-- `extract` for `string_view` (zeek.cpp:109-117). -/
def stringE (bs : Bytes) : Out Bytes :=
  (uintE 4 bs).bind fun n bs => if n > bs.length then .error else .ok (bs.take n) (bs.drop n)

/-- `extract` for addresses (zeek.cpp:118-138). -/
def addrE (bs : Bytes) : Out Address.Address :=
  (charE bs).bind fun family bs =>
    if family = 4 then match bs with
      | a :: b :: c :: d :: bs => .ok (.v4 a.toBitVec b.toBitVec c.toBitVec d.toBitVec) bs
      | _ => .error
    else if family = 6 then
      if h : bs.length < 16 then .error
      else .ok (.v6 ((bs.take 16).map UInt8.toBitVec) (by simp; omega)) (bs.drop 16)
    else .error

/-- `duration_cast<duration>(double_seconds{x})` (zeek.cpp:221-222, 229-230).  The conversion to `int64_t` of what is not finite
or too large is undefined. -/
def nanoseconds : Real → Option Int
  | .fin q => if -(2 ^ 63) ≤ trunc (rnd (q * 10 ^ 9)) ∧ trunc (rnd (q * 10 ^ 9)) < 2 ^ 63 then some (trunc (rnd (q * 10 ^ 9))) else none
  | _ => none

/-- Wraps the result. -/
def timed (f : Int → Data) (x : Real) (bs : Bytes) : Out Data :=
  match nanoseconds x with
  | none => .undefined
  | some t => .ok (f t) bs

/-- The loop over elements (zeek.cpp:250-256) and over fields (zeek.cpp:442-448).  Simplification: the counter of the first one
is an `int`, which overflows after 2^31 elements, in a message of at least 18 GB. -/
def loop (f : Bytes → Out Data) : Nat → Bytes → Out (List Data)
  | 0, bs => .ok [] bs
  | n + 1, bs => (f bs).bind fun x bs => (loop f n bs).bind fun xs bs => .ok (x :: xs) bs

/-- The part of `extract_value` that dispatches on the tag (zeek.cpp:165-263).  `xs.reserve(size)` throws for more than `limit`
elements, and `size` is converted to an unsigned number.  Simplification: there is always enough memory. -/
def payload (limit : Nat) (element : Bytes → Out Data) (tag : Option Tag) (bs : Bytes) : Out Data :=
  match tag with
  | some .bool => (longE bs).bind fun x bs => .ok (.bool (x != 0)) bs
  | some .int => (longE bs).bind fun x bs => .ok (.int x) bs
  | some .count => (uintE 8 bs).bind fun x bs => .ok (.count x) bs
  | some .counter => (uintE 8 bs).bind fun x bs => .ok (.count x) bs
  | some .port => (uintE 8 bs).bind fun x bs => (intE bs).bind fun _ bs => .ok (.count x) bs
  | some .addr => (addrE bs).bind fun x bs => .ok (.address x) bs
  | some .subnet => (uintE 1 bs).bind fun k bs => (addrE bs).bind fun x bs => .ok (.subnet (.make x k)) bs
  | some .double => (doubleE bs).bind fun x bs => .ok (.real x) bs
  | some .time => (doubleE bs).bind fun x bs => timed .time x bs
  | some .interval => (doubleE bs).bind fun x bs => timed .duration x bs
  | some .enum => (stringE bs).bind fun x bs => .ok (.string x) bs
  | some .string => (stringE bs).bind fun x bs => .ok (.string x) bs
  | some .file => (stringE bs).bind fun x bs => .ok (.string x) bs
  | some .func => (stringE bs).bind fun x bs => .ok (.string x) bs
  | some .table => (longE bs).bind fun k bs =>
    if k < 0 ∨ limit < k.toNat then .thrown else (loop element k.toNat bs).bind fun xs bs => .ok (.list xs) bs
  | some .vector => (longE bs).bind fun k bs =>
    if k < 0 ∨ limit < k.toNat then .thrown else (loop element k.toNat bs).bind fun xs bs => .ok (.list xs) bs
  | _ => .error

/-- `extract_value` (zeek.cpp:143-265).  The number bounds the depth of the recursion; every level takes nine bytes. -/
def value (limit : Nat) : Nat → Bytes → Out Data
  | 0, _ => .error
  | n + 1, bs => (intE bs).bind fun type bs => (intE bs).bind fun _ bs => (boolE bs).bind fun present bs =>
    if present then payload limit (value limit n) (Tag.of type) bs else .ok .none bs

/-- `process` for log writes, with a string as its data (zeek.cpp:431-451). -/
def row (limit : Nat) (bs : Bytes) : Out (List Data) :=
  (uintE 4 bs).bind fun n bs => loop (value limit (bs.length + 1)) n bs

/-! ### Types -/

/-- The types that columns get.  `port`: counts with the name `port`; `timestamp`: times with that name; `hashed`: strings with the
attribute `index=hash`; `set`: another type with the name `set`. -/
inductive Ty where
  | bool | int | count | port | address | subnet | real | time | timestamp | duration | string | hashed
  | list (t : Ty)
  | set (t : Ty)
  deriving DecidableEq, Repr

/-- `convert` (zeek.cpp:304-367).  The number bounds the depth: the third level would be a call with `type_error`, which is an
error. -/
def convert : Nat → Option Tag → Option Tag → Option Ty
  | 0, _, _ => none
  | n + 1, type, sub => match type with
    | some .bool => some .bool
    | some .int => some .int
    | some .count => some .count
    | some .counter => some .count
    | some .port => some .port
    | some .addr => some .address
    | some .subnet => some .subnet
    | some .double => some .real
    | some .time => some .time
    | some .interval => some .duration
    | some .enum => some .hashed
    | some .string => some .string
    | some .table => (convert n sub (some .error)).map fun t => .list (if sub = some .table then .set t else t)
    | some .vector => (convert n sub (some .error)).map fun t => .list (if sub = some .table then .set t else t)
    | _ => none

/-- `broker::data`, as far as the messages have it. -/
inductive BData where
  | string (s : Str)
  | count (n : Nat)
  | real
  | vector (xs : List BData)
  | table
  | other

/-- `extract` for fields (zeek.cpp:277-299): a name and two tags. -/
def fieldOf : BData → Option (Str × Option Tag × Option Tag)
  | .vector [.string name, _, .count type, .count sub, _] =>
    some (name, Tag.of (signed 4 (type % 2 ^ 32)), Tag.of (signed 4 (sub % 2 ^ 32)))
  | _ => none

/-- The loop over the fields (zeek.cpp:418-426). -/
def columnsOf : List BData → Option (List (Str × Ty))
  | [] => some []
  | x :: xs => match fieldOf x with
    | none => none
    | some (name, type, sub) => match convert 2 type sub with
      | none => none
      | some t => (columnsOf xs).map ((name, t) :: ·)

/-- A record type: its name and its fields. -/
abbrev Layout := Str × List (Str × Ty)

/-- `process` for log creations (zeek.cpp:371-428). -/
def create (valid : Bool) (writerInfo fields : BData) : Option Layout :=
  if !valid then none else
  match writerInfo, fields with
  | .vector [.string name, .real, .real, .real, .table, _], .vector xs => (columnsOf xs).map fun cs => (str "zeek." ++ name, cs)
  | _, _ => none

/-- The first loop of `zeekify` (zeekify.cpp:24-33): the first field `ts` that is a time. -/
def stamp : List (Str × Ty) → List (Str × Ty)
  | [] => []
  | (name, t) :: cs => if name = str "ts" ∧ t = .time then (name, .timestamp) :: cs else (name, t) :: stamp cs

/-- The second loop of `zeekify` (zeekify.cpp:35-54). -/
def hash (c : Str × Ty) : Str × Ty :=
  if c.2 = .string ∧ c.1 ∈ [str "uid", str "fuid", str "community_id"] then (c.1, .hashed) else c

/-- `zeekify` (zeekify.cpp:20-56). -/
def zeekify (l : Layout) : Layout := (l.1, (stamp l.2).map hash)

/-! ### The reader -/

/-- `table_slice_builder::add` for one value: null or a value of the type; see `Verif.ArrowSlice` and `Verif.MsgpackSlice` for the
builders. -/
def accepts : Ty → Data → Bool
  | .bool, .bool _ => true
  | .int, .int _ => true
  | .count, .count _ => true
  | .port, .count _ => true
  | .address, .address _ => true
  | .subnet, .subnet _ => true
  | .real, .real _ => true
  | .time, .time _ => true
  | .timestamp, .time _ => true
  | .duration, .duration _ => true
  | .string, .string _ => true
  | .hashed, .string _ => true
  | .list t, .list xs => xs.all (accepts t)
  | .set t, x => accepts t x
  | _, .none => true
  | _, _ => false

/-- Messages.  `other`: the types of messages that the reader skips. -/
inductive Msg where
  | create (valid : Bool) (stream : Str) (writerInfo fields : BData)
  | write (stream : Str) (serial : BData)
  | batch (xs : List Msg)
  | other

/-- The reader: the layout of the builder of every stream (`log_layouts_`), the builders (`builders_`) with their rows, and the
slices for the consumer. -/
structure State where
  streams : List (Str × Layout)
  builders : List (Layout × List (List Data))
  out : List (Layout × List (List Data))

/-- The result of a message.  `broken`: an assertion fails, or, without assertions, a builder keeps a part of a row. -/
inductive Step where
  | ok (s : State)
  | error (s : State)
  | thrown
  | undefined
  | broken

/-- `log_layouts_.find(stream)`. -/
def streamOf (ss : List (Str × Layout)) (k : Str) : Option Layout := (ss.find? (·.1 = k)).map (·.2)

/-- `log_layouts_[stream] = ...`. -/
def setStream (ss : List (Str × Layout)) (k : Str) (l : Layout) : List (Str × Layout) := (k, l) :: ss.filter (·.1 ≠ k)

/-- `multi_layout_reader::builder` (libvast/src/format/multi_layout_reader.cpp:62-77). -/
def ensure (bs : List (Layout × List (List Data))) (l : Layout) : List (Layout × List (List Data)) :=
  if bs.any (·.1 = l) then bs else bs ++ [(l, [])]

/-- `finish(f, builder)` (multi_layout_reader.cpp:28-52). -/
def finishOne (s : State) (l : Layout) : State :=
  if Reader.rowsOf s.builders l = [] then s
  else { s with builders := Reader.clearRows s.builders l, out := s.out ++ [(l, Reader.rowsOf s.builders l)] }

/-- `finish(f, result)` (multi_layout_reader.cpp:54-60). -/
def finishAll (s : State) : State := (s.builders.map Prod.fst).foldl finishOne s

/-- A log creation (reader.cpp:168-199). -/
def onCreate (s : State) (valid : Bool) (stream : Str) (writerInfo fields : BData) : Step :=
  match create valid writerInfo fields with
  | none => .error s
  | some l0 =>
    match streamOf s.streams stream with
    | some old =>
      if zeekify l0 = old then .ok s
      else
        let s := finishOne s old
        .ok { s with streams := setStream s.streams stream (zeekify l0), builders := ensure s.builders (zeekify l0) }
    | none => .ok { s with streams := setStream s.streams stream (zeekify l0), builders := ensure s.builders (zeekify l0) }

/-- A log write (reader.cpp:200-228).  If the first value does not fit, then the builder has complete rows only. -/
def onWrite (limit maxSlice : Nat) (s : State) (stream : Str) (serial : BData) : Step :=
  match serial with
  | .string bytes =>
    match row limit bytes with
    | .error => .error s
    | .thrown => .thrown
    | .undefined => .undefined
    | .ok xs _ =>
      match streamOf s.streams stream with
      | none => .ok s
      | some l =>
        if xs.length ≠ l.2.length then .broken
        else if (List.zipWith (fun c x => accepts c.2 x) l.2 xs).all id then
          let s := { s with builders := Reader.addRow s.builders l xs }
          if (Reader.rowsOf s.builders l).length ≥ maxSlice then .ok (finishOne s l) else .ok s
        else if (List.zipWith (fun c x => accepts c.2 x) l.2 xs).head? = some false then .error (finishOne s l)
        else .broken
  | _ => .error s

mutual
/-- `dispatch` (reader.cpp:151-245). -/
def dispatch (limit maxSlice : Nat) : Msg → State → Step
  | .create valid stream writerInfo fields, s => onCreate s valid stream writerInfo fields
  | .write stream serial, s => onWrite limit maxSlice s stream serial
  | .batch xs, s => dispatchAll limit maxSlice xs s
  | .other, s => .ok s
/-- The loops over the messages of a batch (reader.cpp:239-241) and over those that arrived (reader.cpp:108-112). -/
def dispatchAll (limit maxSlice : Nat) : List Msg → State → Step
  | [], s => .ok s
  | x :: xs, s => match dispatch limit maxSlice x s with
    | .ok s => dispatchAll limit maxSlice xs s
    | r => r
end

/-- The result of a call of `read`. -/
inductive Result where
  | ok | stalled | timeout | error
  deriving DecidableEq, Repr

/-- What a call of `read` leaves behind. -/
inductive Read where
  | done (s : State) (r : Result)
  | thrown
  | undefined
  | broken

/-- `read_impl` (reader.cpp:76-137) with the messages that `subscriber_->get` returns, at most `maxEvents`. -/
def read (limit maxEvents maxSlice : Nat) (s : State) (xs : List Msg) : Read :=
  match dispatchAll limit maxSlice xs s with
  | .ok s => .done (finishAll s) (if xs.isEmpty then .stalled else if xs.length < maxEvents then .timeout else .ok)
  | .error s => .done (finishAll s) .error
  | .thrown => .thrown
  | .undefined => .undefined
  | .broken => .broken

/-- Calls of `read` one after the other, until an error. -/
def reads (limit maxEvents maxSlice : Nat) : List (List Msg) → State → Read
  | [], s => .done s .ok
  | xs :: xss, s => match read limit maxEvents maxSlice s xs with
    | .done s .error => .done s .error
    | .done s _ => reads limit maxEvents maxSlice xss s
    | r => r

/-- A new reader. -/
def State.init : State := ⟨[], [], []⟩

end Verif.Broker
