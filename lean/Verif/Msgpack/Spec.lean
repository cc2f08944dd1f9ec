import Verif.Msgpack.Model

/-! # Specification of reading MessagePack objects -/

namespace Verif.Msgpack.Spec

/-- What a MessagePack object means. -/
inductive Tree where
  | nil
  | bool (b : Bool)
  | int (x : Int)
  | float (bytes : List UInt8)
  | double (bytes : List UInt8)
  | str (s : List UInt8)
  | bin (s : List UInt8)
  | time (ns : Int)
  | arr (isMap : Bool) (xs : List Tree)

mutual
/-- What the value given to `put` means. -/
def tree : Val → Tree
  | .nil => .nil
  | .bool b => .bool b
  | .sint _ x => .int x
  | .integer x => .int x
  | .uint _ n => .int n
  | .u8 n => .int n
  | .float b => .float b
  | .double b => .double b
  | .str s => .str s
  | .fixstr s => .str s
  | .bin s => .bin s
  | .time t => .time t
  | .arr _ xs => .arr false (trees xs)
  | .map _ kvs => .arr true (trees kvs)

@[inherit_doc tree] def trees : List Val → List Tree
  | [] => []
  | x :: xs => tree x :: trees xs
end

mutual
/-- A value of its C++ type, with sizes that MessagePack can express: numbers are in the range of
    their type, strings, arrays and maps are shorter than 2^32, 2^32 and 2^31. -/
def Fits : Val → Prop
  | .nil => True
  | .bool _ => True
  | .sint w x => (w = 1 ∨ w = 2 ∨ w = 4 ∨ w = 8) ∧ -(256 ^ w : Nat) ≤ 2 * x ∧ 2 * x < (256 ^ w : Nat)
  | .integer x => -(256 ^ 8 : Nat) ≤ 2 * x ∧ 2 * x < (256 ^ 8 : Nat)
  | .uint w n => (w = 1 ∨ w = 2 ∨ w = 4 ∨ w = 8) ∧ n < 256 ^ w
  | .u8 n => n < 256
  | .float b => b.length = 4
  | .double b => b.length = 8
  | .str s => s.length < 2 ^ 32
  | .fixstr s => s.length ≤ 31
  | .bin s => s.length < 2 ^ 32
  | .time t => -(256 ^ 8 : Nat) ≤ 2 * t ∧ 2 * t < (256 ^ 8 : Nat)
  | .arr n xs => n = xs.length ∧ n < 2 ^ 32 ∧ AllFit xs
  | .map n kvs => 2 * n = kvs.length ∧ n < 2 ^ 31 ∧ AllFit kvs

@[inherit_doc Fits] def AllFit : List Val → Prop
  | [] => True
  | x :: xs => Fits x ∧ AllFit xs
end

mutual
/-- No binary data of less than 256 bytes occurs anywhere in the value. -/
def NoShortBin : Val → Prop
  | .bin s => 256 ≤ s.length
  | .arr _ xs => AllNoShortBin xs
  | .map _ kvs => AllNoShortBin kvs
  | _ => True

@[inherit_doc NoShortBin] def AllNoShortBin : List Val → Prop
  | [] => True
  | x :: xs => NoShortBin x ∧ AllNoShortBin xs
end

mutual
/-- Every map in the value has at most 7 entries, or between 16 and 32767, or between 65536 and
    2^31 - 1. -/
def MapsSmall : Val → Prop
  | .arr _ xs => AllMapsSmall xs
  | .map n kvs => (n ≤ 7 ∨ (16 ≤ n ∧ n ≤ 32767) ∨ 65536 ≤ n) ∧ AllMapsSmall kvs
  | _ => True

@[inherit_doc MapsSmall] def AllMapsSmall : List Val → Prop
  | [] => True
  | x :: xs => MapsSmall x ∧ AllMapsSmall xs
end

mutual
/-- Every time stamp in the value is not negative and not a whole second from 2^31 to 2^32 seconds
    after the epoch, or is negative and a whole second. -/
def TimesPlain : Val → Prop
  | .time t => (0 ≤ t ∧ ¬ (t % 1000000000 = 0 ∧ 2 ^ 31 ≤ t / 1000000000 ∧ t / 1000000000 < 2 ^ 32))
      ∨ (t < 0 ∧ t % 1000000000 = 0)
  | .arr _ xs => AllTimesPlain xs
  | .map _ kvs => AllTimesPlain kvs
  | _ => True

@[inherit_doc TimesPlain] def AllTimesPlain : List Val → Prop
  | [] => True
  | x :: xs => TimesPlain x ∧ AllTimesPlain xs
end

/-- The results of all calls, unless one has none. -/
def collect {α : Type} : List (Option α) → Option (List α)
  | [] => some []
  | x :: xs => x.bind fun y => (collect xs).map fun ys => y :: ys

/-- How a client reads an object at the start of a buffer: it visits it, and reads the `i`-th element of
    an array after skipping `i` objects (as msgpack_table_slice.cpp:223-228 does). The fuel bounds the
    depth. -/
def readTree : Nat → List UInt8 → Option Tree
  | 0, _ => none
  | n + 1, d =>
    match visit d with
    | .nil => some .nil
    | .bool b => some (.bool b)
    | .unsigned _ x => some (.int x)
    | .signed _ x => some (.int x)
    | .float b => some (.float b)
    | .double b => some (.double b)
    | .str s => some (.str s)
    | .bin s => some (.bin s)
    | .time t => some (.time t)
    | .array isMap size data =>
      (collect ((List.range size).map fun i => (skip i data).bind (readTree n))).map (.arr isMap)
    | _ => none

end Verif.Msgpack.Spec
