import Verif.MsgpackSlice.Model

/-!
# Model of table slices encoded with Arrow

Modelled code: libvast/src/arrow_table_slice_builder.cpp and libvast/src/arrow_table_slice.cpp. Types and data are those
of `Verif.MsgpackSlice`.

Of the Arrow library, the operations of its builders and arrays that are called here are modelled; its limits (a column
has at most 2^31 - 2 bytes of strings and elements of lists) and the serialization of arrays are not. A layout is the
list of the types of its leaves, and a container view is the list of the data it gives when it is read from front to
back. The names of the fields of records are left out; they are assumed to be distinct (arrow_table_slice.cpp:103).
-/

namespace Verif.ArrowSlice
open Verif.MsgpackSlice Verif.Address

/-- The Arrow types with one value per row (arrow_table_slice_builder.cpp:56-183). -/
inductive Kind where
  | null | bool | uint64 | int64 | double | string | timestamp
deriving DecidableEq

/-- A value in such an array. -/
inductive Raw where
  | bool (b : Bool)
  | nat (n : Nat)
  | int (x : Int)
  | bytes (s : List UInt8)
deriving DecidableEq

/-- An Arrow array, or what is in a builder for one: the values, where `none` is null; for binary data of fixed size the
    validity and all bytes; for lists the validity, the offsets into the child and the child; for structs the validity
    and the children. -/
inductive Arr where
  | prim (k : Kind) (cells : List (Option Raw))
  | fixed (width : Nat) (valid : List Bool) (bytes : List UInt8)
  | list (valid : List Bool) (offsets : List Nat) (child : Arr)
  | struct (valid : List Bool) (children : List Arr)

/-- arrow: `length` -/
def Arr.length : Arr → Nat
  | .prim _ cells => cells.length
  | .fixed _ valid _ => valid.length
  | .list valid _ _ => valid.length
  | .struct valid _ => valid.length

mutual
/-- arrow: `AppendNull`; a null in an array of structs comes with one in each child. -/
def Arr.appendNull : Arr → Arr
  | .prim k cells => .prim k (cells ++ [none])
  | .fixed w valid bytes => .fixed w (valid ++ [false]) (bytes ++ List.replicate w 0)
  | .list valid offsets child => .list (valid ++ [false]) (offsets ++ [child.length]) child
  | .struct valid children => .struct (valid ++ [false]) (Arr.appendNulls children)

@[inherit_doc Arr.appendNull] def Arr.appendNulls : List Arr → List Arr
  | [] => []
  | a :: as => a.appendNull :: Arr.appendNulls as
end

mutual
/-- arrow: `Finish`, which adds the last offset of lists. -/
def Arr.finish : Arr → Arr
  | .prim k cells => .prim k cells
  | .fixed w valid bytes => .fixed w valid bytes
  | .list valid offsets child => .list valid (offsets ++ [child.length]) child.finish
  | .struct valid children => .struct valid (Arr.finishAll children)

@[inherit_doc Arr.finish] def Arr.finishAll : List Arr → List Arr
  | [] => []
  | a :: as => a.finish :: Arr.finishAll as
end

/-! ### Builders -/

mutual
/-- arrow_table_slice_builder.cpp:462-495 `column_builder::make`, and 673-706 `make_arrow_type` for the types: an empty
    builder for a column -/
def make : Ty → Arr
  | .none => .prim .null []
  | .bool => .prim .bool []
  | .int => .prim .int64 []
  | .count => .prim .uint64 []
  | .real => .prim .double []
  | .duration => .prim .int64 []
  | .time => .prim .timestamp []
  | .string => .prim .string []
  | .pattern => .prim .string []
  | .address => .fixed 16 [] []
  | .subnet => .fixed 17 [] []
  | .enum _ => .prim .uint64 []
  | .list t => .list [] [] (make t)
  | .map k v => .list [] [] (.struct [] [make k, make v])
  | .record ts => .struct [] (makeAll ts)
  | .alias t => make t

/-- arrow_table_slice_builder.cpp:483-486: builders for the fields of a record -/
def makeAll : List Ty → List Arr
  | [] => []
  | t :: ts => make t :: makeAll ts
end

/-- `Append` of a value to a builder with one value per row -/
def appendRaw (a : Arr) (r : Raw) : Option (Arr × Bool) :=
  match a with
  | .prim k cells => some (.prim k (cells ++ [some r]), true)
  | _ => none

/-- `Append` of bytes to a builder for data of fixed size -/
def appendFixed (a : Arr) (s : List UInt8) : Option (Arr × Bool) :=
  match a with
  | .fixed w valid bytes => some (.fixed w (valid ++ [true]) (bytes ++ s), true)
  | _ => none

/-- The 16 bytes of an address (arrow_table_slice_builder.cpp:205-207). -/
def addressBytes (a : Address) : List UInt8 := a.bytes.map UInt8.ofBitVec

/-- The loop over the elements of a container (arrow_table_slice_builder.cpp:305-308), which ends with the first element
    that is not taken. -/
def addEach (f : Arr → Datum → Option (Arr × Bool)) : Arr → List Datum → Option (Arr × Bool)
  | c, [] => some (c, true)
  | c, x :: xs =>
    match f c x with
    | none => none
    | some (c', true) => addEach f c' xs
    | some (c', false) => some (c', false)

/-- The loop over the entries of a map (arrow_table_slice_builder.cpp:370-373), for the validity of the structs and the
    builders for keys and values -/
def addPairs (f g : Arr → Datum → Option (Arr × Bool)) :
    List Bool → Arr → Arr → List Datum → List Datum → Option ((List Bool × Arr × Arr) × Bool)
  | w, a, b, k :: ks, v :: vs =>
    match f a k with
    | none => none
    | some (a', false) => some ((w ++ [true], a', b), false)
    | some (a', true) =>
      match g b v with
      | none => none
      | some (b', false) => some ((w ++ [true], a', b'), false)
      | some (b', true) => addPairs f g (w ++ [true]) a' b' ks vs
  | w, a, b, _, _ => some ((w, a, b), true)

mutual
/-- `column_builder::add` (arrow_table_slice_builder.cpp:256-263, 299-314, 364-377, 418-434) of the builder that
    `column_builder::make` made for the type: the builder afterwards and the result. `none`: an access to a field of
    a record that does not exist. -/
def add : Ty → Arr → Datum → Option (Arr × Bool)
  | .alias t, a, x => add t a x
  | .none, a, x => match x with
    | .none => some (a.appendNull, true)
    | _ => some (a, false)
  | .bool, a, x => match x with
    | .none => some (a.appendNull, true)
    | .bool b => appendRaw a (.bool b)
    | _ => some (a, false)
  | .int, a, x => match x with
    | .none => some (a.appendNull, true)
    | .int n => appendRaw a (.int n)
    | _ => some (a, false)
  | .count, a, x => match x with
    | .none => some (a.appendNull, true)
    | .count n => appendRaw a (.nat n)
    | _ => some (a, false)
  | .real, a, x => match x with
    | .none => some (a.appendNull, true)
    | .real b => appendRaw a (.bytes b)
    | _ => some (a, false)
  | .duration, a, x => match x with
    | .none => some (a.appendNull, true)
    | .duration n => appendRaw a (.int n)
    | _ => some (a, false)
  | .time, a, x => match x with
    | .none => some (a.appendNull, true)
    | .time n => appendRaw a (.int n)
    | _ => some (a, false)
  | .string, a, x => match x with
    | .none => some (a.appendNull, true)
    | .string s => appendRaw a (.bytes s)
    | _ => some (a, false)
  | .pattern, a, x => match x with
    | .none => some (a.appendNull, true)
    | .pattern s => appendRaw a (.bytes s)
    | _ => some (a, false)
  | .address, a, x => match x with
    | .none => some (a.appendNull, true)
    | .address b => appendFixed a (addressBytes b)
    | _ => some (a, false)
  | .subnet, a, x => match x with
    | .none => some (a.appendNull, true)
    | .subnet s => appendFixed a (addressBytes s.network ++ [UInt8.ofNat s.length])
    | _ => some (a, false)
  | .enum _, a, x => match x with
    | .none => some (a.appendNull, true)
    | .enum n => appendRaw a (.nat n)
    | _ => some (a, false)
  | .list t, a, x => match a, x with
    | a, .none => some (a.appendNull, true)
    | .list valid offsets c, .list xs =>
      (addEach (add t) c xs).map fun r => (.list (valid ++ [true]) (offsets ++ [c.length]) r.1, r.2)
    | .list valid offsets c, _ => some (.list (valid ++ [true]) (offsets ++ [c.length]) c, false)
    | _, _ => none
  | .map k v, a, x => match a, x with
    | a, .none => some (a.appendNull, true)
    | .list valid offsets (.struct w [a, b]), .map ks vs =>
      (addPairs (add k) (add v) w a b ks vs).map fun r =>
        (.list (valid ++ [true]) (offsets ++ [w.length]) (.struct r.1.1 [r.1.2.1, r.1.2.2]), r.2)
    | .list valid offsets c, _ => some (.list (valid ++ [true]) (offsets ++ [c.length]) c, false)
    | _, _ => none
  | .record ts, a, x => match a, x with
    | a, .none => some (a.appendNull, true)
    | .struct valid cs, .record xs => (addFields ts cs xs).map fun r => (.struct (valid ++ [true]) r.1, r.2)
    | a, _ => some (a, false)

/-- arrow_table_slice_builder.cpp:430-432: one field after the other -/
def addFields : List Ty → List Arr → List Datum → Option (List Arr × Bool)
  | _, cs, [] => some (cs, true)
  | t :: ts, c :: cs, x :: xs =>
    match add t c x with
    | none => none
    | some (c', true) => (addFields ts cs xs).map fun r => (c' :: r.1, r.2)
    | some (c', false) => some (c' :: cs, false)
  | _, _, _ => none
end

/-- vast/arrow_table_slice_builder.hpp:111-128: the position in the row, the number of rows and the column builders -/
structure Builder where
  column : Nat
  rows : Nat
  cols : List Arr

/-- arrow_table_slice_builder.cpp:636-648, a new builder -/
def Builder.init (cols : List Ty) : Builder := ⟨0, 0, cols.map make⟩

/-- arrow_table_slice_builder.cpp:650-658 `add_impl` -/
def Builder.add (cols : List Ty) (b : Builder) (x : Datum) : Option (Builder × Bool) :=
  match cols[b.column]?, b.cols[b.column]? with
  | some t, some a =>
    match ArrowSlice.add t a x with
    | none => none
    | some (a', false) => some ({ b with cols := b.cols.set b.column a' }, false)
    | some (a', true) =>
      if b.column + 1 = cols.length then some (⟨0, b.rows + 1, b.cols.set b.column a'⟩, true)
      else some (⟨b.column + 1, b.rows, b.cols.set b.column a'⟩, true)
  | _, _ => none

/-- vast/fbs/table_slice.fbs `arrow.v0`: the record batch -/
structure Slice where
  rows : Nat
  cols : List Arr

/-- arrow_table_slice_builder.cpp:519-575 `finish`: the slice, and the builder afterwards, whose column builders are
    empty again. The assertion that the last row is complete is compiled out. -/
def Builder.finish (cols : List Ty) (b : Builder) : Slice × Builder :=
  (⟨b.rows, b.cols.map Arr.finish⟩, ⟨b.column, 0, cols.map make⟩)

/-! ### Reading -/

/-- Whether a row is null (arrow: `IsNull`). `none`: there is no such row. -/
def Arr.isNull (a : Arr) (row : Nat) : Option Bool :=
  match a with
  | .prim _ cells => cells[row]?.map Option.isNone
  | .fixed _ valid _ => valid[row]?.map (!·)
  | .list valid _ _ => valid[row]?.map (!·)
  | .struct valid _ => valid[row]?.map (!·)

/-- The 16 bytes of an address (arrow_table_slice.cpp:305-313). -/
def addressOf (s : List UInt8) : Option Address :=
  if h : s.length = 16 then some (.v6 (s.map UInt8.toBitVec) (by simp [h])) else none

/-- What the getters make of one value (arrow_table_slice.cpp:269-303, 316-342); slices of this builder have time stamps in
    nanoseconds. If type and array do not match, there is a warning and the value stays null (119-185). -/
def ofRaw (t : Ty) (k : Kind) (r : Raw) : Datum :=
  match t, k, r with
  | .bool, .bool, .bool b => .bool b
  | .real, .double, .bytes b => .real b
  | .int, .int64, .int x => .int x
  | .duration, .int64, .int x => .duration x
  | .count, .uint64, .nat n => .count n
  | .enum _, .uint64, .nat n => .enum (n % 256)
  | .string, .string, .bytes s => .string s
  | .pattern, .string, .bytes s => .pattern s
  | .time, .timestamp, .int x => .time x
  | _, _, _ => .none

mutual
/-- `value_at` (arrow_table_slice.cpp:466-471) with `decode` (119-265) and `row_picker` (376-464), and view.cpp:143-186
    `materialize`, which reads the container views (39-114, 344-374). `none` is a read outside of an array. -/
def valueAt : Ty → Arr → Nat → Option Datum
  | .list t, a, row => match a with
    | .list valid offsets c =>
      match valid[row]?, offsets[row]?, offsets[row + 1]? with
      | some false, _, _ => some .none
      | some true, some o, some e => (gather ((List.range (e - o)).map fun i => valueAt t c (i + o))).map .list
      | _, _, _ => none
    | a => (a.isNull row).map fun _ => .none
  | .map k v, a, row => match a with
    | .list valid offsets c =>
      match valid[row]?, offsets[row]?, offsets[row + 1]? with
      | some false, _, _ => some .none
      | some true, some o, some e =>
        match c with
        | .struct _ [ka, va] =>
          (gather ((List.range (e - o)).map fun i => valueAt k ka (i + o))).bind fun ks =>
            (gather ((List.range (e - o)).map fun i => valueAt v va (i + o))).map fun vs => .map ks vs
        | _ => none
      | _, _, _ => none
    | a => (a.isNull row).map fun _ => .none
  | .record ts, a, row => match a with
    | .struct valid cs =>
      match valid[row]? with
      | some false => some .none
      | some true => (fieldsAt ts cs row).map .record
      | none => none
    | a => (a.isNull row).map fun _ => .none
  | .address, a, row => match a with
    | .fixed _ valid bytes =>
      match valid[row]? with
      | some false => some .none
      | some true => (addressOf ((bytes.drop (row * 16)).take 16)).map .address
      | none => none
    | a => (a.isNull row).map fun _ => .none
  | .subnet, a, row => match a with
    | .fixed _ valid bytes =>
      match valid[row]? with
      | some false => some .none
      | some true => (addressOf ((bytes.drop (row * 17)).take 16)).bind fun x =>
          bytes[row * 17 + 16]?.map fun l => .subnet (.make x l.toNat)
      | none => none
    | a => (a.isNull row).map fun _ => .none
  | t, a, row => match a with
    | .prim k cells => cells[row]?.map fun c => match c with
      | some r => ofRaw t k r
      | none => .none
    | a => (a.isNull row).map fun _ => .none

/-- arrow_table_slice.cpp:99-105 `arrow_record_view::at`, for one field after the other; there are as many as children
    (107-109). -/
def fieldsAt : List Ty → List Arr → Nat → Option (List Datum)
  | _, [], _ => some []
  | t :: ts, c :: cs, row => (valueAt t c row).bind fun x => (fieldsAt ts cs row).map fun xs => x :: xs
  | [], _ :: _, _ => none
end

/-- arrow_table_slice.cpp:694-704 `at`, with the type of the column from the layout. Transform steps use it. -/
def Slice.get (cols : List Ty) (s : Slice) (row column : Nat) : Option Datum :=
  match cols[column]?, s.cols[column]? with
  | some t, some a => valueAt t a row
  | _, _ => none

/-- table_slice.cpp:335-351 `at` with a type: aliases are replaced by what they stand for. Writers, synopses and the
    evaluation of queries use it with the type of the column. The assertion that the types are congruent is compiled
    out (arrow_table_slice.cpp:709-710). -/
def Slice.getAs (s : Slice) (row column : Nat) : Ty → Option Datum
  | .alias t => s.getAs row column t
  | t => match s.cols[column]? with
    | some a => valueAt t a row
    | none => none

/-- Whether `decode` has a case for the type with this array (arrow_table_slice.cpp:119-185). -/
def matched : Ty → Arr → Bool
  | .bool, .prim .bool _ => true
  | .real, .prim .double _ => true
  | .int, .prim .int64 _ => true
  | .duration, .prim .int64 _ => true
  | .count, .prim .uint64 _ => true
  | .enum _, .prim .uint64 _ => true
  | .string, .prim .string _ => true
  | .pattern, .prim .string _ => true
  | .time, .prim .timestamp _ => true
  | .address, .fixed _ _ _ => true
  | .subnet, .fixed _ _ _ => true
  | .list _, .list _ _ _ => true
  | .map _ _, .list _ _ _ => true
  | .record _, .struct _ _ => true
  | _, _ => false

/-- arrow_table_slice.cpp:475-561, 682-692 `append_column_to_index`: the calls of `append` of the index for a column, with
    the value and its position (`apply`, 482-487) -/
def indexCalls (t : Ty) (a : Arr) (offset : Nat) : Option (List (Datum × Nat)) :=
  if matched t a then
    (gather ((List.range a.length).map fun row => match a.isNull row with
      | some true => some []
      | some false => (valueAt t a row).map fun x => [(x, offset + row)]
      | none => none)).map List.flatten
  else some []

end Verif.ArrowSlice
