import Verif.MsgpackSlice.Rows

/-!
C68: a table slice in MessagePack encoding returns what was added to its builder.
-/

namespace Verif.MsgpackSlice
open Spec Verif.Address

/-- **C68.** Whoever adds rows of values of the right types to a builder gets all of them back: every call of `add`
    returns true, the slice has as many rows as were added, every access to a row and a column gives the value that
    was added there, and the builder is as good as new after `finish`. Missing: values whose parts are of other
    types although the builder accepts them, see the refutations below, and, with assertions, maps of 8 to 15 and of
    32768 to 65535 entries. -/
theorem C68_read_partial (chk : Bool) (cols : List Ty) (hc : cols ≠ []) (rows : List (List Datum))
    (h : ∀ row, row ∈ rows → RowOk chk cols row) :
    ∃ b, addAll chk cols .init rows.flatten = some (b, List.replicate rows.flatten.length true) ∧
      (finish b).1.rows = rows.length ∧
      (∀ r c, r < rows.length → c < cols.length → (finish b).1.get cols r c = rows[r]?.bind (·[c]?)) ∧
      (finish b).2 = .init := by
  obtain ⟨b, ha, hw⟩ := addRows (chk := chk) hc rows [] .init h (whole_init chk cols)
  rw [List.nil_append] at hw
  refine ⟨b, ha, hw.count, fun r c hr hcol => hw.get hr hcol, ?_⟩
  simp only [finish, hw.column, Builder.init]

/-- Two rows with nested containers, an address, a subnet, an enumeration and nulls. -/
example : ∃ (cols : List Ty) (rows : List (List Datum)), cols ≠ [] ∧ 2 ≤ rows.length ∧
    ∀ row, row ∈ rows → RowOk true cols row := by
  refine ⟨[.int, .list (.alias .string), .map .count .address, .subnet, .enum 3],
    [[.int (-7), .list [.string [97, 98], .none], .map [.count 5] [.address (.v4 10 0 0 1)],
        .subnet (Subnet.make (.v4 10 0 0 0) 8), .enum 2],
      [.none, .list [], .none, .none, .enum 0]], by simp, by simp, ?_⟩
  intro row hrow
  simp only [List.mem_cons, List.not_mem_nil, or_false] at hrow
  rcases hrow with rfl | rfl
  · refine ⟨⟨.inr ⟨_, rfl⟩, by simp [Sized], fun _ => trivial⟩, ⟨.inr ⟨_, rfl, ?_⟩, by simp [Sized, AllSized], fun _ => by simp [MapsSmall, AllMapsSmall]⟩,
      ⟨.inr ⟨_, _, rfl, ?_, ?_⟩, by simp [Sized, AllSized], fun _ => by simp [MapsSmall, AllMapsSmall]⟩,
      ⟨.inr ⟨_, rfl⟩, ⟨_, _, by decide, rfl⟩, fun _ => trivial⟩, ⟨.inr ⟨2, by omega, rfl⟩, by simp [Sized], fun _ => trivial⟩, trivial⟩
    · intro y hy
      simp only [List.mem_cons, List.not_mem_nil, or_false] at hy
      rcases hy with rfl | rfl
      · exact .inr ⟨_, rfl⟩
      · exact .inl rfl
    · intro y hy
      simp only [List.mem_cons, List.not_mem_nil, or_false] at hy
      subst hy; exact .inr ⟨_, rfl⟩
    · intro y hy
      simp only [List.mem_cons, List.not_mem_nil, or_false] at hy
      subst hy; exact .inr ⟨_, rfl⟩
  · refine ⟨⟨.inl rfl, trivial, fun _ => trivial⟩, ⟨.inr ⟨_, rfl, by simp⟩, by simp [Sized, AllSized], fun _ => by simp [MapsSmall, AllMapsSmall]⟩,
      ⟨.inl rfl, trivial, fun _ => trivial⟩, ⟨.inl rfl, trivial, fun _ => trivial⟩,
      ⟨.inr ⟨0, by omega, rfl⟩, by simp [Sized], fun _ => trivial⟩, trivial⟩

/-- The types without parts: no null type, list, map or record. -/
def Plain : Ty → Prop
  | .none => False
  | .list _ => False
  | .map _ _ => False
  | .record _ => False
  | .alias t => Plain t
  | _ => True

/-- **C68.** For the types without parts, the builder accepts exactly the values of the type of the column and
    nulls, so that `C68_read_partial` is about every value it accepts. -/
theorem C68_accepted : ∀ (t : Ty) (_ : Plain t) (x : Datum), typeCheck t x = true ↔ HasType t x
  | .alias t, h, x => by
    have ih := C68_accepted t h x
    have : typeCheck (.alias t) x = typeCheck t x := by
      cases x <;> simp [typeCheck]
    rw [this]; exact ih
  | .bool, _, x | .int, _, x | .count, _, x | .real, _, x | .duration, _, x | .time, _, x | .string, _, x
  | .pattern, _, x | .address, _, x | .subnet, _, x | .enum _, _, x => by
    cases x <;> simp [typeCheck, HasType]
  | .none, h, _ | .list _, h, _ | .map _ _, h, _ | .record _, h, _ => h.elim

/-- **C68.** A call that returns false leaves the builder as it was, and it returns false exactly if the value is not
    of the type of the column, for the types without parts. -/
theorem C68_rejected (chk : Bool) (cols : List Ty) (b : Builder) (t : Ty) (x : Datum) (hc : cols[b.column]? = some t) :
    (∀ b', add chk cols b x = some (b', false) → b' = b) ∧
    (Plain t → Sized x → (chk = true → MapsSmall x) → ((∃ b', add chk cols b x = some (b', false)) ↔ ¬ HasType t x)) := by
  constructor
  · intro b' h
    unfold add at h
    rw [hc] at h
    simp only at h
    split at h
    · cases hp : (encode x).bind (Msgpack.putAll chk none 0) with
      | none => rw [hp] at h; simp at h
      | some e => rw [hp] at h; simp at h
    · simp at h; exact h.symm
  · intro hp hs hm
    constructor
    · rintro ⟨b', h⟩ ht
      obtain ⟨v, e, _, _, ha⟩ := add_ok hc ht hs hm
      rw [ha] at h
      simp at h
    · intro ht
      refine ⟨b, ?_⟩
      unfold add
      rw [hc]
      simp only
      rw [if_neg (fun hh => ht ((C68_accepted t hp x).1 hh))]

example : add false [.int, .string] ⟨1, [0], [0xc0]⟩ (.int 5) = some (⟨1, [0], [0xc0]⟩, false) ∧ Plain .string ∧
    ([.int, .string] : List Ty)[1]? = some .string := ⟨rfl, trivial, rfl⟩

/-- The value in the first column of the first row after one call of `add`, if the call returns true. -/
def stored (chk : Bool) (cols : List Ty) (x : Datum) : Option (Option Datum) :=
  match add chk cols .init x with
  | some (b, true) => some ((finish b).1.get cols 0 0)
  | _ => none

set_option maxRecDepth 20000 in
/-- **C68, refutation.** The builder only looks at the first element of a list. A list of strings with a number behind
    the first string is accepted, and reading it ends the process. -/
theorem C68_mixed_list_refuted :
    stored false [.list .string] (.list [.string [97], .int 1]) = some none := rfl

set_option maxRecDepth 20000 in
/-- **C68, refutation.** A list of numbers with a string behind the first number is accepted, and the string is read
    back as a null. -/
theorem C68_lost_element_refuted :
    stored false [.list .int] (.list [.int 1, .string [97]]) = some (some (.list [.int 1, .none])) := rfl

set_option maxRecDepth 20000 in
/-- **C68, refutation.** The same for the entries of a map behind the first. -/
theorem C68_mixed_map_refuted :
    stored false [.map .int .string] (.map [.int 1, .int 2] [.string [97], .bool true]) = some none := rfl

set_option maxRecDepth 20000 in
/-- **C68, refutation.** A column without a type accepts every value and returns a null for it. -/
theorem C68_null_type_refuted : stored false [.none] (.int 5) = some (some .none) := rfl

set_option maxRecDepth 20000 in
/-- **C68, refutation.** A list of records accepts a list of lists, whose elements are read back as nulls. -/
theorem C68_record_list_refuted :
    stored false [.list (.record [.int])] (.list [.list [.int 1]]) = some (some (.list [.none])) := rfl

set_option maxRecDepth 20000 in
/-- **C68, refutation.** A record in a column without a type takes several places in the row, so that the next column
    returns a part of it: here 2 instead of 9. -/
theorem C68_record_shift_refuted :
    ((addAll false [.none, .int] .init [.record [.int 1, .int 2], .int 9]).map fun r =>
      (r.2, (finish r.1).1.get [.none, .int] 0 1)) = some ([true, true], some (.int 2)) := rfl

set_option maxRecDepth 20000 in
/-- **C68, refutation.** With assertions, a map of eight entries, of the right type, fails an assertion. -/
theorem C68_map_refuted :
    let x := Datum.map ((List.range 8).map Datum.count) ((List.range 8).map Datum.count)
    HasType (.map .count .count) x ∧ Sized x ∧ add true [.map .count .count] .init x = none := by
  refine ⟨.inr ⟨_, _, rfl, ?_, ?_⟩, ?_, rfl⟩
  · intro y hy
    obtain ⟨n, _, rfl⟩ := List.mem_map.1 hy
    exact .inr ⟨n, rfl⟩
  · intro y hy
    obtain ⟨n, _, rfl⟩ := List.mem_map.1 hy
    exact .inr ⟨n, rfl⟩
  · simp [Sized, AllSized, List.range, List.range.loop]

end Verif.MsgpackSlice
