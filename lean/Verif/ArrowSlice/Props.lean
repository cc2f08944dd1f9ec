import Verif.ArrowSlice.Rows

/-!
C101: a table slice in Arrow encoding returns what was added to its builder.
-/

namespace Verif.ArrowSlice
open Verif.MsgpackSlice Verif.Address Verif.ArrowSlice.Spec

theorem noAlias_of : ∀ (ts : List Ty), NoAliases ts → ∀ (c : Nat) (t : Ty), ts[c]? = some t → NoAlias t
  | [], _, _, _, h => by simp at h
  | u :: us, hu, 0, t, h => by simp only [List.getElem?_cons_zero, Option.some.injEq] at h; subst h; exact hu.1
  | u :: us, hu, c + 1, t, h => noAlias_of us hu.2 c t (by simpa using h)

theorem arrOf_meaning : ∀ (t : Ty) (xs : List Datum), arrOf t xs = arrOf (meaning t) xs
  | .alias t, xs => by rw [arrOf, meaning]; exact arrOf_meaning t xs
  | .none, _ | .bool, _ | .int, _ | .count, _ | .real, _ | .duration, _ | .time, _ | .string, _ | .pattern, _ | .address, _
  | .subnet, _ | .enum _, _ | .list _, _ | .map _ _, _ | .record _, _ => rfl

theorem hasType_meaning : ∀ (t : Ty) (x : Datum), HasType t x ↔ HasType (meaning t) x
  | .alias t, x => by rw [HasType, meaning]; exact hasType_meaning t x
  | .none, _ | .bool, _ | .int, _ | .count, _ | .real, _ | .duration, _ | .time, _ | .string, _ | .pattern, _ | .address, _
  | .subnet, _ | .enum _, _ | .list _, _ | .map _ _, _ | .record _, _ => Iff.rfl

theorem getAs_meaning (s : Slice) (r c : Nat) {a : Arr} (h : s.cols[c]? = some a) : ∀ t, s.getAs r c t = valueAt (meaning t) a r
  | .alias t => by rw [Slice.getAs, meaning]; exact getAs_meaning s r c h t
  | .none | .bool | .int | .count | .real | .duration | .time | .string | .pattern | .address | .subnet | .enum _ | .list _
  | .map _ _ | .record _ => by simp [Slice.getAs, meaning, h]

/-- **C101.** Whoever adds rows of values of the right types to a builder gets all of them back: every call of `add`
    returns true, the slice has as many rows as were added, every access to a row and a column with the type of the
    column gives the value that was added there, and the builder is as good as new after `finish`. Missing: aliases
    within types, see the refutation. -/
theorem C101_read_partial (cols : List Ty) (hc : cols ≠ []) (hn : ∀ t, t ∈ cols → NoAlias (meaning t)) (rows : List (List Datum))
    (h : ∀ row, row ∈ rows → AllHaveType cols row) :
    ∃ b, addAll cols (.init cols) rows.flatten = some (b, List.replicate rows.flatten.length true) ∧
      (b.finish cols).1.rows = rows.length ∧
      (∀ (r c : Nat) (t : Ty), r < rows.length → cols[c]? = some t → (b.finish cols).1.getAs r c t = rows[r]?.bind (·[c]?)) ∧
      (b.finish cols).2 = .init cols := by
  have ha := addRows hc rows [] h
  simp only [List.length_nil, Nat.zero_add, List.nil_append] at ha
  refine ⟨⟨0, rows.length, arrsOf cols rows⟩, ?_, rfl, ?_, rfl⟩
  · rw [Builder.init, map_make]; exact ha
  · intro r c t hr ht
    have hcol : ((⟨0, rows.length, arrsOf cols rows⟩ : Builder).finish cols).1.cols[c]?
        = some (arrOf t (rows.map fun r => r[c]?.getD .none)).finish := by
      simp only [Builder.finish, List.getElem?_map, arrsOf_get cols rows c t ht, Option.map_some]
    rw [getAs_meaning _ r c hcol, arrOf_meaning,
      valueAt_finish (meaning t) (hn t (List.mem_of_getElem? ht)) _ (fun x hx => (hasType_meaning t x).1 (column_hasType h ht x hx)) r
        (by simpa using hr), List.getElem?_map, List.getElem?_eq_getElem hr]
    obtain ⟨x, hx, _⟩ := allHaveType_get cols _ (h _ (getElem_mem' hr)) c t ht
    simp [hx]

/-- **C101.** The same for an access without a type, which transform steps use; the index of a column gets exactly the
    values that are not null, in order and each with its own position. Missing: aliases, see the refutation. -/
theorem C101_column_partial (cols : List Ty) (hc : cols ≠ []) (hn : NoAliases cols) (rows : List (List Datum))
    (h : ∀ row, row ∈ rows → AllHaveType cols row) :
    ∃ b, addAll cols (.init cols) rows.flatten = some (b, List.replicate rows.flatten.length true) ∧
      (∀ r c, r < rows.length → c < cols.length → (b.finish cols).1.get cols r c = rows[r]?.bind (·[c]?)) ∧
      (∀ (c : Nat) (t : Ty) (offset : Nat), cols[c]? = some t → ∃ a, (b.finish cols).1.cols[c]? = some a ∧
        indexCalls t a offset = some (present offset (rows.map fun row => row[c]?.getD .none))) := by
  have ha := addRows hc rows [] h
  simp only [List.length_nil, Nat.zero_add, List.nil_append] at ha
  refine ⟨⟨0, rows.length, arrsOf cols rows⟩, ?_, ?_, ?_⟩
  · rw [Builder.init, map_make]; exact ha
  · intro r c hr hcol
    obtain ⟨t, ht⟩ : ∃ t, cols[c]? = some t := ⟨_, List.getElem?_eq_getElem hcol⟩
    simp only [Slice.get, Builder.finish, List.getElem?_map, ht, arrsOf_get cols rows c t ht, Option.map_some]
    rw [valueAt_finish t (noAlias_of cols hn c t ht) _ (column_hasType h ht) r (by simpa using hr), List.getElem?_map,
      List.getElem?_eq_getElem hr]
    obtain ⟨x, hx, _⟩ := allHaveType_get cols _ (h _ (getElem_mem' hr)) c t ht
    simp [hx]
  · intro c t offset ht
    refine ⟨_, ?_, indexCalls_arrOf (noAlias_of cols hn c t ht) (column_hasType h ht) offset⟩
    simp only [Builder.finish, List.getElem?_map, arrsOf_get cols rows c t ht, Option.map_some]

/-- Two rows with nested containers, an address, a subnet, an enumeration and nulls. -/
example : ∃ (cols : List Ty) (rows : List (List Datum)), cols ≠ [] ∧ NoAliases cols ∧ (∀ t, t ∈ cols → NoAlias (meaning t)) ∧ 2 ≤ rows.length ∧
    ∀ row, row ∈ rows → AllHaveType cols row := by
  refine ⟨[.int, .list (.record [.string, .bool]), .map .count .address, .subnet, .enum 3],
    [[.int (-7), .list [.record [.string [97, 98], .none], .none], .map [.count 5] [.address (.v4 10 0 0 1)],
        .subnet (Subnet.make (.v4 10 0 0 0) 8), .enum 2],
      [.none, .list [], .none, .none, .enum 0]], by simp, by simp [NoAliases, NoAlias], by simp [meaning, NoAlias, NoAliases], by simp, ?_⟩
  intro row hrow
  simp only [List.mem_cons, List.not_mem_nil, or_false] at hrow
  rcases hrow with rfl | rfl
  · refine ⟨_, _, rfl, .inr ⟨_, rfl⟩, _, _, rfl, .inr ⟨_, rfl, ?_⟩, _, _, rfl, .inr ⟨_, _, rfl, rfl, ?_, ?_⟩, _, _, rfl,
      .inr ⟨_, _, by decide, rfl⟩, _, _, rfl, .inr ⟨_, by omega, rfl⟩, rfl⟩
    · intro y hy
      simp only [List.mem_cons, List.not_mem_nil, or_false] at hy
      rcases hy with rfl | rfl
      · exact .inr ⟨_, rfl, _, _, rfl, .inr ⟨_, rfl⟩, _, _, rfl, .inl rfl, rfl⟩
      · exact .inl rfl
    · intro y hy
      simp only [List.mem_cons, List.not_mem_nil, or_false] at hy
      subst hy; exact .inr ⟨_, rfl⟩
    · intro y hy
      simp only [List.mem_cons, List.not_mem_nil, or_false] at hy
      subst hy; exact .inr ⟨_, rfl⟩
  · exact ⟨_, _, rfl, .inl rfl, _, _, rfl, .inr ⟨_, rfl, by simp⟩, _, _, rfl, .inl rfl, _, _, rfl, .inl rfl, _, _, rfl,
      .inr ⟨_, by omega, rfl⟩, rfl⟩

/-- An alias of a list of strings meets the hypothesis of `C101_read_partial`. -/
example : NoAlias (meaning (.alias (.alias (.list .string)))) := by simp [meaning, NoAlias]

/-- **C101, refutation.** The values of a column whose type is an alias are not there for transform steps: the
    builder takes every value of the type, but reading without a type gives null for every row, and the index of the column stays empty. -/
theorem C101_alias_refuted (t : Ty) (xs : List Datum) (h : ∀ x, x ∈ xs → HasType (.alias t) x) :
    ∃ b, addAll [.alias t] (.init [.alias t]) xs = some (b, List.replicate xs.length true) ∧
      (b.finish [.alias t]).1.rows = xs.length ∧
      (∀ r, r < xs.length → (b.finish [.alias t]).1.get [.alias t] r 0 = some .none) ∧
      ∃ a, (b.finish [.alias t]).1.cols[0]? = some a ∧ ∀ offset, indexCalls (.alias t) a offset = some [] := by
  have ha := addRows (cols := [.alias t]) (by simp) (xs.map fun x => [x]) [] (by
    intro row hrow
    obtain ⟨x, hx, rfl⟩ := List.mem_map.mp hrow
    exact ⟨_, _, rfl, h x hx, rfl⟩)
  have hfl : (xs.map fun x => [x]).flatten = xs := MsgpackSlice.flatten_singletons xs
  simp only [List.length_nil, Nat.zero_add, List.nil_append, hfl, List.length_map] at ha
  have hxs : (xs.map fun x => [x]).map (fun r => r.headD .none) = xs := by
    rw [List.map_map]
    have : ((fun r : List Datum => r.headD Datum.none) ∘ fun x : Datum => [x]) = id := funext fun _ => rfl
    rw [this, List.map_id]
  refine ⟨⟨0, xs.length, arrsOf [.alias t] (xs.map fun x => [x])⟩, ?_, rfl, ?_, ?_⟩
  · rw [Builder.init, map_make]; exact ha
  · intro r hr
    have hnull : ∀ a : Arr, r < a.length → valueAt (.alias t) a r = some .none := by
      intro a har
      cases a with
      | prim k cells =>
        simp only [Arr.length] at har
        simp only [valueAt, List.getElem?_eq_getElem har, Option.map_some]
        cases cells[r] <;> simp [ofRaw]
      | fixed w v b => simp only [Arr.length] at har; simp [valueAt, Arr.isNull, har]
      | list v o c => simp only [Arr.length] at har; simp [valueAt, Arr.isNull, har]
      | struct v cs => simp only [Arr.length] at har; simp [valueAt, Arr.isNull, har]
    simp only [Slice.get, Builder.finish, arrsOf, List.map_cons, List.getElem?_cons_zero]
    exact hnull _ (by rw [finish_length, arrOf_length, hxs]; exact hr)
  · refine ⟨_, rfl, fun offset => ?_⟩
    rw [indexCalls, if_neg]
    simp [matched]

/-- An alias of a string type. -/
example : ∀ x, x ∈ [Datum.string [97], .none, .string []] → HasType (.alias .string) x := by
  intro x hx
  simp only [List.mem_cons, List.not_mem_nil, or_false] at hx
  rcases hx with rfl | rfl | rfl
  · exact .inr ⟨_, rfl⟩
  · exact .inl rfl
  · exact .inr ⟨_, rfl⟩

/-- **C101, refutation.** Reading with the type does not help for an alias within a list or a record. -/
theorem C101_inner_alias_refuted :
    (addAll [.list (.alias .int)] (.init [.list (.alias .int)]) [.list [.int 1, .int 2]]).map
      (fun r => (r.2, (r.1.finish [.list (.alias .int)]).1.getAs 0 0 (.list (.alias .int)))) = some ([true], some (.list [.none, .none])) ∧
    (addAll [.list (.record [.alias .int])] (.init [.list (.record [.alias .int])]) [.list [.record [.int 1]]]).map
      (fun r => (r.2, (r.1.finish [.list (.record [.alias .int])]).1.getAs 0 0 (.list (.record [.alias .int]))))
      = some ([true], some (.list [.record [.none]])) := ⟨rfl, rfl⟩

/-- The values of the first column after some calls of `add`, with the results of the calls. -/
def stored (t : Ty) (xs : List Datum) : Option (List Bool × List (Option Datum)) :=
  (addAll [t] (.init [t]) xs).map fun r =>
    (r.2, (List.range (r.1.finish [t]).1.rows).map fun i => (r.1.finish [t]).1.get [t] i 0)

/-- **C101, refutation.** A call of `add` that returns false leaves something behind if the value is a container: the next
    row is the elements that were accepted before the first one of a wrong type. -/
theorem C101_rest_refuted :
    stored (.list .int) [.list [.int 1, .string [97]], .list [.int 2]] = some ([false, true], [some (.list [.int 1])]) ∧
    stored (.list .int) [.int 5, .list [.int 2]] = some ([false, true], [some (.list [])]) := ⟨rfl, rfl⟩

/-- **C101, refutation.** A record with too few fields is accepted, and reading it is a read outside of an array. -/
theorem C101_short_record_refuted :
    stored (.list (.record [.int, .bool])) [.list [.record [.int 1]]] = some ([true], [none]) := rfl

/-- **C101, refutation.** A record with too many fields is an access to a builder that does not exist. -/
theorem C101_long_record_refuted : stored (.list (.record [.int])) [.list [.record [.int 1, .int 2]]] = none := rfl

/-- The types without parts. -/
def Plain : Ty → Prop
  | .list _ => False
  | .map _ _ => False
  | .record _ => False
  | .alias t => Plain t
  | _ => True

/-- **C101.** For types without parts, a call that returns false leaves the builder as it was, and it returns false exactly
    for values of another type (with 8 bits for enumerations and subnets that were made from an address and a length). -/
theorem C101_rejected : ∀ (t : Ty) (_ : Plain t) (xs : List Datum) (x : Datum),
    (∀ n, x = .enum n → n < 256) → (∀ s, x = .subnet s → ∃ a l, l ≤ Address.maxLength a ∧ s = Subnet.make a l) →
    ((add t (arrOf t xs) x = some (arrOf t xs, false)) ↔ ¬ HasType t x) ∧
    ((∃ a, add t (arrOf t xs) x = some (a, true)) ↔ HasType t x)
  | .alias t, hp, xs, x, he, hs => by simpa only [add, arrOf, HasType] using C101_rejected t hp xs x he hs
  | .none, _, xs, x, he, hs => by cases x <;> simp [add, arrOf, HasType]
  | .bool, _, xs, x, he, hs | .int, _, xs, x, he, hs | .count, _, xs, x, he, hs | .real, _, xs, x, he, hs
  | .duration, _, xs, x, he, hs | .time, _, xs, x, he, hs | .string, _, xs, x, he, hs | .pattern, _, xs, x, he, hs
  | .address, _, xs, x, he, hs => by cases x <;> simp [add, arrOf, HasType, appendRaw, appendFixed]
  | .enum _, _, xs, x, he, hs => by
    cases x <;> simp [add, arrOf, HasType, appendRaw]
    simpa using he
  | .subnet, _, xs, x, he, hs => by
    cases x <;> simp [add, arrOf, HasType, appendFixed]
    simpa using hs
  | .list _, h, _, _, _, _ | .map _ _, h, _, _, _, _ | .record _, h, _, _, _, _ => h.elim

example : Plain .string ∧ add .string (arrOf .string [.string [97]]) (.int 5) = some (arrOf .string [.string [97]], false) := ⟨trivial, rfl⟩

end Verif.ArrowSlice
