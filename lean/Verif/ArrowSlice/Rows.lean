import Verif.ArrowSlice.Lemmas

/-! Lemmas for C101: rows. -/

namespace Verif.ArrowSlice
open Verif.MsgpackSlice Verif.Address Verif.ArrowSlice.Spec

theorem map_make : ∀ ts : List Ty, ts.map make = arrsOf ts []
  | [] => rfl
  | t :: ts => by simp [arrsOf, make_eq t, map_make ts]

theorem arrsOf_length : ∀ (ts : List Ty) (rows : List (List Datum)), (arrsOf ts rows).length = ts.length
  | [], _ => rfl
  | t :: ts, rows => by simp [arrsOf, arrsOf_length ts]

theorem arrsOf_get : ∀ (ts : List Ty) (rows : List (List Datum)) (c : Nat) (t : Ty), ts[c]? = some t →
    (arrsOf ts rows)[c]? = some (arrOf t (rows.map fun r => r[c]?.getD .none))
  | [], _, _, _, h => by simp at h
  | t :: ts, rows, 0, t', h => by
    simp only [List.getElem?_cons_zero, Option.some.injEq] at h
    subst h
    simp only [arrsOf, List.getElem?_cons_zero, Option.some.injEq]
    congr 1
    apply List.map_congr_left
    intro r _
    cases r <;> rfl
  | t :: ts, rows, c + 1, t', h => by
    simp only [arrsOf, List.getElem?_cons_succ] at h ⊢
    rw [arrsOf_get ts _ c t' h, List.map_map]
    simp only [Option.some.injEq]
    congr 1
    apply List.map_congr_left
    intro r _
    cases r <;> simp

theorem addRow : ∀ (ts : List Ty), ts ≠ [] → ∀ (pre : List Ty) (done : List Arr) (n : Nat) (rows : List (List Datum)) (ys rest : List Datum),
    pre.length = done.length → AllHaveType ts ys →
    addAll (pre ++ ts) ⟨pre.length, n, done ++ arrsOf ts rows⟩ (ys ++ rest)
      = (addAll (pre ++ ts) ⟨0, n + 1, done ++ arrsOf ts (rows ++ [ys])⟩ rest).map fun r => (r.1, List.replicate ys.length true ++ r.2)
  | [], h, _, _, _, _, _, _, _, _ => absurd rfl h
  | t :: ts, _, pre, done, n, rows, ys, rest, hl, hy => by
    obtain ⟨y, ys, rfl, h1, h2⟩ := hy
    have hadd : (⟨pre.length, n, done ++ arrsOf (t :: ts) rows⟩ : Builder).add (pre ++ t :: ts) y
        = if ts = [] then some (⟨0, n + 1, done ++ arrOf t ((rows.map fun r => r.headD .none) ++ [y]) :: arrsOf ts (rows.map List.tail)⟩, true)
          else some (⟨pre.length + 1, n, done ++ arrOf t ((rows.map fun r => r.headD .none) ++ [y]) :: arrsOf ts (rows.map List.tail)⟩, true) := by
      simp only [Builder.add, arrsOf]
      rw [List.getElem?_append_right (by omega), List.getElem?_append_right (by omega)]
      simp only [Nat.sub_self, List.getElem?_cons_zero, hl, add_arrOf t _ y h1, List.set_append_right _ _ (Nat.le_refl _), List.set_cons_zero,
        List.length_append, List.length_cons]
      cases ts with
      | nil => simp
      | cons t' ts => simp
    rw [List.cons_append, addAll, hadd]
    cases ts with
    | nil =>
      simp only [AllHaveType] at h2
      subst h2
      simp [arrsOf]
    | cons t' ts =>
      rw [if_neg (by simp)]
      simp only [Option.bind_some]
      have := addRow (t' :: ts) (by simp) (pre ++ [t]) (done ++ [arrOf t ((rows.map fun r => r.headD .none) ++ [y])]) n
        (rows.map List.tail) ys rest (by simp [hl]) h2
      simp only [List.append_assoc, List.singleton_append, List.length_append, List.length_cons, List.length_nil, Nat.zero_add] at this
      rw [this, Option.map_map]
      simp only [arrsOf, List.map_append, List.map_cons, List.map_nil, List.headD_cons, List.tail_cons, List.length_cons]
      congr 1

theorem addRows {cols : List Ty} (hc : cols ≠ []) : ∀ (rows before : List (List Datum)), (∀ row, row ∈ rows → AllHaveType cols row) →
    addAll cols ⟨0, before.length, arrsOf cols before⟩ rows.flatten
      = some (⟨0, before.length + rows.length, arrsOf cols (before ++ rows)⟩, List.replicate rows.flatten.length true)
  | [], before, _ => by simp [addAll]
  | row :: rows, before, h => by
    have h1 := addRow cols hc [] [] before.length before row rows.flatten rfl (h row (by simp))
    simp only [List.nil_append, List.length_nil] at h1
    have h2 := addRows hc rows (before ++ [row]) fun r hr => h r (by simp [hr])
    simp only [List.length_append, List.length_cons, List.length_nil, Nat.zero_add] at h2
    rw [List.flatten_cons, h1, h2]
    simp [Nat.add_assoc, Nat.add_comm 1]

theorem allHaveType_get : ∀ (ts : List Ty) (xs : List Datum), AllHaveType ts xs → ∀ (c : Nat) (t : Ty), ts[c]? = some t → ∃ x, xs[c]? = some x ∧ HasType t x
  | [], _, _, _, _, h => by simp at h
  | t :: ts, xs, h, c, t', hc => by
    obtain ⟨y, ys, rfl, h1, h2⟩ := h
    cases c with
    | zero => simp only [List.getElem?_cons_zero, Option.some.injEq] at hc; subst hc; exact ⟨y, rfl, h1⟩
    | succ c => exact allHaveType_get ts ys h2 c t' (by simpa using hc)

/-- The values of a column. -/
theorem column_hasType {cols : List Ty} {rows : List (List Datum)} (h : ∀ row, row ∈ rows → AllHaveType cols row) {c : Nat} {t : Ty}
    (ht : cols[c]? = some t) : ∀ x, x ∈ (rows.map fun r => r[c]?.getD .none) → HasType t x := by
  intro x hx
  obtain ⟨r, hr, rfl⟩ := List.mem_map.mp hx
  obtain ⟨y, hy, hty⟩ := allHaveType_get cols r (h r hr) c t ht
  rw [hy]; exact hty

theorem finish_length : ∀ a : Arr, a.finish.length = a.length
  | .prim _ _ | .fixed _ _ _ | .list _ _ _ | .struct _ _ => by simp [Arr.finish, Arr.length]

theorem isNull_finish : ∀ (a : Arr) (i : Nat), a.finish.isNull i = a.isNull i
  | .prim _ _, _ | .fixed _ _ _, _ | .list _ _ _, _ | .struct _ _, _ => by simp [Arr.finish, Arr.isNull]

theorem isNull_arrOf : ∀ (t : Ty) (xs : List Datum), (∀ x, x ∈ xs → HasType t x) → ∀ i (hi : i < xs.length),
    (arrOf t xs).isNull i = some (!there xs[i])
  | .alias t, xs, h, i, hi => by rw [arrOf]; exact isNull_arrOf t xs (fun x hx => by simpa [HasType] using h x hx) i hi
  | .none, xs, h, i, hi => by
    have := h _ (getElem_mem' hi)
    simp only [HasType] at this
    simp [arrOf, Arr.isNull, hi, this, cell, there]
  | .bool, xs, h, i, hi | .int, xs, h, i, hi | .count, xs, h, i, hi | .real, xs, h, i, hi
  | .duration, xs, h, i, hi | .time, xs, h, i, hi | .string, xs, h, i, hi | .pattern, xs, h, i, hi => by
    rcases h _ (getElem_mem' hi) with hx | ⟨b, hx⟩ <;> simp [arrOf, Arr.isNull, hi, hx, cell, there]
  | .enum _, xs, h, i, hi => by
    rcases h _ (getElem_mem' hi) with hx | ⟨b, hb, hx⟩ <;> simp [arrOf, Arr.isNull, hi, hx, cell, there]
  | .address, xs, h, i, hi | .subnet, xs, h, i, hi | .list _, xs, h, i, hi | .map _ _, xs, h, i, hi | .record _, xs, h, i, hi => by
    simp [arrOf, Arr.isNull, hi]

theorem matched_arrOf : ∀ (t : Ty), NoAlias t → t ≠ .none → ∀ xs, matched t (arrOf t xs).finish = true
  | .alias _, h, _, _ => h.elim
  | .none, _, h, _ => absurd rfl h
  | .bool, _, _, _ | .int, _, _, _ | .count, _, _, _ | .real, _, _, _ | .duration, _, _, _ | .time, _, _, _ | .string, _, _, _
  | .pattern, _, _, _ | .address, _, _, _ | .subnet, _, _, _ | .enum _, _, _, _ | .list _, _, _, _ | .map _ _, _, _, _
  | .record _, _, _, _ => by simp [arrOf, Arr.finish, matched]

/-- What is appended to an index for one row. -/
def call (offset : Nat) (x : Datum) (i : Nat) : List (Datum × Nat) := if there x then [(x, offset + i)] else []

theorem present_eq : ∀ (xs : List Datum) (offset : Nat), present offset xs = (xs.zipIdx.map fun p => call offset p.1 p.2).flatten
  | [], _ => rfl
  | x :: xs, offset => by
    have ih := present_eq xs (offset + 1)
    have hz : ((xs.zipIdx 1).map fun p => call offset p.1 p.2) = (xs.zipIdx.map fun p => call (offset + 1) p.1 p.2) := by
      rw [List.zipIdx_succ, List.map_map]
      apply List.map_congr_left
      intro p _
      simp only [Function.comp_apply, call, Nat.add_assoc, Nat.add_comm 1]
    rw [List.zipIdx_cons, List.map_cons, List.flatten_cons, Nat.zero_add, hz, ← ih]
    cases x <;> simp [present, call, there]

theorem indexCalls_arrOf {t : Ty} (hn : NoAlias t) {xs : List Datum} (h : ∀ x, x ∈ xs → HasType t x) (offset : Nat) :
    indexCalls t (arrOf t xs).finish offset = some (present offset xs) := by
  by_cases ht : t = .none
  · subst ht
    have : ∀ (ys : List Datum) o, (∀ x, x ∈ ys → HasType .none x) → present o ys = [] := by
      intro ys
      induction ys with
      | nil => intro _ _; rfl
      | cons y ys ih =>
        intro o hy
        have h0 := hy y (by simp)
        simp only [HasType] at h0
        subst h0
        rw [present]; exact ih _ fun x hx => hy x (by simp [hx])
    rw [this xs offset h, indexCalls, if_neg (by simp [matched])]
  · rw [indexCalls, if_pos (matched_arrOf t hn ht xs), finish_length, arrOf_length, present_eq,
      gather_some _ (xs.zipIdx.map fun p => call offset p.1 p.2)]
    · rfl
    · apply List.ext_getElem?
      intro i
      simp only [List.getElem?_map]
      by_cases hi : i < xs.length
      · rw [List.getElem?_range hi, List.getElem?_zipIdx, List.getElem?_eq_getElem hi]
        simp only [Option.map_some, Nat.zero_add]
        rw [isNull_finish, isNull_arrOf t xs h i hi]
        cases hth : there xs[i]
        · simp [call, hth]
        · simp only [Bool.not_true]
          rw [valueAt_finish t hn xs h i hi, List.getElem?_eq_getElem hi]
          simp [call, hth]
      · rw [List.getElem?_eq_none (by simpa using hi), List.getElem?_eq_none (by simpa using hi)]
        rfl

end Verif.ArrowSlice
