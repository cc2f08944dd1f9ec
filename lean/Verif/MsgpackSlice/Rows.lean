import Verif.MsgpackSlice.Lemmas

/-! Lemmas on rows. -/

namespace Verif.MsgpackSlice
open Verif.Msgpack

/-- The bytes of a row. -/
inductive RowBytes (chk : Bool) : List Ty → List Datum → List UInt8 → Prop
  | nil : RowBytes chk [] [] []
  | cons {t ts x xs v e1 e2} (h : Trip chk t x v) (hp : put chk none 0 v = some e1) (hs : RowBytes chk ts xs e2) :
      RowBytes chk (t :: ts) (x :: xs) (e1 ++ e2)

theorem RowBytes.length {chk : Bool} {ts : List Ty} {xs : List Datum} {e : List UInt8} (h : RowBytes chk ts xs e) :
    xs.length = ts.length := by
  induction h with
  | nil => rfl
  | cons _ _ _ ih => simp [ih]

/-- Reading a column of a row. -/
theorem RowBytes.get {chk : Bool} {ts : List Ty} {xs : List Datum} {e : List UInt8} (h : RowBytes chk ts xs e) :
    ∀ (tail : List UInt8) (c : Nat), c < ts.length →
      ((skip c (e ++ tail)).bind fun d => ts[c]?.bind fun t => decode t d) = xs[c]? := by
  induction h with
  | nil => intro tail c hc; simp at hc
  | @cons t ts x xs v e1 e2 h hp hs ih =>
    intro tail c hc
    rw [List.append_assoc]
    cases c with
    | zero =>
      have h0 : skip 0 (e1 ++ (e2 ++ tail)) = some (e1 ++ (e2 ++ tail)) := rfl
      rw [h0]
      simp only [Option.bind_some, List.getElem?_cons_zero]
      exact h.dec _ _ _ hp _
    | succ c =>
      rw [skip_succ (next_put v h.fits h.bin hp).2]
      simp only [List.getElem?_cons_succ]
      exact ih tail c (by simpa using hc)

/-- Adding one value of the right type. -/
theorem add_ok {chk : Bool} {cols : List Ty} {b : Builder} {t : Ty} {x : Datum} (hc : cols[b.column]? = some t)
    (ht : Spec.HasType t x) (hs : Spec.Sized x) (hm : chk = true → Spec.MapsSmall x) :
    ∃ v e, Trip chk t x v ∧ put chk none 0 v = some e ∧
      add chk cols b x = some (⟨(b.column + 1) % cols.length,
        if b.column = 0 then b.offsets ++ [b.data.length] else b.offsets, b.data ++ e⟩, true) := by
  obtain ⟨v, hv⟩ := trip (chk := chk) t x ht hs hm
  obtain ⟨e, he⟩ := put_some (chk := chk) v (cap := none) (size := 0) hv.fits hv.maps rfl
  refine ⟨v, e, hv, he, ?_⟩
  have hp : putAll chk none 0 [v] = some e := by
    rw [putAll, he, Option.bind_some, putAll]
    simp
  unfold add
  rw [hc]
  simp only
  rw [if_pos (typeCheck_of t x ht), hv.enc, Option.bind_some, hp, Option.map_some]

/-- Adding the rest of a row. -/
theorem addRest {chk : Bool} : ∀ (ts : List Ty) (xs : List Datum) (pre : List Ty) (b : Builder), ts ≠ [] →
    Spec.RowOk chk ts xs → b.column = pre.length →
    ∃ b' e, Spec.addAll chk (pre ++ ts) b xs = some (b', List.replicate xs.length true) ∧ RowBytes chk ts xs e ∧
      b' = ⟨0, if b.column = 0 then b.offsets ++ [b.data.length] else b.offsets, b.data ++ e⟩
  | [], _, _, _, h, _, _ => (h rfl).elim
  | _ :: _, [], _, _, _, h, _ => h.elim
  | t :: ts, x :: xs, pre, b, _, h, hb => by
    obtain ⟨⟨h1, h2, h3⟩, hrest⟩ := h
    have hc : (pre ++ t :: ts)[b.column]? = some t := by rw [hb]; simp
    obtain ⟨v, e, hv, he, hadd⟩ := add_ok hc h1 h2 h3
    rw [Spec.addAll, hadd, Option.bind_some]
    cases ts with
    | nil =>
      cases xs with
      | cons _ _ => exact hrest.elim
      | nil =>
        refine ⟨_, e ++ [], rfl, .cons hv he .nil, ?_⟩
        have : (b.column + 1) % (pre ++ [t]).length = 0 := by rw [hb]; simp
        rw [this, List.append_nil]
    | cons t2 ts =>
      have hmod : (b.column + 1) % (pre ++ t :: t2 :: ts).length = b.column + 1 := by
        apply Nat.mod_eq_of_lt
        simp only [List.length_append, List.length_cons, hb]
        omega
      obtain ⟨b', e', ha, hr, hb'⟩ := addRest (t2 :: ts) xs (pre ++ [t]) ⟨(b.column + 1) % (pre ++ t :: t2 :: ts).length,
        if b.column = 0 then b.offsets ++ [b.data.length] else b.offsets, b.data ++ e⟩ (by simp) hrest
        (by rw [hmod, hb]; simp)
      refine ⟨b', e ++ e', ?_, .cons hv he hr, ?_⟩
      · rw [show pre ++ [t] ++ t2 :: ts = pre ++ t :: t2 :: ts by simp] at ha
        rw [ha]
        rfl
      · rw [hb', hmod]
        simp

/-- What a builder holds after whole rows. -/
structure Whole (chk : Bool) (cols : List Ty) (rows : List (List Datum)) (b : Builder) : Prop where
  column : b.column = 0
  count : b.offsets.length = rows.length
  row : ∀ (r : Nat) (row : List Datum), rows[r]? = some row → ∃ o e tail, b.offsets[r]? = some o ∧ o ≤ b.data.length ∧
    RowBytes chk cols row e ∧ b.data.drop o = e ++ tail

theorem whole_init (chk : Bool) (cols : List Ty) : Whole chk cols [] Builder.init :=
  ⟨rfl, rfl, by intro r row h; simp at h⟩

theorem Whole.push {chk : Bool} {cols : List Ty} {rows : List (List Datum)} {b : Builder} (h : Whole chk cols rows b)
    {row : List Datum} {e : List UInt8} (hr : RowBytes chk cols row e) :
    Whole chk cols (rows ++ [row]) ⟨0, b.offsets ++ [b.data.length], b.data ++ e⟩ := by
  refine ⟨rfl, by simp [h.count], ?_⟩
  intro r row' hrow
  by_cases hlt : r < rows.length
  · rw [List.getElem?_append_left hlt] at hrow
    obtain ⟨o, e', tail, h1, h2, h3, h4⟩ := h.row r row' hrow
    refine ⟨o, e', tail ++ e, ?_, ?_, h3, ?_⟩
    · rw [List.getElem?_append_left (by rw [h.count]; exact hlt)]; exact h1
    · simp only [List.length_append]; omega
    · simp only
      rw [List.drop_append_of_le_length h2, h4, List.append_assoc]
  · have hlen : r < (rows ++ [row]).length := (List.getElem?_eq_some_iff.1 hrow).1
    have hr' : r = rows.length := by simp only [List.length_append, List.length_cons, List.length_nil] at hlen; omega
    subst hr'
    rw [List.getElem?_append_right (Nat.le_refl _), Nat.sub_self] at hrow
    cases hrow
    refine ⟨b.data.length, e, [], ?_, by simp, hr, by simp⟩
    rw [← h.count]
    simp

theorem addAll_append {chk : Bool} {cols : List Ty} : ∀ (xs ys : List Datum) (b : Builder) {b1 b2 : Builder} {r1 r2 : List Bool},
    Spec.addAll chk cols b xs = some (b1, r1) → Spec.addAll chk cols b1 ys = some (b2, r2) →
    Spec.addAll chk cols b (xs ++ ys) = some (b2, r1 ++ r2)
  | [], ys, b, b1, b2, r1, r2, h1, h2 => by
    rw [Spec.addAll] at h1; cases h1; exact h2
  | x :: xs, ys, b, b1, b2, r1, r2, h1, h2 => by
    rw [Spec.addAll] at h1
    rw [List.cons_append, Spec.addAll]
    cases ha : add chk cols b x with
    | none => rw [ha] at h1; simp at h1
    | some r =>
      rw [ha, Option.bind_some] at h1
      rw [Option.bind_some]
      cases hb : Spec.addAll chk cols r.1 xs with
      | none => rw [hb] at h1; simp at h1
      | some r' =>
        rw [hb] at h1
        simp only [Option.map_some, Option.some.injEq, Prod.mk.injEq] at h1
        obtain ⟨rfl, rfl⟩ := h1
        rw [addAll_append xs ys r.1 hb h2]
        rfl

/-- Adding rows. -/
theorem addRows {chk : Bool} {cols : List Ty} (hc : cols ≠ []) : ∀ (rows done : List (List Datum)) (b : Builder),
    (∀ row, row ∈ rows → Spec.RowOk chk cols row) → Whole chk cols done b →
    ∃ b', Spec.addAll chk cols b rows.flatten = some (b', List.replicate rows.flatten.length true) ∧
      Whole chk cols (done ++ rows) b'
  | [], done, b, _, hb => ⟨b, by simp [Spec.addAll], by simpa using hb⟩
  | row :: rows, done, b, h, hb => by
    obtain ⟨b1, e, ha, hr, hb1⟩ := addRest cols row [] b hc (h row (by simp)) hb.column
    rw [if_pos hb.column] at hb1
    rw [List.nil_append] at ha
    have hw := hb.push hr
    rw [← hb1] at hw
    obtain ⟨b', ha', hw'⟩ := addRows hc rows (done ++ [row]) b1 (fun r hr => h r (by simp [hr])) hw
    refine ⟨b', ?_, by simpa using hw'⟩
    rw [List.flatten_cons, addAll_append _ _ _ ha ha']
    simp

theorem Whole.get {chk : Bool} {cols : List Ty} {rows : List (List Datum)} {b : Builder} (h : Whole chk cols rows b)
    {r c : Nat} (hr : r < rows.length) (hcol : c < cols.length) :
    (finish b).1.get cols r c = rows[r]?.bind (·[c]?) := by
  obtain ⟨o, e, tail, h1, _, h3, h4⟩ := h.row r rows[r] (by simp [hr])
  have hg := h3.get tail c hcol
  simp only [finish, Slice.get, h1, Option.bind_some, h4, hg]
  simp [hr]

end Verif.MsgpackSlice
