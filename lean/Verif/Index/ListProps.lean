import Verif.Index.ListIndex
import Verif.Index.NetProps

/-!
# C15: the list index
-/

namespace Verif.Index

open Verif.Data (RelOp)
open Spec (Row)

namespace ListIndex

variable {σ α ρ : Type}

/-- What position `i` of a list holds. -/
def elemRow (m i : Nat) (o : Option (List (Option α))) : Row α :=
  match o with
  | none => .absent
  | some l =>
    match (l.take m)[i]? with
    | none => .absent
    | some x => Row.of x

/-- Element index `i` holds its column. -/
structure ElemInv (inv : σ → List (Option α) → Prop) (m i : Nat) (e : ValueIndex σ) (col : List (Option (List (Option α)))) : Prop where
  le : e.offset ≤ col.length
  rep : VRep inv e ((col.take e.offset).map (elemRow m i))
  rest : ∀ (j : Nat) o, e.offset ≤ j → col[j]? = some o → elemRow m i o = .absent

/-- The index holds a column. -/
structure ListInv (inv : σ → List (Option α) → Prop) (m : Nat) (s : ListIndex σ) (col : List (Option (List (Option α)))) : Prop where
  max : s.maxSize = m
  size : ∃ cs, s.size = ⟨.range, uniform 10 (StringIndex.lengthDigits m), cs⟩ ∧
    MRep .range (uniform 10 (StringIndex.lengthDigits m)) cs (col.map (·.map fun l => min l.length m))
  elements : ∀ (i : Nat) e, s.elements[i]? = some e → ∃ v, e = some v ∧ ElemInv inv m i v col
  beyond : ∀ (i j : Nat) o, s.elements.length ≤ i → col[j]? = some o → elemRow m i o = .absent

/-- The column after an append. -/
def extend {β : Type} (col : List (Option β)) (pos : Nat) (l : β) : List (Option β) :=
  col ++ List.replicate (pos - col.length) none ++ [some l]

theorem extend_getElem? {β : Type} {col : List (Option β)} {pos : Nat} {l : β} (hp : col.length ≤ pos) (j : Nat) :
    (extend col pos l)[j]? = if j < col.length then col[j]? else if j < pos then some none
      else if j = pos then some (some l) else none := by
  have hl : (col ++ List.replicate (pos - col.length) (none : Option β)).length = pos := by simp; omega
  rw [extend, List.getElem?_append, hl]
  split
  · rw [List.getElem?_append]
    split
    · rfl
    · rw [List.getElem?_replicate, if_pos (by omega)]
  · rw [if_neg (by omega)]
    split
    · next h' => subst h'; simp
    · rw [List.getElem?_eq_none]
      simp; omega

theorem extend_length {β : Type} {col : List (Option β)} {pos : Nat} {l : β} (hp : col.length ≤ pos) :
    (extend col pos l).length = pos + 1 := by
  simp [extend]; omega

theorem elemInv_make {inv : σ → List (Option α) → Prop} {s : σ} (hs : inv s []) (m i : Nat) (col : List (Option (List (Option α))))
    (h : ∀ (j : Nat) o, col[j]? = some o → elemRow m i o = .absent) : ElemInv inv m i (ValueIndex.make s) col := by
  refine ⟨Nat.zero_le _, ?_, fun j o _ hj => h j o hj⟩
  exact vRep_make hs

theorem elemInv_skip {inv : σ → List (Option α) → Prop} {m i : Nat} {e : ValueIndex σ} {col : List (Option (List (Option α)))}
    (h : ElemInv inv m i e col) {pos : Nat} (hp : col.length ≤ pos) {l : List (Option α)} (hl : (l.take m)[i]? = none) :
    ElemInv inv m i e (extend col pos l) := by
  have hle := h.le
  refine ⟨by rw [extend_length hp]; omega, ?_, ?_⟩
  · rw [extend, List.append_assoc, List.take_append_of_le_length hle]
    exact h.rep
  · intro j o hj ho
    rw [extend_getElem? hp] at ho
    split at ho
    · exact h.rest j o hj ho
    · split at ho
      · obtain rfl := Option.some.inj ho; rfl
      · split at ho
        · obtain rfl := Option.some.inj ho
          simp only [elemRow, hl]
        · simp at ho

theorem elemInv_append {E : Impl σ α ρ} {inv : σ → List (Option α) → Prop} {valid : α → Prop} (hE : Appends E inv valid)
    {m i : Nat} {e : ValueIndex σ} {col : List (Option (List (Option α)))}
    (h : ElemInv inv m i e col) {pos : Nat} (hp : col.length ≤ pos) {l : List (Option α)} {x : Option α}
    (hl : (l.take m)[i]? = some x) (hx : ∀ y, x = some y → valid y) :
    ∃ e', appendElement E pos e x = some e' ∧ ElemInv inv m i e' (extend col pos l) := by
  have hle := h.le
  have hlen : ((col.take e.offset).map (elemRow m i)).length = e.offset := by simp; omega
  rcases vRep_append hE h.rep pos x hx with ⟨h1, _⟩ | ⟨h1, e', h2, h3⟩
  · omega
  · refine ⟨e', by rw [appendElement, h2], ?_⟩
    have hoff : e'.offset = pos + 1 := by
      rw [h3.offset, Spec.appendRow, if_neg (by omega)]
      simp
      omega
    refine ⟨by rw [hoff, extend_length hp]; omega, ?_, ?_⟩
    · have hfull : (extend col pos l).take (pos + 1) = extend col pos l :=
        List.take_of_length_le (by rw [extend_length hp]; omega)
      have : Spec.appendRow ((col.take e.offset).map (elemRow m i)) pos x = ((extend col pos l).take e'.offset).map (elemRow m i) := by
        rw [hoff, hfull, Spec.appendRow, if_neg (by omega)]
        apply List.ext_getElem?
        intro j
        rw [appendRow_getElem? _ _ _ h1, hlen, List.getElem?_map (l := extend col pos l), extend_getElem? hp]
        by_cases g1 : j < e.offset
        · rw [if_pos g1, if_pos (by omega), List.getElem?_map, List.getElem?_take_of_lt g1]
        · rw [if_neg g1]
          by_cases g2 : j < col.length
          · rw [if_pos (by omega), if_pos g2, List.getElem?_eq_getElem g2, Option.map_some,
              h.rest j _ (by omega) (List.getElem?_eq_getElem g2)]
          · rw [if_neg g2]
            by_cases g3 : j < pos
            · rw [if_pos g3, if_pos g3]; rfl
            · rw [if_neg g3, if_neg g3]
              by_cases g4 : j = pos
              · rw [if_pos g4, if_pos g4, Option.map_some, elemRow, hl]
              · rw [if_neg g4, if_neg g4]; rfl
      rw [← this]
      exact h3
    · intro j o hj ho
      have := lt_of_getElem? ho
      rw [extend_length hp] at this
      omega

theorem resize_getElem? {s : σ} {es : List (Option (ValueIndex σ))} {n i : Nat} {e : Option (ValueIndex σ)}
    (h : (resize (some s) es n)[i]? = some e) : es[i]? = some e ∨ (es.length ≤ i ∧ e = some (ValueIndex.make s)) := by
  rw [resize, List.getElem?_append] at h
  split at h
  · exact Or.inl h
  · next hle =>
    rw [List.getElem?_replicate] at h
    split at h
    · exact Or.inr ⟨by omega, (Option.some.inj h).symm⟩
    · simp at h

theorem appendElements_spec {E : Impl σ α ρ} {inv : σ → List (Option α) → Prop} {valid : α → Prop} (hE : Appends E inv valid)
    {m : Nat} {col : List (Option (List (Option α)))} {pos : Nat} (hp : col.length ≤ pos) {l : List (Option α)}
    (hx : ∀ y, some y ∈ l → valid y) :
    ∀ (n k : Nat) (es : List (Option (ValueIndex σ))), k + n = (l.take m).length → n ≤ es.length →
    (∀ (i : Nat) e, es[i]? = some e → ∃ v, e = some v ∧ ElemInv inv m (k + i) v col) →
    ∃ es', appendElements E pos n es (l.drop k) = some es' ∧ es'.length = es.length ∧
      ∀ (i : Nat) e, es'[i]? = some e → ∃ v, e = some v ∧ ElemInv inv m (k + i) v (extend col pos l) := by
  intro n
  induction n with
  | zero =>
    intro k es hk _ hes
    refine ⟨es, by rw [appendElements], rfl, ?_⟩
    intro i e he
    obtain ⟨v, rfl, hv⟩ := hes i e he
    exact ⟨v, rfl, elemInv_skip hv hp (List.getElem?_eq_none (by omega))⟩
  | succ n ih =>
    intro k es hk hn hes
    cases es with
    | nil => simp at hn
    | cons e es =>
      obtain ⟨v, rfl, hv⟩ := hes 0 e rfl
      have hkl : k < l.length := by rw [List.length_take] at hk; omega
      have hkt : k < (l.take m).length := by omega
      have hgetl : l[k]? = some l[k] := List.getElem?_eq_getElem hkl
      have hget : (l.take m)[k]? = some l[k] := by
        rw [List.length_take] at hkt
        rw [List.getElem?_take_of_lt (by omega), hgetl]
      obtain ⟨v', q1, q2⟩ := elemInv_append hE hv hp hget (fun y hy => hx y (by rw [← hy]; exact List.getElem_mem hkl))
      obtain ⟨es', r1, r2, r3⟩ := ih (k + 1) es (by omega) (by simpa using hn) (by
        intro i e he
        obtain ⟨w, rfl, hw⟩ := hes (i + 1) e he
        exact ⟨w, rfl, by rw [Nat.add_right_comm, Nat.add_assoc]; exact hw⟩)
      refine ⟨some v' :: es', ?_, by simp [r2], ?_⟩
      · rw [List.drop_eq_getElem_cons hkl, appendElements, q1]
        simp only
        rw [r1]
        rfl
      · intro i e he
        cases i with
        | zero =>
          simp only [List.getElem?_cons_zero, Option.some.injEq] at he
          exact ⟨v', he.symm, q2⟩
        | succ i =>
          obtain ⟨w, hw1, hw2⟩ := r3 i e he
          exact ⟨w, hw1, by rw [Nat.add_right_comm, Nat.add_assoc] at hw2; exact hw2⟩

theorem listInv_make {inv : σ → List (Option α) → Prop} {m : Nat} (hm : m % 10 ≠ 0) :
    ∃ s : ListIndex σ, make m = some s ∧ ListInv inv m s [] := by
  have hw := (StringIndex.digits_pos hm).1
  refine ⟨_, by rw [make, MultiLevelCoder.make, if_pos hw]; rfl, rfl, ⟨_, rfl, mRep_make _ _⟩, ?_, ?_⟩
  · intro i c hc; simp at hc
  · intro i j o _ hj; simp at hj

theorem listAppends {E : Impl σ α ρ} {inv : σ → List (Option α) → Prop} {valid : α → Prop} (hE : Appends E inv valid)
    {s0 : σ} (h0 : inv s0 []) {m : Nat} (hm : m % 10 ≠ 0) :
    Appends (impl E (some s0)) (ListInv inv m) (fun l => ∀ y, some y ∈ l → valid y) := by
  refine ⟨?_⟩
  intro s col l pos h hp hl
  obtain ⟨es, mx, sz⟩ := s
  obtain ⟨h1, ⟨cs, h2, h3⟩, h4, h5⟩ := h
  simp only at h1 h2 h3 h4 h5
  subst h1 h2
  have hw := (wellDefined_iff _).1 (StringIndex.digits_pos hm).1
  obtain ⟨hsz, _⟩ := mRep_size hw.1 h3
  have hs := mRep_skip (pos - col.length) h3
  obtain ⟨cs', e1, e2⟩ := mRep_encode 1 hw.2 (min l.length mx) hs
  have hmin : min l.length mx = (l.take mx).length := by rw [List.length_take, Nat.min_comm]
  have hrl : (resize (some s0) es (min l.length mx)).length = max es.length (min l.length mx) := by
    rw [resize, List.length_append, List.length_replicate]; omega
  obtain ⟨es', r1, r2, r3⟩ := appendElements_spec hE (m := mx) hp hl (min l.length mx) 0 (resize (some s0) es (min l.length mx))
    (by rw [hmin]; omega) (by omega) (by
      intro i e he
      rw [Nat.zero_add]
      rcases resize_getElem? he with he' | ⟨hle, rfl⟩
      · exact h4 i e he'
      · exact ⟨_, rfl, elemInv_make h0 _ _ _ fun j o hj => h5 i j o hle hj⟩)
  rw [List.drop_zero] at r1
  refine ⟨⟨es', mx, ⟨.range, uniform 10 (StringIndex.lengthDigits mx), cs'⟩⟩, ?_, rfl, ⟨cs', rfl, ?_⟩, ?_, ?_⟩
  · simp only [impl, append, r1, hsz, List.length_map, MultiLevelCoder.skip, MultiLevelCoder.encode, e1, Option.map_some]
  · simpa using e2
  · intro i e he
    obtain ⟨v, hv1, hv2⟩ := r3 i e he
    rw [Nat.zero_add] at hv2
    exact ⟨v, hv1, hv2⟩
  · intro i j o hi hj
    simp only at hi
    rw [r2, hrl] at hi
    have hj' : (extend col pos l)[j]? = some o := hj
    rw [extend_getElem? hp] at hj'
    split at hj'
    · exact h5 i j o (by omega) hj'
    · split at hj'
      · obtain rfl := Option.some.inj hj'; rfl
      · split at hj'
        · obtain rfl := Option.some.inj hj'
          simp only [elemRow]
          rw [List.getElem?_eq_none (by omega)]
        · simp at hj'

/-! ## Lookup -/

/-- An element index whose `==` is exact: `m x y` says whether the operand `x` is the value `y`. -/
def ExactEqual (E : Impl σ α ρ) (inv : σ → List (Option α) → Prop) (same : ρ → α → Bool) (operand : ρ → Prop) : Prop :=
  ∀ x, operand x → ∀ (v : ValueIndex σ) rs, VRep inv v rs → v.lookupVal E .equal x = .ok (Spec.answer rs (same x) false)

theorem niLoop_spec {E : Impl σ α ρ} {inv : σ → List (Option α) → Prop} {same : ρ → α → Bool} {operand : ρ → Prop}
    (hE : ExactEqual E inv same operand) {m : Nat} {col : List (Option (List (Option α)))} (x : ρ) (hx : operand x) :
    ∀ (es : List (Option (ValueIndex σ))) (k : Nat) (b : Bm),
    (∀ (i : Nat) e, es[i]? = some e → ∃ v, e = some v ∧ ElemInv inv m (k + i) v col) → b.length ≤ col.length →
    ∃ r, niLoop E x es b = .ok r ∧ r.length ≤ col.length ∧ b.length ≤ r.length ∧
      (∀ (i : Nat) e, es[i]? = some (some e) → e.offset ≤ r.length) ∧
      ∀ (j : Nat) o, col[j]? = some o → (r.bit j = true ↔ b.bit j = true ∨
        ∃ i y, i < es.length ∧ elemRow m (k + i) o = .value y ∧ same x y = true) := by
  intro es
  induction es with
  | nil =>
    intro k b _ hb
    exact ⟨b, rfl, hb, Nat.le_refl _, by simp, fun j o _ => ⟨Or.inl, fun h => h.elim id (by rintro ⟨i, y, hi, _⟩; simp at hi)⟩⟩
  | cons e es ih =>
    intro k b hes hb
    obtain ⟨v, rfl, hv⟩ := hes 0 e rfl
    have hlk : v.lookup E .equal (.val x) = _ := hE x hx v _ hv.rep
    have hal : (Spec.answer ((col.take v.offset).map (elemRow m (k + 0))) (same x) false).length = v.offset := by
      have := hv.le
      simp [Spec.answer]; omega
    have hor := Bm.or_length b (Spec.answer ((col.take v.offset).map (elemRow m (k + 0))) (same x) false)
    have hle := hv.le
    obtain ⟨r, r1, r2, r3, r4, r5⟩ := ih (k + 1) (b.or (Spec.answer ((col.take v.offset).map (elemRow m (k + 0))) (same x) false)) (by
        intro i e he
        obtain ⟨w, hw1, hw2⟩ := hes (i + 1) e he
        exact ⟨w, hw1, by rw [Nat.add_right_comm, Nat.add_assoc]; exact hw2⟩) (by omega)
    refine ⟨r, by rw [niLoop, hlk]; exact r1, r2, by omega, ?_, ?_⟩
    · intro i e he
      cases i with
      | zero =>
        simp only [List.getElem?_cons_zero, Option.some.injEq] at he
        rw [← he]; omega
      | succ i => exact r4 i e he
    · intro j o hj
      have hbit : Bm.bit (Spec.answer ((col.take v.offset).map (elemRow m (k + 0))) (same x) false) j = true ↔
          ∃ y, elemRow m k o = .value y ∧ same x y = true := by
        by_cases hjo : j < v.offset
        · have : (Spec.answer ((col.take v.offset).map (elemRow m (k + 0))) (same x) false)[j]? =
              some (match elemRow m k o with | .absent => false | .null => false | .value y => same x y) := by
            rw [Spec.answer, List.getElem?_map, List.getElem?_map, List.getElem?_take_of_lt hjo, hj]
            rfl
          rw [Bm.bit_of_getElem? this]
          cases elemRow m k o <;> simp
        · rw [Bm.bit_of_ge (by omega)]
          have := hv.rest j o (by omega) hj
          rw [Nat.add_zero] at this
          simp [this]
      rw [r5 j o hj, Bm.bit_or, Bool.or_eq_true, hbit]
      constructor
      · rintro ((g | ⟨y, g1, g2⟩) | ⟨i, y, g1, g2, g3⟩)
        · exact Or.inl g
        · exact Or.inr ⟨0, y, by simp, g1, g2⟩
        · exact Or.inr ⟨i + 1, y, by simpa using g1, by rw [Nat.add_right_comm, Nat.add_assoc] at g2; exact g2, g3⟩
      · rintro (g | ⟨i, y, g1, g2, g3⟩)
        · exact Or.inl (Or.inl g)
        · cases i with
          | zero => exact Or.inl (Or.inr ⟨y, g2, g3⟩)
          | succ i => exact Or.inr ⟨i, y, by simpa using g1, by rw [Nat.add_right_comm, Nat.add_assoc]; exact g2, g3⟩

/-- The list contains the operand. -/
def _root_.Verif.Index.Spec.containsOperand (same : ρ → α → Bool) (x : ρ) (l : List (Option α)) : Bool :=
  l.any fun o => o.any (same x)

theorem lookupNi_spec {E : Impl σ α ρ} {inv : σ → List (Option α) → Prop} {same : ρ → α → Bool} {operand : ρ → Prop}
    (hE : ExactEqual E inv same operand) {m : Nat} {s : ListIndex σ} {col : List (Option (List (Option α)))} (h : ListInv inv m s col)
    (x : ρ) (hx : operand x) (neg : Bool) :
    ∃ r, lookupNi E s neg x = .ok r ∧ r.length ≤ col.length ∧
      ∀ (j : Nat) l, col[j]? = some (some l) → l.length ≤ m →
        (neg = false → r.bit j = Spec.containsOperand same x l) ∧
        (neg = true → (∃ (j' : Nat) (l' : List (Option α)), j ≤ j' ∧ col[j']? = some (some l') ∧ l'.take m ≠ []) →
          r.bit j = !Spec.containsOperand same x l) := by
  have hcont : ∀ (j : Nat) l, col[j]? = some (some l) → l.length ≤ m →
      ((∃ i y, i < s.elements.length ∧ elemRow m (0 + i) (some l) = .value y ∧ same x y = true) ↔
        Spec.containsOperand same x l = true) := by
    intro j l hj hl
    have htake : l.take m = l := List.take_of_length_le hl
    have hrow : ∀ i y, elemRow m i (some l) = .value y ↔ l[i]? = some (some y) := by
      intro i y
      simp only [elemRow, htake]
      cases hi : l[i]? with
      | none => simp
      | some o => cases o <;> simp [Row.of]
    rw [Spec.containsOperand, List.any_eq_true]
    constructor
    · rintro ⟨i, y, _, g2, g3⟩
      rw [Nat.zero_add, hrow] at g2
      exact ⟨some y, List.mem_of_getElem? g2, g3⟩
    · rintro ⟨o, ho, hy⟩
      obtain ⟨i, hi⟩ := List.mem_iff_getElem?.1 ho
      cases o with
      | none => simp at hy
      | some y =>
        have hr := (hrow i y).2 hi
        refine ⟨i, y, ?_, by rw [Nat.zero_add]; exact hr, hy⟩
        apply Classical.byContradiction
        intro hge
        have := h.beyond i j _ (by omega) hj
        rw [hr] at this
        simp at this
  have hlast : ∀ (j' : Nat) l', col[j']? = some (some l') → l'.take m ≠ [] →
      ∃ e, s.elements[0]? = some (some e) ∧ j' < e.offset := by
    intro j' l' hj' hne
    have hr : elemRow m 0 (some l') ≠ .absent := by
      simp only [elemRow]
      cases hl' : l'.take m with
      | nil => exact absurd hl' hne
      | cons o _ => cases o <;> simp [Row.of]
    have h0 : 0 < s.elements.length := by
      apply Classical.byContradiction
      intro hge
      exact hr (h.beyond 0 j' _ (by omega) hj')
    obtain ⟨v, hv1, hv2⟩ := h.elements 0 _ (List.getElem?_eq_getElem h0)
    refine ⟨v, by rw [List.getElem?_eq_getElem h0, hv1], ?_⟩
    apply Classical.byContradiction
    intro hge
    exact hr (hv2.rest j' _ (by omega) hj')
  unfold lookupNi
  split
  · next hemp =>
    have hnil : s.elements = [] := by simpa using hemp
    refine ⟨[], rfl, Nat.zero_le _, ?_⟩
    intro j l hj hl
    refine ⟨fun _ => ?_, fun _ ⟨j', l', _, h1, h2⟩ => ?_⟩
    · have := hcont j l hj hl
      rw [hnil] at this
      have hf : Spec.containsOperand same x l = false := by
        rw [← Bool.not_eq_true, ← this]
        rintro ⟨i, _, hi, _⟩
        simp at hi
      rw [hf]
      simp [Bm.bit]
    · obtain ⟨e, he, _⟩ := hlast j' l' h1 h2
      rw [hnil] at he
      simp at he
  · obtain ⟨r, r1, r2, r3, r4, r5⟩ := niLoop_spec hE x hx s.elements 0 [] (fun i e he => by
      rw [Nat.zero_add]; exact h.elements i e he) (by simp)
    rw [r1]
    have hrow : ∀ (j : Nat) l, col[j]? = some (some l) → l.length ≤ m → r.bit j = Spec.containsOperand same x l := by
      intro j l hj hl
      rw [Bool.eq_iff_iff, r5 j _ hj, ← hcont j l hj hl]
      simp [Bm.bit]
    refine ⟨_, rfl, ?_, ?_⟩
    · split
      · rw [Bm.not_length]; exact r2
      · exact r2
    · intro j l hj hl
      refine ⟨?_, ?_⟩
      · rintro rfl
        exact hrow j l hj hl
      · rintro rfl ⟨j', l', hjj, h1, h2⟩
        obtain ⟨e, he, hlt⟩ := hlast j' l' h1 h2
        have := r4 0 e he
        simp only [if_true]
        rw [Bm.bit_not _ (by omega), hrow j l hj hl]

/-! ## Theorems -/

/-- C15. Let `E` be an element index whose `==` is exact, and the maximal size not a multiple of ten
(the default is 256). For every history of appends of lists (with any elements, nulls among them) not
longer than the maximal size, `ni x` returns exactly the rows whose list contains `x`. `not_ni x`
returns only rows whose list does not contain `x`, and all of those that are not an empty list after
the last non-empty one. Missing: those empty lists (`C15_not_ni_refuted`), longer lists
(`C15_long_refuted`). -/
theorem C15_list_partial {E : Impl σ α ρ} {inv : σ → List (Option α) → Prop} {valid : α → Prop}
    {same : ρ → α → Bool} {operand : ρ → Prop}
    (hA : Appends E inv valid) (hE : ExactEqual E inv same operand) {s0 : σ} (h0 : inv s0 []) (m : Nat) (hm : m % 10 ≠ 0)
    (h : List (Nat × Option (List (Option α))))
    (hv : ∀ pos l, (pos, some l) ∈ h → l.length ≤ m ∧ ∀ y, some y ∈ l → valid y) (x : ρ) (hx : operand x) :
    ∃ v, index E (some s0) m h = some v ∧
      v.lookup (impl E (some s0)) .ni (.val x)
        = .ok (Spec.answer (Spec.rows h) (Spec.containsOperand same x) false) ∧
      ∃ b, v.lookup (impl E (some s0)) .notNi (.val x) = .ok b ∧ b.length = (Spec.rows h).length ∧
        (∀ i : Nat, b[i]? = some true →
          ∃ l, (Spec.rows h)[i]? = some (.value l) ∧ Spec.containsOperand same x l = false) ∧
        (∀ (i : Nat) l, (Spec.rows h)[i]? = some (.value l) → Spec.containsOperand same x l = false →
          (∃ (i' : Nat) (l' : List (Option α)), i ≤ i' ∧ (Spec.rows h)[i']? = some (.value l') ∧ l' ≠ []) → b[i]? = some true) := by
  obtain ⟨s, hs, hinv⟩ := listInv_make (inv := inv) hm
  obtain ⟨v, e1, e2⟩ := vRep_run (listAppends hA h0 hm) h (vRep_make hinv) (fun pos l hl => (hv pos l hl).2)
  have e1' : index E (some s0) m h = some v := by rw [index, hs]; exact e1
  have hcl := e2.col_length
  have hlen : ∀ (i : Nat) l, (Spec.rows h)[i]? = some (.value l) → l.length ≤ m := by
    intro i l hi
    obtain ⟨pos, hp⟩ := rows_mem h i l hi
    exact (hv pos l hp).1
  refine ⟨v, e1', ?_, ?_⟩
  · obtain ⟨r, r1, r2, r3⟩ := lookupNi_spec hE e2.impl x hx false
    refine lookupVal_frame e2 .ni x _ ⟨r, r1, Nat.le_trans r2 hcl, ?_⟩
    intro i l hi
    exact (r3 i l ((e2.col i l).2 hi) (hlen i l hi)).1 rfl
  · obtain ⟨r, r1, r2, r3⟩ := lookupNi_spec hE e2.impl x hx true
    obtain ⟨r', q1, _, q3⟩ := lookupNi_spec hE e2.impl x hx false
    obtain ⟨f1, f2⟩ := finish_spec (rs := Spec.rows h) e2 .notNi r (Nat.le_trans r2 hcl)
    refine ⟨v.finish .notNi r, ?_, f1, ?_, ?_⟩
    · have : (impl E (some s0)).lookup v.offset v.mask v.impl .notNi x = .ok r := r1
      rw [ValueIndex.lookup, ValueIndex.lookupVal, this]
    · intro i hb
      have hi : i < (Spec.rows h).length := by have := lt_of_getElem? hb; omega
      have hrow := List.getElem?_eq_getElem hi
      have hbit := Bm.bit_of_getElem? hb
      rw [f2 i _ hrow] at hbit
      cases hr : (Spec.rows h)[i] with
      | absent => rw [hr] at hbit; simp at hbit
      | null => rw [hr] at hbit; simp at hbit
      | value l =>
        rw [hr] at hbit hrow
        simp only at hbit
        refine ⟨l, hrow, ?_⟩
        -- a bit that is set in the complement is not set in the result of `ni`
        have hni := (q3 i l ((e2.col i l).2 hrow) (hlen i l hrow)).1 rfl
        rw [← hni]
        unfold lookupNi at r1 q1
        by_cases hemp : v.impl.elements.isEmpty
        · rw [if_pos hemp] at q1
          simp only [Res.ok.injEq] at q1
          rw [← q1]; simp [Bm.bit]
        · rw [if_neg hemp] at r1 q1
          cases hl : niLoop E x v.impl.elements [] with
          | ok b0 =>
            rw [hl] at r1 q1
            simp only [if_true, Bool.false_eq_true, if_false, Res.ok.injEq] at r1 q1
            rw [← r1, Bm.bit_not'] at hbit
            rw [← q1]
            rw [Bool.and_eq_true] at hbit
            simpa using hbit.2
          | error => rw [hl] at q1; simp at q1
          | undefined => rw [hl] at q1; simp at q1
    · rintro i l hi hc ⟨i', l', hii, hi', hne⟩
      have hlt := lt_of_getElem? hi
      rw [Bm.getElem?_of_bit (by omega), f2 i _ hi]
      simp only
      rw [(r3 i l ((e2.col i l).2 hi) (hlen i l hi)).2 rfl ⟨i', l', hii, (e2.col i' l').2 hi', by
        rw [List.take_of_length_le (hlen i' l' hi')]; exact hne⟩, hc]
      rfl

/-- The address index is such an element index. -/
theorem exact_address : ExactEqual AddressIndex.impl AddressIndex.AddrInv
    (fun x y => match x with | .addr x => decide (y = x) | .net _ => false) (fun x => ∃ a, x = .addr a) := by
  rintro x ⟨a, rfl⟩ v rs hr
  exact (AddressIndex.addr_answers hr).1 a

/-- C15 for lists of addresses. -/
theorem C15_list_of_addresses_partial (h : List (Nat × Option (List (Option Verif.Address.Address))))
    (hv : ∀ pos l, (pos, some l) ∈ h → l.length ≤ 256) (x : Verif.Address.Address) :
    ∃ v, index AddressIndex.impl (some AddressIndex.make) 256 h = some v ∧
      v.lookup (impl AddressIndex.impl (some AddressIndex.make)) .ni (.val (.addr x))
        = .ok (Spec.answer (Spec.rows h) (fun l => l.contains (some x)) false) := by
  obtain ⟨v, h1, h2, _⟩ := C15_list_partial AddressIndex.addrAppends exact_address AddressIndex.addrInv_make 256 (by decide) h
    (fun pos l hl => ⟨hv pos l hl, fun _ _ => trivial⟩) (.addr x) ⟨x, rfl⟩
  refine ⟨v, h1, ?_⟩
  rw [h2]
  congr 2
  funext l
  rw [Bool.eq_iff_iff, List.contains_iff_mem, Spec.containsOperand, List.any_eq_true]
  constructor
  · rintro ⟨o, ho, hx⟩
    cases o with
    | none => simp at hx
    | some y =>
      simp only [Option.any_some, decide_eq_true_eq] at hx
      rw [← hx]; exact ho
  · intro hx
    exact ⟨some x, hx, by simp⟩

/-- [10.0.0.1, null], null, a gap, [], [10.0.0.2, 10.0.0.1] and [] -/
def demoLists : List (Nat × Option (List (Option Verif.Address.Address))) :=
  [(0, some [some (.v4 10 0 0 1), none]), (1, none), (3, some []), (4, some [some (.v4 10 0 0 2), some (.v4 10 0 0 1)]), (5, some [])]

example : (index AddressIndex.impl (some AddressIndex.make) 256 demoLists).map (fun v =>
      v.lookup (impl AddressIndex.impl (some AddressIndex.make)) .ni (.val (.addr (.v4 10 0 0 1))))
    = some (.ok [true, false, false, false, true, false]) := by decide +kernel

/-- C15, refuted for empty lists at the end: row 5 is an empty list and does not contain 10.0.0.1, but
is missing from the result of `not_ni` (row 3, an empty list before a non-empty one, is there). -/
theorem C15_not_ni_refuted :
    (index AddressIndex.impl (some AddressIndex.make) 256 demoLists).map (fun v =>
      v.lookup (impl AddressIndex.impl (some AddressIndex.make)) .notNi (.val (.addr (.v4 10 0 0 1))))
    = some (.ok [false, false, false, true, false, false]) := by decide +kernel

/-- C15, refuted for lists longer than the maximum: with `max-size = 1`, the row is lost. -/
theorem C15_long_refuted :
    (index AddressIndex.impl (some AddressIndex.make) 1 [(0, some [none, some (.v4 10 0 0 1)])]).map (fun v =>
      v.lookup (impl AddressIndex.impl (some AddressIndex.make)) .ni (.val (.addr (.v4 10 0 0 1))))
    = some (.ok [false]) := by decide +kernel

end ListIndex

end Verif.Index
