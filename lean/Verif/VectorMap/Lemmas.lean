import Verif.VectorMap.Spec
/-! # Lemmas about keyed collections -/
namespace Verif.VectorMap

set_option linter.unusedSectionVars false
variable {κ β : Type} [DecidableEq κ]

/-- The first value of a key. -/
def assoc (xs : List (κ × β)) (k : κ) : Option β := (xs.find? (·.1 = k)).map (·.2)

theorem assoc_nil (k : κ) : assoc ([] : List (κ × β)) k = none := rfl

theorem assoc_cons (e : κ × β) (xs : List (κ × β)) (k : κ) : assoc (e :: xs) k = if e.1 = k then some e.2 else assoc xs k := by
  unfold assoc
  by_cases h : e.1 = k <;> simp [h]

theorem assoc_append (xs ys : List (κ × β)) (k : κ) : assoc (xs ++ ys) k = (assoc xs k).or (assoc ys k) := by
  induction xs with
  | nil => simp [assoc_nil]
  | cons e xs ih => rw [List.cons_append, assoc_cons, assoc_cons, ih]; split <;> rfl

theorem assoc_none (xs : List (κ × β)) (k : κ) : assoc xs k = none ↔ k ∉ xs.map (·.1) := by
  induction xs with
  | nil => simp [assoc_nil]
  | cons e xs ih =>
    rw [assoc_cons]
    by_cases h : e.1 = k
    · simp [h]
    · simp only [h, if_false, ih, List.map_cons, List.mem_cons, not_or]
      exact ⟨fun hx => ⟨fun e' => h e'.symm, hx⟩, fun hx => hx.2⟩

theorem assoc_filter (xs : List (κ × β)) (k k' : κ) : assoc (xs.filter (·.1 ≠ k)) k' = if k' = k then none else assoc xs k' := by
  induction xs with
  | nil => simp [assoc_nil]
  | cons e xs ih =>
    by_cases h : e.1 = k
    · rw [List.filter_cons_of_neg (by simp [h]), ih, assoc_cons]
      by_cases hk : k' = k
      · simp [hk]
      · rw [if_neg hk, if_neg hk, if_neg (fun e' : e.1 = k' => hk (e'.symm.trans h))]
    · rw [List.filter_cons_of_pos (by simp [h]), assoc_cons, assoc_cons, ih]
      by_cases hk : k' = k
      · simp only [hk, if_true]; rw [if_neg h]
      · simp [hk]

/-- Keys are unique, and a policy finds the position of a key exactly if it is there. -/
def Good (p : Policy κ β) (xs : List (κ × β)) : Prop := ∀ k i, p.lookup xs k = some i ↔ (xs.map (·.1))[i]? = some k

theorem nodup_idx : ∀ (ks : List κ), ks.Nodup → ∀ (i j : Nat) (k : κ), ks[i]? = some k → ks[j]? = some k → i = j
  | [], _, i, j, k, h, _ => by simp at h
  | a :: ks, hn, 0, 0, k, _, _ => rfl
  | a :: ks, hn, 0, j + 1, k, h1, h2 => by
    simp only [List.getElem?_cons_zero, Option.some.injEq] at h1
    simp only [List.getElem?_cons_succ] at h2
    subst h1
    exact ((List.nodup_cons.1 hn).1 (List.mem_of_getElem? h2)).elim
  | a :: ks, hn, i + 1, 0, k, h1, h2 => by
    simp only [List.getElem?_cons_zero, Option.some.injEq] at h2
    simp only [List.getElem?_cons_succ] at h1
    subst h2
    exact ((List.nodup_cons.1 hn).1 (List.mem_of_getElem? h1)).elim
  | a :: ks, hn, i + 1, j + 1, k, h1, h2 => by
    simp only [List.getElem?_cons_succ] at h1 h2
    rw [nodup_idx ks (List.nodup_cons.1 hn).2 i j k h1 h2]

theorem assoc_at : ∀ (xs : List (κ × β)), (xs.map (·.1)).Nodup → ∀ (i : Nat) (k : κ) (v : β), xs[i]? = some (k, v) → assoc xs k = some v
  | [], _, i, k, v, h => by simp at h
  | e :: xs, hn, 0, k, v, h => by
    simp only [List.getElem?_cons_zero, Option.some.injEq] at h
    subst h
    rw [assoc_cons, if_pos rfl]
  | e :: xs, hn, i + 1, k, v, h => by
    simp only [List.getElem?_cons_succ] at h
    rw [List.map_cons] at hn
    have hm : k ∈ xs.map (·.1) := List.mem_map.2 ⟨(k, v), List.mem_of_getElem? h, rfl⟩
    have hne : e.1 ≠ k := fun e' => (List.nodup_cons.1 hn).1 (e' ▸ hm)
    rw [assoc_cons, if_neg hne]
    exact assoc_at xs (List.nodup_cons.1 hn).2 i k v h

theorem find_assoc (p : Policy κ β) (xs : List (κ × β)) (hn : (xs.map (·.1)).Nodup) (hg : Good p xs) (k : κ) : find p xs k = assoc xs k := by
  unfold find
  cases h : p.lookup xs k with
  | none =>
    symm
    rw [Option.bind_none, assoc_none]
    intro hm
    obtain ⟨i, hi⟩ := List.getElem?_of_mem hm
    rw [(hg k i).2 hi] at h
    cases h
  | some i =>
    have hi := (hg k i).1 h
    rw [List.getElem?_map] at hi
    rw [Option.bind_some]
    cases hx : xs[i]? with
    | none => rw [hx] at hi; cases hi
    | some e =>
      rw [hx] at hi
      simp only [Option.map_some, Option.some.injEq] at hi
      subst hi
      exact (assoc_at xs hn i e.1 e.2 hx).symm

theorem lookup_none (p : Policy κ β) (xs : List (κ × β)) (hg : Good p xs) (k : κ) : p.lookup xs k = none ↔ k ∉ xs.map (·.1) := by
  constructor
  · intro h hm
    obtain ⟨i, hi⟩ := List.getElem?_of_mem hm
    rw [(hg k i).2 hi] at h
    cases h
  · intro h
    cases hl : p.lookup xs k with
    | none => rfl
    | some i => exact (h (List.mem_of_getElem? ((hg k i).1 hl))).elim

theorem put_keys (v : β) : ∀ (xs : List (κ × β)) (i : Nat), (put xs i v).map (·.1) = xs.map (·.1)
  | [], i => by cases i <;> rfl
  | e :: xs, 0 => rfl
  | e :: xs, i + 1 => by
    have := put_keys v xs i
    simp only [put, List.modify_succ_cons, List.map_cons] at this ⊢
    rw [this]

theorem put_assoc (v : β) (k : κ) : ∀ (xs : List (κ × β)) (i : Nat), (xs.map (·.1)).Nodup → (xs.map (·.1))[i]? = some k → ∀ k',
    assoc (put xs i v) k' = if k' = k then some v else assoc xs k'
  | [], i, _, h, k' => by simp at h
  | e :: xs, 0, hn, h, k' => by
    simp only [List.map_cons, List.getElem?_cons_zero, Option.some.injEq] at h
    subst h
    simp only [put, List.modify_zero_cons, assoc_cons]
    by_cases hk : k' = e.1
    · simp [hk]
    · rw [if_neg (fun h => hk h.symm), if_neg hk, if_neg (fun h => hk h.symm)]
  | e :: xs, i + 1, hn, h, k' => by
    simp only [List.map_cons, List.getElem?_cons_succ] at h hn
    have ih := put_assoc v k xs i (List.nodup_cons.1 hn).2 h k'
    have hne : e.1 ≠ k := fun e' => (List.nodup_cons.1 hn).1 (e' ▸ List.mem_of_getElem? h)
    simp only [put, List.modify_succ_cons, assoc_cons] at ih ⊢
    rw [ih]
    by_cases hk : k' = k
    · rw [if_neg (fun h => hne (h.trans hk)), if_pos hk, if_pos hk]
    · rw [if_neg hk, if_neg hk]

/-! ## Searching -/

/-- If the elements that satisfy `p` come first, `lowerBound` finds their number. -/
theorem lowerBound_spec {γ : Type} (p : γ → Bool) (xs : List γ) (j : Nat) (hj : j ≤ xs.length)
    (hp : ∀ i e, xs[i]? = some e → (p e = true ↔ i < j)) : ∀ (fuel first len : Nat), len ≤ fuel → first ≤ j → j ≤ first + len →
    first + len ≤ xs.length → lowerBound p xs fuel first len = j
  | 0, first, len, h1, h2, h3, _ => by simp only [lowerBound]; omega
  | fuel + 1, first, len, h1, h2, h3, h4 => by
    simp only [lowerBound]
    by_cases hl : len = 0
    · rw [if_pos hl]; omega
    · rw [if_neg hl]
      have hlt : first + len / 2 < xs.length := by omega
      rw [List.getElem?_eq_getElem hlt]
      have hpe := hp _ _ (List.getElem?_eq_getElem hlt)
      simp only []
      by_cases hb : p xs[first + len / 2] = true
      · rw [if_pos hb]
        have := hpe.1 hb
        exact lowerBound_spec p xs j hj hp fuel _ _ (by omega) (by omega) (by omega) (by omega)
      · rw [if_neg hb]
        have : ¬ first + len / 2 < j := fun h => hb (hpe.2 h)
        exact lowerBound_spec p xs j hj hp fuel _ _ (by omega) (by omega) (by omega) (by omega)

/-- In a sorted list, the elements less than a key come first. -/
theorem sorted_split (lt : κ → κ → Bool) (ho : Spec.Order lt) (k : κ) : ∀ (xs : List (κ × β)), (xs.map (·.1)).Pairwise (fun a b => lt a b = true) →
    ∃ as bs, xs = as ++ bs ∧ (∀ e ∈ as, lt e.1 k = true) ∧ (∀ e ∈ bs, lt e.1 k = false)
  | [], _ => ⟨[], [], rfl, by simp, by simp⟩
  | e :: xs, h => by
    simp only [List.map_cons, List.pairwise_cons] at h
    by_cases he : lt e.1 k = true
    · obtain ⟨as, bs, h1, h2, h3⟩ := sorted_split lt ho k xs h.2
      refine ⟨e :: as, bs, by rw [h1]; rfl, ?_, h3⟩
      intro x hx
      cases hx with
      | head => exact he
      | tail _ hx => exact h2 x hx
    · refine ⟨[], e :: xs, rfl, by simp, ?_⟩
      intro x hx
      have he' : lt e.1 k = false := by simpa using he
      cases hx with
      | head => exact he'
      | tail _ hx =>
        have hex := h.1 x.1 (List.mem_map.2 ⟨x, hx, rfl⟩)
        by_cases hxk : lt x.1 k = true
        · rw [ho.trans _ _ _ hex hxk] at he'; cases he'
        · simpa using hxk

theorem lowerBound_split (lt : κ → κ → Bool) (k : κ) (as bs : List (κ × β)) (h2 : ∀ e ∈ as, lt e.1 k = true) (h3 : ∀ e ∈ bs, lt e.1 k = false) :
    lowerBound (fun e => lt e.1 k) (as ++ bs) (as ++ bs).length 0 (as ++ bs).length = as.length := by
  apply lowerBound_spec _ _ as.length (by simp) _ _ _ _ (Nat.le_refl _) (Nat.zero_le _) (by simp) (by simp)
  intro i e he
  by_cases hi : i < as.length
  · rw [List.getElem?_append_left hi] at he
    exact ⟨fun _ => hi, fun _ => h2 e (List.mem_of_getElem? he)⟩
  · rw [List.getElem?_append_right (by omega)] at he
    have := h3 e (List.mem_of_getElem? he)
    simp [this, hi]

/-! ## The two policies -/

theorem stable_good (xs : List (κ × β)) (hn : (xs.map (·.1)).Nodup) : Good (stable (κ := κ) (β := β)) xs := by
  intro k i
  show xs.findIdx? (·.1 = k) = some i ↔ _
  rw [List.findIdx?_eq_some_iff_getElem]
  constructor
  · rintro ⟨h, h1, _⟩
    rw [List.getElem?_map, List.getElem?_eq_getElem h]
    simpa using h1
  · intro h
    have hi : i < xs.length := by
      have := List.getElem?_eq_some_iff.1 h
      simpa using this.1
    refine ⟨hi, ?_, ?_⟩
    · rw [List.getElem?_map, List.getElem?_eq_getElem hi] at h
      simpa using h
    · intro j hj
      simp only [decide_eq_true_eq]
      intro he
      have : (xs.map (·.1))[j]? = some k := by rw [List.getElem?_map, List.getElem?_eq_getElem (by omega)]; simp [he]
      have := nodup_idx _ hn _ _ _ h this
      omega

theorem sorted_nodup (lt : κ → κ → Bool) (ho : Spec.Order lt) (ks : List κ) (h : ks.Pairwise fun a b => lt a b = true) : ks.Nodup := by
  apply List.Pairwise.imp _ h
  intro a b hab e
  subst e
  rw [ho.irrefl] at hab
  cases hab

theorem flat_good (lt : κ → κ → Bool) (ho : Spec.Order lt) (xs : List (κ × β)) (hs : (xs.map (·.1)).Pairwise fun a b => lt a b = true) :
    Good (flat lt) xs := by
  intro k i
  obtain ⟨as, bs, e, h2, h3⟩ := sorted_split lt ho k xs hs
  have hn := sorted_nodup lt ho _ hs
  subst e
  show (match (as ++ bs)[lowerBound _ _ _ _ _]? with | none => none | some e => if lt k e.1 then none else some _) = some i ↔ _
  rw [lowerBound_split lt k as bs h2 h3, List.getElem?_append_right (Nat.le_refl _), Nat.sub_self]
  cases bs with
  | nil =>
    simp only [List.getElem?_nil, reduceCtorEq, false_iff]
    intro h
    obtain ⟨e, he, hk⟩ := List.mem_map.1 (List.mem_of_getElem? h)
    have := h2 e (by simpa using he)
    rw [hk, ho.irrefl] at this
    cases this
  | cons b bs =>
    simp only [List.getElem?_cons_zero]
    have hb := h3 b (by simp)
    have hat : ((as ++ b :: bs).map (·.1))[as.length]? = some b.1 := by simp
    by_cases hlt : lt k b.1 = true
    · rw [if_pos hlt]
      simp only [reduceCtorEq, false_iff]
      intro h
      obtain ⟨e, he, hk⟩ := List.mem_map.1 (List.mem_of_getElem? h)
      rcases List.mem_append.1 he with he | he
      · have := h2 e he
        rw [hk, ho.irrefl] at this; cases this
      · cases he with
        | head => rw [hk, ho.irrefl] at hlt; cases hlt
        | tail _ he =>
          have hp := (List.pairwise_append.1 (by simpa using hs)).2.1
          have hbe := (List.pairwise_cons.1 hp).1 e.1 (List.mem_map.2 ⟨e, he, rfl⟩)
          have := ho.trans _ _ _ hlt hbe
          rw [hk, ho.irrefl] at this; cases this
    · rw [if_neg hlt]
      have hkb : b.1 = k := by
        by_cases hne : b.1 = k
        · exact hne
        · rcases ho.total _ _ hne with h | h
          · rw [h] at hb; cases hb
          · exact (hlt h).elim
      simp only [Option.some.injEq]
      constructor
      · rintro rfl; rw [hat, hkb]
      · intro h; exact nodup_idx _ hn _ _ k (hkb ▸ hat) h

theorem insertIdx_split (as bs : List (κ × β)) (x : κ × β) : (as ++ bs).insertIdx as.length x = as ++ x :: bs := by
  induction as with
  | nil => rfl
  | cons a as ih => simp [ih]

/-- What adding an entry does: nothing if its key is there, and else the entry is put between two parts. -/
theorem flat_add (lt : κ → κ → Bool) (ho : Spec.Order lt) (xs : List (κ × β)) (hs : (xs.map (·.1)).Pairwise fun a b => lt a b = true) (x : κ × β) :
    (x.1 ∈ xs.map (·.1) ∧ (flat lt).add xs x = (xs, false)) ∨
    (x.1 ∉ xs.map (·.1) ∧ ∃ as bs, xs = as ++ bs ∧ (flat lt).add xs x = (as ++ x :: bs, true) ∧ ((as ++ x :: bs).map (·.1)).Pairwise fun a b => lt a b = true) := by
  obtain ⟨as, bs, e, h2, h3⟩ := sorted_split lt ho x.1 xs hs
  have hnl := lookup_none (flat lt) xs (flat_good lt ho xs hs) x.1
  subst e
  have hadd : (flat lt).add (as ++ bs) x = match bs[0]? with
      | none => ((as ++ bs).insertIdx as.length x, true)
      | some e => if lt x.1 e.1 then ((as ++ bs).insertIdx as.length x, true) else (as ++ bs, false) := by
    show (match (as ++ bs)[lowerBound _ _ _ _ _]? with | none => _ | some e => _) = _
    rw [lowerBound_split lt x.1 as bs h2 h3, List.getElem?_append_right (Nat.le_refl _), Nat.sub_self]
  have hlook : (flat lt).lookup (as ++ bs) x.1 = match bs[0]? with
      | none => none
      | some e => if lt x.1 e.1 then none else some as.length := by
    show (match (as ++ bs)[lowerBound _ _ _ _ _]? with | none => _ | some e => _) = _
    rw [lowerBound_split lt x.1 as bs h2 h3, List.getElem?_append_right (Nat.le_refl _), Nat.sub_self]
  have hins := insertIdx_split as bs x
  have hsort : (∀ e ∈ bs, lt x.1 e.1 = true) → ((as ++ x :: bs).map (·.1)).Pairwise fun a b => lt a b = true := by
    intro hb
    rw [List.map_append] at hs
    obtain ⟨p1, p2, p3⟩ := List.pairwise_append.1 hs
    rw [List.map_append, List.map_cons]
    refine List.pairwise_append.2 ⟨p1, List.pairwise_cons.2 ⟨?_, p2⟩, ?_⟩
    · intro a ha
      obtain ⟨e, he, rfl⟩ := List.mem_map.1 ha
      exact hb e he
    · intro a ha b hb'
      obtain ⟨e, he, rfl⟩ := List.mem_map.1 ha
      cases hb' with
      | head => exact h2 e he
      | tail _ hb' => exact p3 _ ha _ hb'
  cases bs with
  | nil =>
    simp only [List.getElem?_nil] at hadd hlook
    exact .inr ⟨hnl.1 hlook, as, [], rfl, by rw [hadd, hins], hsort (by simp)⟩
  | cons b bs =>
    simp only [List.getElem?_cons_zero] at hadd hlook
    by_cases hlt : lt x.1 b.1 = true
    · rw [if_pos hlt] at hadd hlook
      refine .inr ⟨hnl.1 hlook, as, b :: bs, rfl, by rw [hadd, hins], hsort ?_⟩
      intro e he
      cases he with
      | head => exact hlt
      | tail _ he =>
        rw [List.map_append, List.map_cons] at hs
        have hp := (List.pairwise_append.1 hs).2.1
        exact ho.trans _ _ _ hlt ((List.pairwise_cons.1 hp).1 e.1 (List.mem_map.2 ⟨e, he, rfl⟩))
    · rw [if_neg hlt] at hadd hlook
      refine .inl ⟨?_, hadd⟩
      by_cases hm : x.1 ∈ (as ++ b :: bs).map (·.1)
      · exact hm
      · rw [hnl.2 hm] at hlook; cases hlook

/-- What a policy guarantees, for an invariant of vectors. -/
structure Sound (p : Policy κ β) (I : List κ → Prop) : Prop where
  nil : I []
  nodup : ∀ ks, I ks → ks.Nodup
  filter : ∀ ks f, I ks → I (ks.filter f)
  good : ∀ xs, I (xs.map (·.1)) → Good p xs
  add : ∀ xs x, I (xs.map (·.1)) → (x.1 ∈ xs.map (·.1) ∧ p.add xs x = (xs, false)) ∨
    (x.1 ∉ xs.map (·.1) ∧ ∃ as bs, xs = as ++ bs ∧ p.add xs x = (as ++ x :: bs, true) ∧ I ((as ++ x :: bs).map (·.1)))

theorem stable_sound : Sound (stable (κ := κ) (β := β)) List.Nodup where
  nil := List.nodup_nil
  nodup _ h := h
  filter _ _ h := h.filter _
  good := stable_good
  add xs x hn := by
    have hl := lookup_none stable xs (stable_good xs hn) x.1
    change xs.findIdx? (·.1 = x.1) = none ↔ _ at hl
    show (_ ∧ (match xs.findIdx? (·.1 = x.1) with | none => (xs ++ [x], true) | some _ => (xs, false)) = _) ∨
      (_ ∧ ∃ as bs, _ ∧ (match xs.findIdx? (·.1 = x.1) with | none => (xs ++ [x], true) | some _ => (xs, false)) = _ ∧ _)
    cases h : xs.findIdx? (·.1 = x.1) with
    | none =>
      have := hl.1 h
      refine .inr ⟨this, xs, [], by simp, rfl, ?_⟩
      rw [List.map_append]
      refine List.nodup_append.2 ⟨hn, by simp, ?_⟩
      intro a ha b hb e
      simp only [List.map_cons, List.map_nil, List.mem_singleton] at hb
      exact this (by rw [← hb, ← e]; exact ha)
    | some i =>
      refine .inl ⟨?_, rfl⟩
      by_cases hm : x.1 ∈ xs.map (·.1)
      · exact hm
      · rw [hl.2 hm] at h; cases h

theorem flat_sound (lt : κ → κ → Bool) (ho : Spec.Order lt) : Sound (flat (β := β) lt) (List.Pairwise fun a b => lt a b = true) where
  nil := List.Pairwise.nil
  nodup := sorted_nodup lt ho
  filter _ _ h := h.filter _
  good := flat_good lt ho
  add xs x h := flat_add lt ho xs h x

theorem assoc_insert (as bs : List (κ × β)) (x : κ × β) (h : x.1 ∉ (as ++ bs).map (·.1)) (k : κ) :
    assoc (as ++ x :: bs) k = if k = x.1 then some x.2 else assoc (as ++ bs) k := by
  rw [assoc_append, assoc_append, assoc_cons]
  by_cases hk : x.1 = k
  · subst hk
    have : assoc as x.1 = none := (assoc_none _ _).2 fun hm => h (by rw [List.map_append]; exact List.mem_append_left _ hm)
    simp [this]
  · rw [if_neg hk, if_neg (fun e => hk e.symm)]

theorem filter_one (k : κ) : ∀ (ks : List κ), ks.Nodup → k ∈ ks → (ks.filter (· ≠ k)).length + 1 = ks.length
  | [], _, h => by simp at h
  | a :: ks, hn, h => by
    have hn' := List.nodup_cons.1 hn
    by_cases ha : a = k
    · subst ha
      rw [List.filter_cons_of_neg (by simp), List.filter_eq_self.2]
      · rfl
      · intro b hb
        simp only [ne_eq, decide_not, Bool.not_eq_true', decide_eq_false_iff_not]
        rintro rfl
        exact hn'.1 hb
    · rw [List.filter_cons_of_pos (by simp [ha])]
      have := filter_one k ks hn'.2 (by cases h with | head => exact (ha rfl).elim | tail _ h => exact h)
      simp only [List.length_cons]
      omega

theorem erase_eq (junk xs : List (κ × β)) (hn : (xs.map (·.1)).Nodup) (k : κ) :
    erase junk xs k = (xs.filter (·.1 ≠ k), if assoc xs k = none then 0 else 1) := by
  have hmap : (xs.filter (·.1 ≠ k)).map (·.1) = (xs.map (·.1)).filter (· ≠ k) := by rw [List.filter_map]; rfl
  unfold erase
  simp only []
  by_cases hm : k ∈ xs.map (·.1)
  · have h1 := filter_one k _ hn hm
    rw [← hmap, List.length_map, List.length_map] at h1
    rw [if_neg (by omega), if_neg (fun h => (assoc_none xs k).1 h hm)]
    have : xs.length - (xs.filter (·.1 ≠ k)).length = 1 := by omega
    rw [this]
    cases junk <;> simp
  · have : xs.filter (·.1 ≠ k) = xs := by
      rw [List.filter_eq_self]
      intro e he
      simp only [ne_eq, decide_not, Bool.not_eq_true', decide_eq_false_iff_not]
      intro e'
      exact hm (List.mem_map.2 ⟨e, he, e'⟩)
    rw [this, if_pos rfl, if_pos ((assoc_none xs k).2 hm)]

/-- One operation does to a vector what it does to a function. -/
theorem step_sound (p : Policy κ β) (I : List κ → Prop) (hp : Sound p I) (d : β) (xs : List (κ × β)) (hI : I (xs.map (·.1))) (o : Op κ β) :
    I ((step p d xs o).1.map (·.1)) ∧ (∀ k, assoc (step p d xs o).1 k = Spec.step (assoc xs) o k) ∧ (step p d xs o).2 = Spec.result (assoc xs) o := by
  have hnd := hp.nodup _ hI
  cases o with
  | insert k v =>
    show I ((p.add xs (k, v)).1.map (·.1)) ∧ (∀ k', assoc (p.add xs (k, v)).1 k' = if k' = k ∧ assoc xs k = none then some v else assoc xs k') ∧
      (if (p.add xs (k, v)).2 then 1 else 0) = if assoc xs k = none then 1 else 0
    rcases hp.add xs (k, v) hI with ⟨hm, e⟩ | ⟨hm, as, bs, rfl, e, hI'⟩
    · rw [e]
      have : assoc xs k ≠ none := fun h => (assoc_none xs k).1 h hm
      refine ⟨hI, ?_, ?_⟩ <;> simp [this]
    · rw [e]
      have : assoc (as ++ bs) k = none := (assoc_none _ k).2 hm
      refine ⟨hI', ?_, by simp [this]⟩
      intro k'
      rw [assoc_insert as bs (k, v) hm]
      simp [this]
  | assign k v =>
    simp only [step, Spec.step, Spec.result, assign]
    cases hl : p.lookup xs k with
    | some i =>
      have hi := (hp.good xs hI k i).1 hl
      refine ⟨by simp only [put_keys]; exact hI, ?_, trivial⟩
      intro k'
      simp only []
      rw [put_assoc v k xs i hnd hi]
    | none =>
      have hm := (lookup_none p xs (hp.good xs hI) k).1 hl
      rcases hp.add xs (k, d) hI with ⟨hm', _⟩ | ⟨_, as, bs, rfl, e, hI'⟩
      · exact (hm hm').elim
      · simp only [e]
        have hmem : k ∈ (as ++ (k, d) :: bs).map (·.1) := by simp
        cases hl2 : p.lookup (as ++ (k, d) :: bs) k with
        | none => exact ((lookup_none p _ (hp.good _ hI') k).1 hl2 hmem).elim
        | some i =>
          have hi := (hp.good _ hI' k i).1 hl2
          refine ⟨by simp only [put_keys]; exact hI', ?_, trivial⟩
          intro k'
          simp only []
          rw [put_assoc v k _ i (hp.nodup _ hI') hi, assoc_insert as bs (k, d) hm]
          by_cases hk : k' = k <;> simp [hk]
  | erase k junk =>
    simp only [step, Spec.step, Spec.result]
    rw [erase_eq junk xs hnd k]
    refine ⟨?_, fun k' => assoc_filter xs k k', rfl⟩
    have hmap : (xs.filter (·.1 ≠ k)).map (·.1) = (xs.map (·.1)).filter (· ≠ k) := by rw [List.filter_map]; rfl
    simp only [hmap]
    exact hp.filter _ _ hI

theorem run_sound (p : Policy κ β) (I : List κ → Prop) (hp : Sound p I) (d : β) (ops : List (Op κ β)) :
    I ((run p d ops).map (·.1)) ∧ ∀ k, assoc (run p d ops) k = Spec.run ops k := by
  have : ∀ (ops : List (Op κ β)) (xs : List (κ × β)) (m : κ → Option β), I (xs.map (·.1)) → (∀ k, assoc xs k = m k) →
      I ((ops.foldl (fun xs o => (step p d xs o).1) xs).map (·.1)) ∧ ∀ k, assoc (ops.foldl (fun xs o => (step p d xs o).1) xs) k = ops.foldl Spec.step m k := by
    intro ops
    induction ops with
    | nil => intro xs m h1 h2; exact ⟨h1, h2⟩
    | cons o ops ih =>
      intro xs m h1 h2
      obtain ⟨s1, s2, _⟩ := step_sound p I hp d xs h1 o
      have e : assoc xs = m := funext h2
      exact ih _ _ s1 (fun k => by rw [s2 k, e])
  exact this ops [] _ hp.nil (fun k => rfl)

end Verif.VectorMap
