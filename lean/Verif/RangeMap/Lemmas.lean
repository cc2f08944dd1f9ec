import Verif.RangeMap.Model

set_option linter.unusedSectionVars false

namespace Verif.RangeMap

variable {V : Type} [DecidableEq V]

/-- Sorted by the left endpoints. -/
abbrev Sorted (m : Map V) : Prop := m.Pairwise fun a b => a.left < b.left

/-- The intervals are ordered, not empty and disjoint. -/
structure WF (m : Map V) : Prop where
  sorted : Sorted m
  nonempty : ∀ e ∈ m, e.left < e.right
  disjoint : ∀ a ∈ m, ∀ b ∈ m, a.left < b.left → a.right ≤ b.left

/-- The point `k` has the value `v`. -/
def Holds (m : Map V) (k : Nat) (v : V) : Prop := ∃ e ∈ m, e.left ≤ k ∧ k < e.right ∧ e.value = v

theorem sorted_key {m : Map V} (h : Sorted m) {a b : Entry V} (ha : a ∈ m) (hb : b ∈ m) (e : a.left = b.left) : a = b := by
  induction m with
  | nil => simp at ha
  | cons x m ih =>
    replace h := List.pairwise_cons.1 h
    rcases List.mem_cons.1 ha with ha | ha <;> rcases List.mem_cons.1 hb with hb | hb
    · rw [ha, hb]
    · have := h.1 b hb; rw [ha] at e; omega
    · have := h.1 a ha; rw [hb] at e; omega
    · exact ih h.2 ha hb

theorem find?_sorted {m : Map V} (h : Sorted m) {k : Nat} :
    (∀ x, lowerBound m k = some x → x ∈ m ∧ k ≤ x.left ∧ ∀ e ∈ m, k ≤ e.left → x.left ≤ e.left) ∧
    (lowerBound m k = none → ∀ e ∈ m, e.left < k) := by
  unfold lowerBound
  constructor
  · intro x hx
    have hm := List.mem_of_find?_eq_some hx
    have hp := List.find?_some hx
    refine ⟨hm, by simpa using hp, ?_⟩
    intro e he hke
    induction m with
    | nil => simp at hm
    | cons y m ih =>
      replace h := List.pairwise_cons.1 h
      rw [List.find?_cons] at hx
      cases hy : decide (k ≤ y.left) with
      | true =>
        rw [hy] at hx
        simp only [Option.some.injEq] at hx
        subst hx
        rcases List.mem_cons.1 he with rfl | he
        · exact Nat.le_refl _
        · exact Nat.le_of_lt (h.1 e he)
      | false =>
        rw [hy] at hx
        have hy' : ¬ k ≤ y.left := by simpa using hy
        rcases List.mem_cons.1 he with rfl | he
        · omega
        · exact ih h.2 hx (List.mem_of_find?_eq_some hx) he
  · intro hx e he
    have := List.find?_eq_none.1 hx e he
    simpa using this

theorem next_eq (m : Map V) (k : Nat) : next m k = lowerBound m (k + 1) := rfl

theorem getLast?_sorted {m : Map V} (h : Sorted m) {x : Entry V} (hx : m.getLast? = some x) :
    x ∈ m ∧ ∀ e ∈ m, e.left ≤ x.left := by
  obtain ⟨ys, rfl⟩ := List.getLast?_eq_some_iff.1 hx
  refine ⟨by simp, ?_⟩
  intro e he
  replace h := List.pairwise_append.1 h
  rcases List.mem_append.1 he with he | he
  · exact Nat.le_of_lt (h.2.2 e he x (by simp))
  · rw [List.mem_singleton.1 he]; exact Nat.le_refl _

theorem prev_sorted {m : Map V} (h : Sorted m) {k : Nat} :
    (∀ x, prev m k = some x → x ∈ m ∧ x.left < k ∧ ∀ e ∈ m, e.left < k → e.left ≤ x.left) ∧
    (prev m k = none → ∀ e ∈ m, k ≤ e.left) := by
  unfold prev
  constructor
  · intro x hx
    obtain ⟨h1, h2⟩ := getLast?_sorted (List.Pairwise.filter _ h) hx
    rw [List.mem_filter] at h1
    refine ⟨h1.1, by simpa using h1.2, ?_⟩
    intro e he hek
    exact h2 e (List.mem_filter.2 ⟨he, by simpa using hek⟩)
  · intro hx e he
    rw [List.getLast?_eq_none_iff, List.filter_eq_nil_iff] at hx
    have := hx e he
    simpa using this

theorem any_key (m : Map V) (l : Nat) : (m.any fun e => decide (e.left = l)) = true ↔ ∃ e ∈ m, e.left = l := by
  simp

theorem mem_emplace {m : Map V} {l r : Nat} {v : V} (hn : ∀ e ∈ m, e.left ≠ l) (e : Entry V) :
    e ∈ emplace m l r v ↔ e ∈ m ∨ e = ⟨l, r, v⟩ := by
  have hany : ¬ (m.any fun e => decide (e.left = l)) = true := by
    rw [any_key]; rintro ⟨e, he, h⟩; exact hn e he h
  rw [emplace, if_neg hany, List.mem_append, List.mem_cons]
  constructor
  · rintro (h | h | h)
    · exact Or.inl (List.takeWhile_subset _ h)
    · exact Or.inr h
    · exact Or.inl (List.dropWhile_subset _ h)
  · rintro (h | h)
    · rw [← List.takeWhile_append_dropWhile (p := fun e : Entry V => decide (e.left < l)) (l := m)] at h
      rcases List.mem_append.1 h with h | h
      · exact Or.inl h
      · exact Or.inr (Or.inr h)
    · exact Or.inr (Or.inl h)

theorem dropWhile_ge {m : Map V} (h : Sorted m) {l : Nat} :
    ∀ e ∈ m.dropWhile (fun e => decide (e.left < l)), l ≤ e.left := by
  induction m with
  | nil => simp
  | cons x m ih =>
    replace h := List.pairwise_cons.1 h
    intro e he
    rw [List.dropWhile_cons] at he
    split at he
    · exact ih h.2 e he
    · next hx =>
      have hx' : ¬ x.left < l := by simpa using hx
      rcases List.mem_cons.1 he with rfl | he
      · omega
      · have := h.1 e he; omega

theorem takeWhile_lt {m : Map V} {l : Nat} : ∀ e ∈ m.takeWhile (fun e => decide (e.left < l)), e.left < l := by
  induction m with
  | nil => simp
  | cons x m ih =>
    intro e he
    rw [List.takeWhile_cons] at he
    split at he
    · next hx =>
      rcases List.mem_cons.1 he with rfl | he
      · simpa using hx
      · exact ih e he
    · simp at he

theorem sorted_emplace {m : Map V} (h : Sorted m) (l r : Nat) (v : V) : Sorted (emplace m l r v) := by
  rw [emplace]
  split
  · exact h
  · next hany =>
    have hn : ∀ e ∈ m, e.left ≠ l := by
      intro e he hl
      exact hany ((any_key m l).2 ⟨e, he, hl⟩)
    rw [Sorted, List.pairwise_append, List.pairwise_cons]
    refine ⟨h.sublist (List.takeWhile_sublist _), ⟨?_, h.sublist (List.dropWhile_sublist _)⟩, ?_⟩
    · intro e he
      have h1 := dropWhile_ge h e he
      have h2 := hn e (List.dropWhile_subset _ he)
      show l < e.left
      omega
    · intro a ha b hb
      have h1 := takeWhile_lt a ha
      rcases List.mem_cons.1 hb with rfl | hb
      · exact h1
      · have := dropWhile_ge h b hb; omega

theorem mem_eraseKey {m : Map V} {k : Nat} {e : Entry V} : e ∈ eraseKey m k ↔ e ∈ m ∧ e.left ≠ k := by
  simp [eraseKey]

theorem sorted_eraseKey {m : Map V} (h : Sorted m) (k : Nat) : Sorted (eraseKey m k) := h.filter _

theorem mem_setRight {m : Map V} (h : Sorted m) {i : Entry V} (hi : i ∈ m) {r : Nat} {e : Entry V} :
    e ∈ setRight m i.left r ↔ (e ∈ m ∧ e.left ≠ i.left) ∨ e = { i with right := r } := by
  rw [setRight, List.mem_map]
  constructor
  · rintro ⟨x, hx, rfl⟩
    by_cases hk : x.left = i.left
    · rw [if_pos hk, sorted_key h hx hi hk]; exact Or.inr rfl
    · rw [if_neg hk]; exact Or.inl ⟨hx, hk⟩
  · rintro (⟨he, hk⟩ | rfl)
    · exact ⟨e, he, if_neg hk⟩
    · exact ⟨i, hi, if_pos rfl⟩

theorem sorted_setRight {m : Map V} (h : Sorted m) (k r : Nat) : Sorted (setRight m k r) := by
  rw [Sorted, setRight, List.pairwise_map]
  refine h.imp ?_
  intro a b hab
  split <;> split <;> exact hab

/-! ## Lookup -/

theorem locate_spec {m : Map V} (h : WF m) (p : Nat) :
    (∀ e, locate m p (lowerBound m p) = some e ↔ e ∈ m ∧ e.left ≤ p ∧ p < e.right) := by
  have hs := h.sorted
  have uniq : ∀ a ∈ m, ∀ b ∈ m, a.left ≤ p → p < a.right → b.left ≤ p → p < b.right → a = b := by
    intro a ha b hb h1 h2 h3 h4
    by_cases hab : a.left < b.left
    · have := h.disjoint a ha b hb hab; omega
    · by_cases hba : b.left < a.left
      · have := h.disjoint b hb a ha hba; omega
      · exact sorted_key hs ha hb (by omega)
  intro e
  unfold locate
  cases hlb : lowerBound m p with
  | none =>
    have hall := (find?_sorted hs).2 hlb
    simp only [before]
    cases hl : m.getLast? with
    | none =>
      have : m = [] := List.getLast?_eq_none_iff.1 hl
      subst this
      simp
    | some b =>
      obtain ⟨hb, hmax⟩ := getLast?_sorted hs hl
      simp only
      constructor
      · intro he
        split at he
        · obtain rfl := Option.some.inj he
          exact ⟨hb, Nat.le_of_lt (hall b hb), by omega⟩
        · simp at he
      · rintro ⟨he, h1, h2⟩
        have : e = b := by
          by_cases heb : e.left < b.left
          · have := h.disjoint e he b hb heb
            have := hall b hb
            omega
          · have := hmax e he
            exact sorted_key hs he hb (by omega)
        subst this
        rw [if_pos h2]
  | some x =>
    obtain ⟨hx, hpx, hmin⟩ := (find?_sorted hs).1 x hlb
    simp only [before]
    by_cases hp : p = x.left
    · rw [if_pos hp]
      constructor
      · intro he
        obtain rfl := Option.some.inj he
        have := h.nonempty x hx
        exact ⟨hx, by omega, by omega⟩
      · rintro ⟨he, h1, h2⟩
        have := h.nonempty x hx
        rw [uniq x hx e he (by omega) (by omega) h1 h2]
    · rw [if_neg hp]
      cases hb : prev m x.left with
      | none =>
        have hall := (prev_sorted hs).2 hb
        simp only
        constructor
        · intro he; simp at he
        · rintro ⟨he, h1, h2⟩
          have := hall e he
          omega
      | some b =>
        obtain ⟨hbm, hbx, hmax⟩ := (prev_sorted hs).1 b hb
        have hbp : b.left < p := by
          apply Classical.byContradiction
          intro hge
          have := hmin b hbm (by omega)
          omega
        simp only
        constructor
        · intro he
          split at he
          · obtain rfl := Option.some.inj he
            exact ⟨hbm, by omega, by omega⟩
          · simp at he
        · rintro ⟨he, h1, h2⟩
          have : e = b := by
            have hex : e.left < x.left := by omega
            have hle := hmax e he hex
            by_cases heb : e.left < b.left
            · have := h.disjoint e he b hbm heb; omega
            · exact sorted_key hs he hbm (by omega)
          subst this
          rw [if_pos h2]

theorem locate_none {m : Map V} (h : WF m) (p : Nat) :
    locate m p (lowerBound m p) = none ↔ ∀ e ∈ m, e.left ≤ p → e.right ≤ p := by
  constructor
  · intro hn e he h1
    apply Classical.byContradiction
    intro h2
    have := (locate_spec h p e).2 ⟨he, h1, by omega⟩
    rw [hn] at this
    simp at this
  · intro hall
    cases hl : locate m p (lowerBound m p) with
    | none => rfl
    | some e =>
      obtain ⟨he, h1, h2⟩ := (locate_spec h p e).1 hl
      have := hall e he h1
      omega

theorem lookup_iff {m : Map V} (h : WF m) (p : Nat) (v : V) : lookup m p = some v ↔ Holds m p v := by
  unfold lookup Holds
  constructor
  · intro hl
    obtain ⟨e, he, hv⟩ := Option.map_eq_some_iff.1 hl
    obtain ⟨h1, h2, h3⟩ := (locate_spec h p e).1 he
    exact ⟨e, h1, h2, h3, hv⟩
  · rintro ⟨e, h1, h2, h3, hv⟩
    rw [(locate_spec h p e).2 ⟨h1, h2, h3⟩, Option.map_some, hv]

/-- Equal lookups from equal `Holds`. -/
theorem lookup_eq {m : Map V} (h : WF m) {p : Nat} {o : Option V} (ho : ∀ v, o = some v ↔ Holds m p v) : lookup m p = o := by
  apply Option.ext
  intro v
  rw [lookup_iff h, ho]

/-! ## Adding an interval -/

/-- `[l, r)` meets no interval of the map. -/
def Free (m : Map V) (l r : Nat) : Prop := ∀ e ∈ m, e.right ≤ l ∨ r ≤ e.left

/-- What a map is after adding `[l, r)`. -/
structure Added (m m' : Map V) (l r : Nat) (v : V) : Prop where
  wf : WF m'
  holds : ∀ k w, Holds m' k w ↔ if l ≤ k ∧ k < r then w = v else Holds m k w

theorem added_emplace {m : Map V} (h : WF m) {l r : Nat} (hlr : l < r) {v : V} (hf : Free m l r) : Added m (emplace m l r v) l r v := by
  have hn : ∀ e ∈ m, e.left ≠ l := by
    intro e he hl
    have := hf e he
    have := h.nonempty e he
    omega
  have hmem := mem_emplace (r := r) (v := v) hn
  refine ⟨⟨sorted_emplace h.sorted l r v, ?_, ?_⟩, ?_⟩
  · intro e he
    rcases (hmem e).1 he with he | rfl
    · exact h.nonempty e he
    · exact hlr
  · intro a ha b hb hab
    rcases (hmem a).1 ha with ha | rfl <;> rcases (hmem b).1 hb with hb | rfl
    · exact h.disjoint a ha b hb hab
    · have := hf a ha
      simp only at hab ⊢
      have := h.nonempty a ha
      omega
    · have := hf b hb
      have := h.nonempty b hb
      simp only at hab ⊢
      omega
    · omega
  · intro k w
    unfold Holds
    constructor
    · rintro ⟨e, he, h1, h2, h3⟩
      rcases (hmem e).1 he with he | rfl
      · have := hf e he
        rw [if_neg (by omega)]
        exact ⟨e, he, h1, h2, h3⟩
      · rw [if_pos ⟨h1, h2⟩]; exact h3.symm
    · intro hk
      split at hk
      · next hlk => exact ⟨⟨l, r, v⟩, (hmem _).2 (Or.inr rfl), hlk.1, hlk.2, hk.symm⟩
      · obtain ⟨e, he, hh⟩ := hk
        exact ⟨e, (hmem e).2 (Or.inl he), hh⟩

/-- Extending an interval to the right. -/
theorem added_setRight {m : Map V} (h : WF m) {i : Entry V} (hi : i ∈ m) {r : Nat} (hr : i.right < r)
    (hf : Free m i.right r) : Added m (setRight m i.left r) i.right r i.value := by
  have hne := h.nonempty i hi
  have hmem := fun e => mem_setRight h.sorted hi (r := r) (e := e)
  refine ⟨⟨sorted_setRight h.sorted _ _, ?_, ?_⟩, ?_⟩
  · intro e he
    rcases (hmem e).1 he with ⟨he, _⟩ | rfl
    · exact h.nonempty e he
    · show i.left < r; omega
  · intro a ha b hb hab
    rcases (hmem a).1 ha with ⟨ha, _⟩ | rfl <;> rcases (hmem b).1 hb with ⟨hb, _⟩ | rfl
    · exact h.disjoint a ha b hb hab
    · exact h.disjoint a ha i hi hab
    · have := hf b hb
      have := h.nonempty b hb
      have := h.disjoint i hi b hb hab
      simp only at hab ⊢
      omega
    · simp at hab
  · intro k w
    unfold Holds
    constructor
    · rintro ⟨e, he, h1, h2, h3⟩
      rcases (hmem e).1 he with ⟨he, _⟩ | rfl
      · have := hf e he
        rw [if_neg (by omega)]
        exact ⟨e, he, h1, h2, h3⟩
      · simp only at h1 h2 h3
        by_cases hk : k < i.right
        · rw [if_neg (by omega)]; exact ⟨i, hi, h1, hk, h3⟩
        · rw [if_pos ⟨by omega, h2⟩]; exact h3.symm
    · intro hk
      split at hk
      · next hlk => exact ⟨{ i with right := r }, (hmem _).2 (Or.inr rfl), by show i.left ≤ k; omega, hlk.2, hk.symm⟩
      · obtain ⟨e, he, h1, h2, h3⟩ := hk
        by_cases hei : e.left = i.left
        · obtain rfl := sorted_key h.sorted he hi hei
          exact ⟨{ e with right := r }, (hmem _).2 (Or.inr rfl), h1, by show k < r; omega, h3⟩
        · exact ⟨e, (hmem e).2 (Or.inl ⟨he, hei⟩), h1, h2, h3⟩

/-- Removing an interval after a map is extended by one that covers it with the same value. -/
theorem wf_eraseKey {m : Map V} (h : WF m) (k : Nat) : WF (eraseKey m k) :=
  ⟨sorted_eraseKey h.sorted k, fun e he => h.nonempty e (mem_eraseKey.1 he).1,
    fun a ha b hb => h.disjoint a (mem_eraseKey.1 ha).1 b (mem_eraseKey.1 hb).1⟩

theorem holds_eraseKey {m : Map V} (h : WF m) {i : Entry V} (hi : i ∈ m) (k : Nat) (w : V) :
    Holds (eraseKey m i.left) k w ↔ Holds m k w ∧ ¬ (i.left ≤ k ∧ k < i.right) := by
  unfold Holds
  constructor
  · rintro ⟨e, he, h1, h2, h3⟩
    obtain ⟨he, hne⟩ := mem_eraseKey.1 he
    refine ⟨⟨e, he, h1, h2, h3⟩, ?_⟩
    rintro ⟨h4, h5⟩
    by_cases hlt : e.left < i.left
    · have := h.disjoint e he i hi hlt; omega
    · have := h.disjoint i hi e he (by omega); omega
  · rintro ⟨⟨e, he, h1, h2, h3⟩, hn⟩
    refine ⟨e, mem_eraseKey.2 ⟨he, ?_⟩, h1, h2, h3⟩
    intro hel
    obtain rfl := sorted_key h.sorted he hi hel
    exact hn ⟨h1, h2⟩

theorem Added.congr {m a b : Map V} {l r : Nat} {v : V} (h : Added m a l r v) (hs : Sorted b) (he : ∀ e, e ∈ b ↔ e ∈ a) :
    Added m b l r v := by
  refine ⟨⟨hs, fun e h' => h.wf.nonempty e ((he e).1 h'), fun x hx y hy => h.wf.disjoint x ((he x).1 hx) y ((he y).1 hy)⟩, ?_⟩
  intro k w
  rw [← h.holds k w]
  unfold Holds
  constructor
  · rintro ⟨e, h1, h2⟩; exact ⟨e, (he e).1 h1, h2⟩
  · rintro ⟨e, h1, h2⟩; exact ⟨e, (he e).2 h1, h2⟩

/-- Adding up to the end of a removed interval of the same value. -/
theorem Added.merge {m m' : Map V} (h : WF m) {i : Entry V} (hi : i ∈ m) {l : Nat} (hl : l < i.left)
    (ha : Added (eraseKey m i.left) m' l i.right i.value) : Added m m' l i.left i.value := by
  refine ⟨ha.wf, ?_⟩
  intro k w
  rw [ha.holds, holds_eraseKey h hi]
  have hne := h.nonempty i hi
  by_cases h1 : l ≤ k ∧ k < i.left
  · rw [if_pos h1, if_pos (by omega)]
  · rw [if_neg h1]
    by_cases h2 : l ≤ k ∧ k < i.right
    · rw [if_pos h2]
      constructor
      · intro hw; exact ⟨i, hi, by omega, h2.2, hw.symm⟩
      · rintro ⟨e, he, h3, h4, h5⟩
        have : e = i := by
          by_cases hlt : e.left < i.left
          · have := h.disjoint e he i hi hlt; omega
          · by_cases hgt : i.left < e.left
            · have := h.disjoint i hi e he hgt; omega
            · exact sorted_key h.sorted he hi (by omega)
        rw [← h5, this]
    · rw [if_neg h2]
      exact ⟨fun x => x.1, fun x => ⟨x, by omega⟩⟩

theorem free_erase {m : Map V} (h : WF m) {i : Entry V} (hi : i ∈ m) {l : Nat} (hl : l < i.left) (hf : Free m l i.left) :
    Free (eraseKey m i.left) l i.right := by
  intro e he
  obtain ⟨he, hne⟩ := mem_eraseKey.1 he
  rcases hf e he with h1 | h1
  · exact Or.inl h1
  · exact Or.inr (h.disjoint i hi e he (by omega))

theorem added_right_merge {m : Map V} (h : WF m) {i : Entry V} (hi : i ∈ m) {l : Nat} (hl : l < i.left) (hf : Free m l i.left) :
    Added m (eraseKey (emplace m l i.right i.value) i.left) l i.left i.value := by
  have hne := h.nonempty i hi
  have hw := wf_eraseKey h i.left
  have hf' := free_erase h hi hl hf
  have hn : ∀ e ∈ m, e.left ≠ l := by
    intro e he hl'
    have := hf e he
    have := h.nonempty e he
    omega
  apply Added.merge h hi hl
  apply (added_emplace hw (by omega : l < i.right) hf').congr
  · exact sorted_eraseKey (sorted_emplace h.sorted _ _ _) _
  · intro e
    rw [mem_eraseKey, mem_emplace hn, mem_emplace (fun e he => hn e (mem_eraseKey.1 he).1), mem_eraseKey]
    constructor
    · rintro ⟨h1 | h1, h2⟩
      · exact Or.inl ⟨h1, h2⟩
      · exact Or.inr h1
    · rintro (⟨h1, h2⟩ | h1)
      · exact ⟨Or.inl h1, h2⟩
      · exact ⟨Or.inr h1, by rw [h1]; show l ≠ i.left; omega⟩

theorem added_both_merge {m : Map V} (h : WF m) {p i : Entry V} (hp : p ∈ m) (hi : i ∈ m) (hl : p.right < i.left)
    (hv : p.value = i.value) (hf : Free m p.right i.left) :
    Added m (eraseKey (setRight m p.left i.right) i.left) p.right i.left i.value := by
  have hne := h.nonempty i hi
  have hnp := h.nonempty p hp
  have hw := wf_eraseKey h i.left
  have hf' := free_erase h hi hl hf
  have hp' : p ∈ eraseKey m i.left := mem_eraseKey.2 ⟨hp, by omega⟩
  apply Added.merge h hi hl
  have := added_setRight hw hp' (by omega : p.right < i.right) hf'
  rw [hv] at this
  apply this.congr
  · exact sorted_eraseKey (sorted_setRight h.sorted _ _) _
  · intro e
    rw [mem_eraseKey, mem_setRight h.sorted hp, mem_setRight hw.sorted hp', mem_eraseKey]
    constructor
    · rintro ⟨⟨h1, h2⟩ | h1, h3⟩
      · exact Or.inl ⟨⟨h1, h3⟩, h2⟩
      · exact Or.inr h1
    · rintro (⟨⟨h1, h2⟩, h3⟩ | h1)
      · exact ⟨Or.inl ⟨h1, h3⟩, h2⟩
      · exact ⟨Or.inr h1, by rw [h1]; show p.left ≠ i.left; omega⟩

theorem added_nil (l r : Nat) (hlr : l < r) (v : V) : Added [] (emplace [] l r v) l r v :=
  added_emplace ⟨List.Pairwise.nil, by simp, by simp⟩ hlr (by intro e he; simp at he)

/-- range_map.hpp:117-131 with no entry before. -/
theorem injectLeft_spec {m : Map V} (h : WF m) {i : Entry V} (hi : i ∈ m) {p : Option (Entry V)}
    (hp : ∀ x, p = some x → x ∈ m) {l r : Nat} (hlr : l < r) (v : V) (hf : Free m l r) :
    Added m (injectLeft m i p l r v) l r v := by
  unfold injectLeft
  cases p with
  | none =>
    simp only
    split
    · next hc =>
      obtain ⟨rfl, rfl⟩ := hc
      exact added_right_merge h hi hlr hf
    · exact added_emplace h hlr hf
  | some x =>
    have hx := hp x rfl
    simp only
    split
    · next hc =>
      obtain ⟨⟨rfl, rfl⟩, rfl, hv⟩ := hc
      rw [hv]
      exact added_both_merge h hx hi hlr hv hf
    · split
      · next hc =>
        obtain ⟨rfl, rfl⟩ := hc
        exact added_setRight h hx hlr hf
      · split
        · next hc =>
          obtain ⟨rfl, rfl⟩ := hc
          exact added_right_merge h hi hlr hf
        · exact added_emplace h hlr hf

/-- range_map.hpp:132-147. -/
theorem injectRight_spec {m : Map V} (h : WF m) {i : Entry V} (hi : i ∈ m) {n : Option (Entry V)}
    (hn : ∀ x, n = some x → x ∈ m) {l r : Nat} (hlr : l < r) (v : V) (hf : Free m l r) :
    Added m (injectRight m i n l r v) l r v := by
  unfold injectRight
  cases n with
  | none =>
    simp only
    split
    · next hc =>
      obtain ⟨rfl, rfl⟩ := hc
      exact added_setRight h hi hlr hf
    · exact added_emplace h hlr hf
  | some x =>
    have hx := hn x rfl
    simp only
    split
    · next hc =>
      obtain ⟨⟨rfl, rfl⟩, rfl, hv⟩ := hc
      rw [hv]
      exact added_both_merge h hi hx hlr hv hf
    · split
      · next hc =>
        obtain ⟨rfl, rfl⟩ := hc
        exact added_setRight h hi hlr hf
      · split
        · next hc =>
          obtain ⟨rfl, rfl⟩ := hc
          exact added_right_merge h hx hlr hf
        · exact added_emplace h hlr hf

theorem prev_mem {m : Map V} {k : Nat} {x : Entry V} (h : prev m k = some x) : x ∈ m :=
  (List.mem_filter.1 (List.mem_of_getLast? h)).1

theorem next_mem {m : Map V} {k : Nat} {x : Entry V} (h : next m k = some x) : x ∈ m :=
  List.mem_of_find?_eq_some h

theorem injectPos_none {m : Map V} {l : Nat} (h : injectPos m l = none) : m = [] := by
  unfold injectPos at h
  cases hlb : lowerBound m l with
  | none =>
    rw [hlb] at h
    exact List.getLast?_eq_none_iff.1 h
  | some e =>
    rw [hlb] at h
    simp only at h
    split at h
    · next hc => rw [h] at hc; simp at hc
    · simp at h

theorem injectPos_mem {m : Map V} {l : Nat} {i : Entry V} (h : injectPos m l = some i) : i ∈ m := by
  unfold injectPos at h
  cases hlb : lowerBound m l with
  | none =>
    rw [hlb] at h
    exact List.mem_of_getLast? h
  | some e =>
    rw [hlb] at h
    simp only at h
    split at h
    · exact prev_mem h
    · rw [← Option.some.inj h]; exact List.mem_of_find?_eq_some hlb

/-- The fit tests of `inject` are exact. -/
theorem fits_iff {m : Map V} (h : WF m) {l r : Nat} (hlr : l < r) {i : Entry V} (hi : injectPos m l = some i) :
    (fitsLeft i (prev m i.left) l r = true ∨ fitsRight i (next m i.left) l r = true) ↔ Free m l r := by
  have hs := h.sorted
  have him := injectPos_mem hi
  have hne := h.nonempty i him
  have hprev := prev_sorted hs (k := i.left)
  have hnext := find?_sorted hs (k := i.left + 1)
  constructor
  · rintro (hf | hf)
    · intro e he
      unfold fitsLeft at hf
      rw [Bool.and_eq_true, decide_eq_true_eq] at hf
      obtain ⟨h1, h2⟩ := hf
      by_cases hlt : e.left < i.left
      · left
        cases hp : prev m i.left with
        | none => have := hprev.2 hp e he; omega
        | some p =>
          rw [hp] at h2
          simp only [decide_eq_true_eq] at h2
          obtain ⟨hpm, hpi, hmax⟩ := hprev.1 p hp
          have := hmax e he hlt
          by_cases hep : e.left = p.left
          · rw [sorted_key hs he hpm hep]; exact h2
          · have := h.disjoint e he p hpm (by omega)
            have := h.nonempty p hpm
            omega
      · right; omega
    · intro e he
      unfold fitsRight at hf
      rw [Bool.and_eq_true, decide_eq_true_eq] at hf
      obtain ⟨h1, h2⟩ := hf
      by_cases hlt : i.left < e.left
      · right
        rw [next_eq] at h2
        cases hp : lowerBound m (i.left + 1) with
        | none => have := hnext.2 hp e he; omega
        | some n =>
          rw [hp] at h2
          simp only [decide_eq_true_eq] at h2
          obtain ⟨hpm, hpi, hmin⟩ := hnext.1 n hp
          have := hmin e he hlt
          omega
      · left
        by_cases hep : e.left = i.left
        · rw [sorted_key hs he him hep]; exact h1
        · have := h.disjoint e he i him (by omega)
          omega
  · intro hf
    have hfi := hf i him
    rcases hfi with hfi | hfi
    · right
      unfold fitsRight
      rw [Bool.and_eq_true, decide_eq_true_eq]
      refine ⟨hfi, ?_⟩
      cases hp : next m i.left with
      | none => rfl
      | some n =>
        rw [next_eq] at hp
        obtain ⟨hnm, hn1, hmin⟩ := hnext.1 n hp
        simp only [decide_eq_true_eq]
        rcases hf n hnm with h1 | h1
        · -- `n` lies between `i` and `l`, which `injectPos` excludes
          exfalso
          have hnn := h.nonempty n hnm
          have hlb := find?_sorted hs (k := l)
          unfold injectPos at hi
          cases hq : lowerBound m l with
          | none =>
            rw [hq] at hi
            have := (getLast?_sorted hs hi).2 n hnm
            omega
          | some e =>
            rw [hq] at hi
            obtain ⟨hem, hle, hmin'⟩ := hlb.1 e hq
            simp only at hi
            split at hi
            · obtain ⟨_, _, hmax⟩ := (prev_sorted hs).1 i hi
              have := hmax n hnm (by omega)
              omega
            · have := Option.some.inj hi
              subst this
              omega
        · exact h1
    · left
      unfold fitsLeft
      rw [Bool.and_eq_true, decide_eq_true_eq]
      refine ⟨hfi, ?_⟩
      cases hp : prev m i.left with
      | none => rfl
      | some p =>
        obtain ⟨hpm, hpi, hmax⟩ := hprev.1 p hp
        simp only [decide_eq_true_eq]
        rcases hf p hpm with h1 | h1
        · exact h1
        · exfalso
          have hnp := h.nonempty p hpm
          have hlb := find?_sorted hs (k := l)
          unfold injectPos at hi
          cases hq : lowerBound m l with
          | none =>
            rw [hq] at hi
            have := hlb.2 hq p hpm
            omega
          | some e =>
            rw [hq] at hi
            obtain ⟨hem, hle, hmin'⟩ := hlb.1 e hq
            have := hmin' p hpm (by omega)
            simp only at hi
            split at hi
            · obtain ⟨_, _, hmax⟩ := (prev_sorted hs).1 i hi
              omega
            · have := Option.some.inj hi
              subst this
              omega

theorem inject_spec {m : Map V} (h : WF m) {l r : Nat} (hlr : l < r) (v : V) :
    ((inject m l r v).2 = true ↔ Free m l r) ∧
    ((inject m l r v).2 = true → Added m (inject m l r v).1 l r v) ∧
    ((inject m l r v).2 = false → (inject m l r v).1 = m) := by
  unfold inject
  cases hi : injectPos m l with
  | none =>
    obtain rfl := injectPos_none hi
    refine ⟨⟨fun _ e he => by simp at he, fun _ => rfl⟩, fun _ => added_nil l r hlr v, fun hf => by simp at hf⟩
  | some i =>
    have him := injectPos_mem hi
    have hfit := fits_iff h hlr hi
    simp only
    split
    · next hl =>
      have hf := hfit.1 (Or.inl hl)
      exact ⟨⟨fun _ => hf, fun _ => rfl⟩, fun _ => injectLeft_spec h him (fun x hx => prev_mem hx) hlr v hf, fun hf => by simp at hf⟩
    · next hl =>
      split
      · next hr =>
        have hf := hfit.1 (Or.inr hr)
        exact ⟨⟨fun _ => hf, fun _ => rfl⟩, fun _ => injectRight_spec h him (fun x hx => next_mem hx) hlr v hf, fun hf => by simp at hf⟩
      · next hr =>
        refine ⟨⟨fun hf => by simp at hf, fun hf => ?_⟩, fun hf => by simp at hf, fun _ => rfl⟩
        rcases hfit.2 hf with h1 | h1
        · exact absurd h1 hl
        · exact absurd h1 hr

theorem insert_spec {m : Map V} (h : WF m) {l r : Nat} (hlr : l < r) (v : V) :
    ((insert m l r v).2 = true ↔ Free m l r) ∧
    ((insert m l r v).2 = true → Added m (insert m l r v).1 l r v) ∧
    ((insert m l r v).2 = false → (insert m l r v).1 = m) := by
  have hs := h.sorted
  have hcond : insertFits m l r = true ↔ Free m l r := by
    rw [insertFits, Bool.and_eq_true, Option.isNone_iff_eq_none, locate_none h]
    constructor
    · rintro ⟨h1, h2⟩ e he
      by_cases hle : e.left ≤ l
      · exact Or.inl (h1 e he hle)
      · right
        cases hq : lowerBound m l with
        | none => have := (find?_sorted hs).2 hq e he; omega
        | some x =>
          rw [hq] at h2
          simp only [decide_eq_true_eq] at h2
          have := ((find?_sorted hs).1 x hq).2.2 e he (by omega)
          omega
    · intro hf
      refine ⟨?_, ?_⟩
      · intro e he hle
        rcases hf e he with h1 | h1 <;> omega
      · cases hq : lowerBound m l with
        | none => rfl
        | some x =>
          obtain ⟨hx, h1, _⟩ := (find?_sorted hs).1 x hq
          have := h.nonempty x hx
          simp only [decide_eq_true_eq]
          rcases hf x hx with h1 | h1 <;> omega
  unfold insert
  split
  · next hc =>
    have hf := hcond.1 hc
    have hn : (!m.any fun e => decide (e.left = l)) = true := by
      rw [Bool.not_eq_true', Bool.eq_false_iff]
      intro ha
      obtain ⟨e, he, hl⟩ := (any_key m l).1 ha
      have := hf e he
      have := h.nonempty e he
      omega
    rw [hn]
    exact ⟨⟨fun _ => hf, fun _ => rfl⟩, fun _ => added_emplace h hlr hf, fun hf => by simp at hf⟩
  · next hc =>
    exact ⟨⟨fun hf => by simp at hf, fun hf => absurd (hcond.2 hf) hc⟩, fun hf => by simp at hf, fun _ => rfl⟩

/-! ## Erasing -/

theorem erasePoint_spec {m : Map V} (h : WF m) (p : Nat) :
    (erasePoint m p).2 = (lookup m p).isSome ∧ WF (erasePoint m p).1 ∧
    (∀ e, locate m p (lowerBound m p) = some e → ∀ k w, Holds (erasePoint m p).1 k w ↔ Holds m k w ∧ ¬ (e.left ≤ k ∧ k < e.right)) ∧
    (locate m p (lowerBound m p) = none → (erasePoint m p).1 = m) := by
  unfold erasePoint lookup
  cases hl : locate m p (lowerBound m p) with
  | none => exact ⟨rfl, h, by simp, fun _ => rfl⟩
  | some x =>
    obtain ⟨hx, _, _⟩ := (locate_spec h p x).1 hl
    refine ⟨rfl, wf_eraseKey h _, ?_, by simp⟩
    intro e he k w
    obtain rfl := Option.some.inj he
    exact holds_eraseKey h hx k w

theorem eraseValue_spec {m : Map V} (h : WF m) (x : V) :
    WF (eraseValue m x) ∧ ∀ k w, Holds (eraseValue m x) k w ↔ Holds m k w ∧ w ≠ x := by
  have hmem : ∀ e, e ∈ eraseValue m x ↔ e ∈ m ∧ e.value ≠ x := by intro e; simp [eraseValue]
  refine ⟨⟨h.sorted.filter _, fun e he => h.nonempty e ((hmem e).1 he).1,
    fun a ha b hb => h.disjoint a ((hmem a).1 ha).1 b ((hmem b).1 hb).1⟩, ?_⟩
  intro k w
  unfold Holds
  constructor
  · rintro ⟨e, he, h1, h2, h3⟩
    exact ⟨⟨e, ((hmem e).1 he).1, h1, h2, h3⟩, by rw [← h3]; exact ((hmem e).1 he).2⟩
  · rintro ⟨⟨e, he, h1, h2, h3⟩, hw⟩
    exact ⟨e, (hmem e).2 ⟨he, by rw [h3]; exact hw⟩, h1, h2, h3⟩

/-- Shrinking an interval from the right. -/
theorem shrink_spec {m : Map V} (h : WF m) {i : Entry V} (hi : i ∈ m) {l : Nat} (h1 : i.left < l) (h2 : l ≤ i.right) :
    WF (setRight m i.left l) ∧ ∀ k w, Holds (setRight m i.left l) k w ↔ Holds m k w ∧ ¬ (l ≤ k ∧ k < i.right) := by
  have hmem := fun e => mem_setRight h.sorted hi (r := l) (e := e)
  refine ⟨⟨sorted_setRight h.sorted _ _, ?_, ?_⟩, ?_⟩
  · intro e he
    rcases (hmem e).1 he with ⟨he, _⟩ | rfl
    · exact h.nonempty e he
    · exact h1
  · intro a ha b hb hab
    rcases (hmem a).1 ha with ⟨ha, _⟩ | rfl <;> rcases (hmem b).1 hb with ⟨hb, _⟩ | rfl
    · exact h.disjoint a ha b hb hab
    · exact h.disjoint a ha i hi hab
    · have := h.disjoint i hi b hb hab
      simp only at hab ⊢
      omega
    · simp at hab
  · intro k w
    unfold Holds
    constructor
    · rintro ⟨e, he, h3, h4, h5⟩
      rcases (hmem e).1 he with ⟨he, hne⟩ | rfl
      · refine ⟨⟨e, he, h3, h4, h5⟩, ?_⟩
        rintro ⟨h6, h7⟩
        by_cases hlt : e.left < i.left
        · have := h.disjoint e he i hi hlt; omega
        · have := h.disjoint i hi e he (by omega); omega
      · simp only at h3 h4 h5
        exact ⟨⟨i, hi, h3, by omega, h5⟩, by omega⟩
    · rintro ⟨⟨e, he, h3, h4, h5⟩, hn⟩
      by_cases hei : e.left = i.left
      · obtain rfl := sorted_key h.sorted he hi hei
        exact ⟨{ e with right := l }, (hmem _).2 (Or.inr rfl), h3, by show k < l; omega, h5⟩
      · exact ⟨e, (hmem e).2 (Or.inl ⟨he, hei⟩), h3, h4, h5⟩

/-- Moving the left endpoint of an interval to the right. -/
theorem shrinkLeft_spec {m : Map V} (h : WF m) {i : Entry V} (hi : i ∈ m) {r : Nat} (h1 : i.left < r) (h2 : r < i.right) :
    WF (eraseKey (emplace m r i.right i.value) i.left) ∧
    ∀ k w, Holds (eraseKey (emplace m r i.right i.value) i.left) k w ↔ Holds m k w ∧ ¬ (i.left ≤ k ∧ k < r) := by
  have hother : ∀ e ∈ m, e.left ≠ i.left → e.right ≤ i.left ∨ i.right ≤ e.left := by
    intro e he hne
    by_cases hlt : e.left < i.left
    · exact Or.inl (h.disjoint e he i hi hlt)
    · exact Or.inr (h.disjoint i hi e he (by omega))
  have hn : ∀ e ∈ m, e.left ≠ r := by
    intro e he hr
    have := h.nonempty e he
    rcases hother e he (by omega) with h3 | h3 <;> omega
  have hmem : ∀ e, e ∈ eraseKey (emplace m r i.right i.value) i.left ↔ (e ∈ m ∧ e.left ≠ i.left) ∨ e = ⟨r, i.right, i.value⟩ := by
    intro e
    rw [mem_eraseKey, mem_emplace hn]
    constructor
    · rintro ⟨h3 | h3, h4⟩
      · exact Or.inl ⟨h3, h4⟩
      · exact Or.inr h3
    · rintro (⟨h3, h4⟩ | h3)
      · exact ⟨Or.inl h3, h4⟩
      · exact ⟨Or.inr h3, by rw [h3]; show r ≠ i.left; omega⟩
  refine ⟨⟨sorted_eraseKey (sorted_emplace h.sorted _ _ _) _, ?_, ?_⟩, ?_⟩
  · intro e he
    rcases (hmem e).1 he with ⟨he, _⟩ | rfl
    · exact h.nonempty e he
    · exact h2
  · intro a ha b hb hab
    rcases (hmem a).1 ha with ⟨ha, hna⟩ | rfl <;> rcases (hmem b).1 hb with ⟨hb, hnb⟩ | rfl
    · exact h.disjoint a ha b hb hab
    · simp only at hab ⊢
      rcases hother a ha hna with h3 | h3 <;> omega
    · simp only at hab ⊢
      have := h.nonempty b hb
      rcases hother b hb hnb with h3 | h3 <;> omega
    · simp at hab
  · intro k w
    unfold Holds
    constructor
    · rintro ⟨e, he, h3, h4, h5⟩
      rcases (hmem e).1 he with ⟨he, hne⟩ | rfl
      · refine ⟨⟨e, he, h3, h4, h5⟩, ?_⟩
        rcases hother e he hne with h6 | h6 <;> omega
      · simp only at h3 h4 h5
        exact ⟨⟨i, hi, by omega, by omega, h5⟩, by omega⟩
    · rintro ⟨⟨e, he, h3, h4, h5⟩, hk⟩
      by_cases hei : e.left = i.left
      · obtain rfl := sorted_key h.sorted he hi hei
        exact ⟨⟨r, e.right, e.value⟩, (hmem _).2 (Or.inr rfl), by show r ≤ k; omega, h4, h5⟩
      · exact ⟨e, (hmem e).2 (Or.inl ⟨he, hei⟩), h3, h4, h5⟩

/-- The intervals on which `erase(l, r)` goes wrong: those that share one endpoint with `[l, r)` and
reach beyond it. -/
def Clean (m : Map V) (l r : Nat) : Prop := ∀ e ∈ m, ¬ (e.left = l ∧ r < e.right) ∧ ¬ (e.left < l ∧ e.right = r)

theorem erasePos_spec {m : Map V} (h : WF m) (p : Nat) :
    (∀ i, erasePos m p = some i → i ∈ m ∧ p < i.right ∧ ∀ e ∈ m, p < e.right → i.left ≤ e.left) ∧
    (erasePos m p = none → ∀ e ∈ m, e.right ≤ p) := by
  have hs := h.sorted
  unfold erasePos
  cases hl : locate m p (lowerBound m p) with
  | none =>
    have hn := (locate_none h p).1 hl
    simp only
    constructor
    · intro i hi
      obtain ⟨h1, h2, h3⟩ := (find?_sorted hs).1 i hi
      have := h.nonempty i h1
      refine ⟨h1, by omega, ?_⟩
      intro e he hp
      apply h3 e he
      apply Classical.byContradiction
      intro hlt
      have := hn e he (by omega)
      omega
    · intro hi e he
      have := (find?_sorted hs).2 hi e he
      exact hn e he (by omega)
  | some x =>
    obtain ⟨h1, h2, h3⟩ := (locate_spec h p x).1 hl
    simp only
    constructor
    · intro i hi
      obtain rfl := Option.some.inj hi
      refine ⟨h1, h3, ?_⟩
      intro e he hp
      apply Classical.byContradiction
      intro hlt
      have := h.disjoint e he x h1 (by omega)
      omega
    · intro hi; simp at hi

theorem count_lt {m : Map V} {f g : Entry V → Bool} (himp : ∀ e ∈ m, g e = true → f e = true) {i : Entry V} (hi : i ∈ m)
    (hf : f i = true) (hg : g i = false) : m.countP g < m.countP f := by
  induction m with
  | nil => simp at hi
  | cons x m ih =>
    rw [List.countP_cons, List.countP_cons]
    have hle : m.countP g ≤ m.countP f := List.countP_mono_left (fun e he => himp e (List.mem_cons_of_mem _ he))
    rcases List.mem_cons.1 hi with rfl | hi
    · rw [hf, hg]; simp; omega
    · have := ih (fun e he => himp e (List.mem_cons_of_mem _ he)) hi
      have := himp x (List.mem_cons_self)
      cases hgx : g x <;> cases hfx : f x <;> simp_all <;> omega

/-- The loop erases what is left of `[l, r)`. -/
theorem eraseLoop_spec {l r : Nat} (hlr : l < r) : ∀ (fuel : Nat) (m : Map V) (p : Nat), WF m → l ≤ p → Clean m l r →
    (∀ e ∈ m, e.left < p → e.right ≤ l ∨ p = l) → m.countP (fun e => decide (p < e.right)) < fuel →
    ∃ m', eraseLoop l r fuel m p = some m' ∧ WF m' ∧ ∀ k w, Holds m' k w ↔ Holds m k w ∧ ¬ (l ≤ k ∧ k < r) := by
  intro fuel
  induction fuel with
  | zero => intro m p _ _ _ _ h; omega
  | succ fuel ih =>
    intro m p h hlp hc hdone hfuel
    have hs := h.sorted
    rw [eraseLoop]
    have hpos := erasePos_spec h p
    -- nothing left to erase
    have stop : (∀ e ∈ m, p < e.right → r ≤ e.left) → ∀ k w, Holds m k w ↔ Holds m k w ∧ ¬ (l ≤ k ∧ k < r) := by
      intro hall k w
      constructor
      · rintro ⟨e, he, h1, h2, h3⟩
        refine ⟨⟨e, he, h1, h2, h3⟩, ?_⟩
        rintro ⟨h4, h5⟩
        by_cases hp : p < e.right
        · have := hall e he hp; omega
        · rcases hdone e he (by omega) with h6 | h6 <;> omega
      · exact fun x => x.1
    cases hi : erasePos m p with
    | none =>
      have := hpos.2 hi
      exact ⟨m, rfl, h, stop (fun e he hp => absurd (this e he) (by omega))⟩
    | some i =>
      obtain ⟨him, hip, hmin⟩ := hpos.1 i hi
      have hne := h.nonempty i him
      have hci := hc i him
      simp only
      split
      · next hri =>
        exact ⟨m, rfl, h, stop (fun e he hp => Nat.le_trans hri (hmin e he hp))⟩
      · next hri =>
        -- the interval meets `[l, r)`: it begins after `p`, or contains `p = l`
        have hil : l < i.right := by omega
        have hcount : ∀ q, i.right ≤ q → p ≤ q → m.countP (fun e => decide (q < e.right)) < fuel := by
          intro q hq hpq
          have := count_lt (m := m) (f := fun e => decide (p < e.right)) (g := fun e => decide (q < e.right)) (i := i)
            (by intro e _ h1; simp only [decide_eq_true_eq] at h1 ⊢; omega) him (by simpa using hip) (by simp; omega)
          omega
        split
        · next h1 =>
          have hw := wf_eraseKey h i.left
          obtain ⟨m', h2, h3, h4⟩ := ih (eraseKey m i.left) i.right hw (by omega) (fun e he => hc e (mem_eraseKey.1 he).1)
            (by
              intro e he hlt
              obtain ⟨he, hel⟩ := mem_eraseKey.1 he
              by_cases hlt' : e.left < i.left
              · by_cases hp : p < e.right
                · have := hmin e he hp; omega
                · left
                  rcases hdone e he (by have := h.nonempty e he; omega) with h5 | h5
                  · exact h5
                  · omega
              · have := h.disjoint i him e he (by omega); omega)
            (Nat.lt_of_le_of_lt (List.Sublist.countP_le List.filter_sublist) (hcount i.right (Nat.le_refl _) (by omega)))
          refine ⟨m', h2, h3, ?_⟩
          intro k w
          rw [h4, holds_eraseKey h him]
          constructor
          · rintro ⟨⟨h5, _⟩, h6⟩; exact ⟨h5, h6⟩
          · rintro ⟨h5, h6⟩; exact ⟨⟨h5, by omega⟩, h6⟩
        · next h1 =>
          split
          · next h2 =>
            have hlt : i.left < l := by omega
            have hgt : r < i.right := by omega
            obtain ⟨hw, hh⟩ := shrink_spec h him hlt (by omega)
            have hfree : Free (setRight m i.left l) r i.right := by
              intro e he
              rcases (mem_setRight hs him).1 he with ⟨he, hel⟩ | rfl
              · by_cases hlt' : e.left < i.left
                · have := h.disjoint e he i him hlt'; omega
                · have := h.disjoint i him e he (by omega); omega
              · left; show l ≤ r; omega
            obtain ⟨hj1, hj2, _⟩ := inject_spec hw hgt i.value
            have hadd := hj2 (hj1.2 hfree)
            refine ⟨_, rfl, hadd.wf, ?_⟩
            intro k w
            rw [hadd.holds, hh]
            by_cases hk : r ≤ k ∧ k < i.right
            · rw [if_pos hk]
              constructor
              · intro hw'
                exact ⟨⟨i, him, by omega, hk.2, hw'.symm⟩, by omega⟩
              · rintro ⟨⟨e, he, h3, h4, h5⟩, _⟩
                have : e = i := by
                  by_cases hlt' : e.left < i.left
                  · have := h.disjoint e he i him hlt'; omega
                  · by_cases hgt' : i.left < e.left
                    · have := h.disjoint i him e he hgt'; omega
                    · exact sorted_key hs he him (by omega)
                rw [← h5, this]
            · rw [if_neg hk]
              constructor
              · rintro ⟨h3, h4⟩; exact ⟨h3, by omega⟩
              · rintro ⟨h3, h4⟩; exact ⟨h3, by omega⟩
          · next h2 =>
            split
            · next h3 =>
              obtain ⟨hw, hh⟩ := shrinkLeft_spec h him h3.2 (by omega)
              refine ⟨_, rfl, hw, ?_⟩
              intro k w
              rw [hh]
              constructor
              · rintro ⟨⟨e, he, h4, h5, h6⟩, h7⟩
                refine ⟨⟨e, he, h4, h5, h6⟩, ?_⟩
                rintro ⟨h8, h9⟩
                have hki : k < i.left := by omega
                by_cases hp : p < e.right
                · have := hmin e he hp; omega
                · rcases hdone e he (by omega) with h5 | h5 <;> omega
              · rintro ⟨h4, h5⟩; exact ⟨h4, by omega⟩
            · next h3 =>
              have h4 : l < i.right ∧ i.right ≤ r := by omega
              rw [if_pos h4]
              have hlt : i.left < l := by omega
              have hpl : p = l := by
                rcases hdone i him (by omega) with h5 | h5
                · omega
                · exact h5
              obtain ⟨hw, hh⟩ := shrink_spec h him hlt (by omega)
              have hmemS := fun e => mem_setRight hs him (r := l) (e := e)
              obtain ⟨m', h5, h6, h7⟩ := ih (setRight m i.left l) i.right hw (by omega)
                (by
                  intro e he
                  rcases (hmemS e).1 he with ⟨he, _⟩ | rfl
                  · exact hc e he
                  · refine ⟨?_, ?_⟩
                    · rintro ⟨h8, _⟩; simp only at h8; omega
                    · rintro ⟨_, h8⟩; simp only at h8; omega)
                (by
                  intro e he hlt'
                  left
                  rcases (hmemS e).1 he with ⟨he, hel⟩ | rfl
                  · by_cases hlt'' : e.left < i.left
                    · have := h.disjoint e he i him hlt''; omega
                    · have := h.disjoint i him e he (by omega); omega
                  · exact Nat.le_refl _)
                (by
                  refine Nat.lt_of_le_of_lt ?_ (hcount i.right (Nat.le_refl _) (by omega))
                  rw [setRight, List.countP_map]
                  apply List.countP_mono_left
                  intro e he h8
                  simp only [Function.comp, decide_eq_true_eq] at h8 ⊢
                  split at h8
                  · simp only at h8; omega
                  · exact h8)
              refine ⟨m', h5, h6, ?_⟩
              intro k w
              rw [h7, hh]
              constructor
              · rintro ⟨⟨h8, _⟩, h9⟩; exact ⟨h8, h9⟩
              · rintro ⟨h8, h9⟩; exact ⟨⟨h8, by omega⟩, h9⟩

theorem eraseRange_spec {m : Map V} (h : WF m) {l r : Nat} (hlr : l < r) (hc : Clean m l r) :
    ∃ m', eraseRange m l r = some m' ∧ WF m' ∧ ∀ k w, Holds m' k w ↔ Holds m k w ∧ ¬ (l ≤ k ∧ k < r) := by
  rw [eraseRange, if_neg (by omega)]
  exact eraseLoop_spec hlr _ m l h (Nat.le_refl _) hc (fun _ _ _ => Or.inr rfl)
    (Nat.lt_succ_of_le List.countP_le_length)

end Verif.RangeMap
