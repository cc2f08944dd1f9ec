import Verif.Json.ReadLemmas
import Verif.Json.WriteProps
/-!
Lemmas about export followed by import of JSON.
-/
namespace Verif.Json
open Verif.Data Verif.DataText Verif.DataText.Spec Verif.Json.Spec Verif.Calendar Verif.Number

/-! ## Reals with six decimals -/

theorem micro_near {k : Int} (h : |k| < 10 ^ 15) : |rnd ((k : Rat) / 10 ^ 6) - (k : Rat) / 10 ^ 6| ≤ 1 / (4 * 10 ^ 6) := by
  have hk : |(k : Rat)| < 10 ^ 15 := by exact_mod_cast h
  have ha : |(k : Rat) / 10 ^ 6| < 10 ^ 9 := by
    rw [abs_div, abs_of_pos (show (0 : Rat) < 10 ^ 6 by norm_num), div_lt_iff₀ (by norm_num)]
    linarith
  have hn := rnd_near (x := (k : Rat) / 10 ^ 6) (lt_trans ha (by norm_num))
  have : |(k : Rat) / 10 ^ 6| / 2 ^ 53 ≤ 10 ^ 9 / 2 ^ 53 := div_le_div_of_nonneg_right ha.le (by norm_num)
  have h2 : (10 : Rat) ^ 9 / 2 ^ 53 ≤ 1 / (4 * 10 ^ 6) := by norm_num
  linarith

theorem micro_ok {k : Int} (h : |k| < 10 ^ 15) : RealOk (rnd ((k : Rat) / 10 ^ 6)) := by
  have hn := micro_near h
  by_cases hd : (10 ^ 6 : Int) ∣ k
  · obtain ⟨m, rfl⟩ := hd
    left
    have e : ((10 ^ 6 * m : Int) : Rat) / 10 ^ 6 = m := by push_cast; field_simp; ring
    have hm : m.natAbs < 2 ^ 53 := by
      rw [Int.abs_eq_natAbs] at h
      omega
    rw [e, rnd_int m hm]
    exact Rat.den_intCast m
  · right
    intro i
    have h1 : (1 : Rat) / 10 ^ 6 ≤ |(k : Rat) / 10 ^ 6 - i| := by
      have e : (k : Rat) / 10 ^ 6 - i = ((k - 10 ^ 6 * i : Int) : Rat) / 10 ^ 6 := by push_cast; field_simp; ring
      rw [e, abs_div, abs_of_pos (show (0 : Rat) < 10 ^ 6 by norm_num)]
      apply div_le_div_of_nonneg_right _ (by norm_num)
      have : 1 ≤ |k - 10 ^ 6 * i| := Int.one_le_abs (by intro e; exact hd ⟨i, by omega⟩)
      exact_mod_cast this
    have h2 := abs_sub_abs_le_abs_sub ((k : Rat) / 10 ^ 6 - i) ((k : Rat) / 10 ^ 6 - rnd ((k : Rat) / 10 ^ 6))
    have h3 : ((k : Rat) / 10 ^ 6 - i) - ((k : Rat) / 10 ^ 6 - rnd ((k : Rat) / 10 ^ 6)) = rnd ((k : Rat) / 10 ^ 6) - i := by ring
    rw [h3, abs_sub_comm ((k : Rat) / 10 ^ 6) (rnd _)] at h2
    have h4 : (1 : Rat) / (2 * 10 ^ 6) < 1 / 10 ^ 6 - 1 / (4 * 10 ^ 6) := by norm_num
    linarith

theorem micro_value {k : Int} (h : |k| < 10 ^ 15) {n : Num} (hm : ∃ j : Int, n.value = j / 10 ^ 6)
    (hv : |n.value - rnd ((k : Rat) / 10 ^ 6)| ≤ 1 / (2 * 10 ^ 6)) : n.value = (k : Rat) / 10 ^ 6 := by
  obtain ⟨j, hj⟩ := hm
  have hn := micro_near h
  have h1 : |n.value - (k : Rat) / 10 ^ 6| ≤ 3 / (4 * 10 ^ 6) := by
    have := abs_sub_le n.value (rnd ((k : Rat) / 10 ^ 6)) ((k : Rat) / 10 ^ 6)
    have h4 : (1 : Rat) / (2 * 10 ^ 6) + 1 / (4 * 10 ^ 6) = 3 / (4 * 10 ^ 6) := by norm_num
    linarith
  have e : n.value - (k : Rat) / 10 ^ 6 = ((j - k : Int) : Rat) / 10 ^ 6 := by rw [hj]; push_cast; ring
  rw [e, abs_div, abs_of_pos (show (0 : Rat) < 10 ^ 6 by norm_num), div_le_iff₀ (by norm_num)] at h1
  have h2 : |((j - k : Int) : Rat)| < 1 := lt_of_le_of_lt h1 (by norm_num)
  have h3 : |j - k| < 1 := by exact_mod_cast h2
  have : j = k := by
    have := abs_lt.mp h3
    omega
  rw [hj, this]

/-! ## Values -/

theorem kept_ok {t : Ty} {x : Data} (h : Kept t x) : Json.Spec.Ok false x := by
  refine Kept.rec (motive_1 := fun t x _ => Json.Spec.Ok false x) (motive_2 := fun t xs _ => Json.Spec.AllOk false xs)
    (motive_3 := fun fs ns xs _ => ns.length = xs.length ∧ (∀ n ∈ ns, Utf8 n) ∧ Json.Spec.AllOk false xs)
    ?_ ?_ ?_ ?_ ?_ ?_ ?_ ?_ ?_ ?_ ?_ ?_ ?_ ?_ ?_ ?_ ?_ h
  · intro t; simp [Json.Spec.Ok]
  · intro b; simp [Json.Spec.Ok]
  · intros; simp [Json.Spec.Ok]
  · intros; simp [Json.Spec.Ok]
  · intro k hk; simpa [Json.Spec.Ok] using micro_ok hk
  · intro d name u h0 h1 _ _
    simp only [Json.Spec.Ok, Bool.false_eq_true, false_implies, and_true]
    omega
  · intros; simp [Json.Spec.Ok]
  · intro s hs; simpa [Json.Spec.Ok] using hs
  · intros; simp [Json.Spec.Ok]
  · intros; simp [Json.Spec.Ok]
  · intro t xs _ ih; simpa [Json.Spec.Ok] using ih
  · intro t ns xs _ hl hu _ ih
    simp only [Json.Spec.Ok]
    exact ⟨by simpa using hl, ⟨ns, rfl, hu⟩, ih⟩
  · intro fs ns xs _ _ ih; simpa [Json.Spec.Ok] using ih
  · intro t; simp [Json.Spec.AllOk]
  · intro t x xs _ _ h1 h2; exact ⟨h1, h2⟩
  · exact ⟨rfl, by simp, trivial⟩
  · intro n t rest x ns xs hu _ _ h1 h2
    refine ⟨by simp [h2.1], ?_, ⟨h1, h2.2.2⟩⟩
    intro m hm
    rcases List.mem_cons.mp hm with rfl | hm
    · exact hu
    · exact h2.2.1 m hm

/-- What is shown stands for the value, and its numbers fit. -/
def Back (t : Ty) (x : Data) : Prop := ∀ v, Shows false x v → Means v t x ∧ Fits v

theorem fits_small {n : Num} (h1 : -(2 ^ 63) ≤ n.value) (h2 : n.value < 2 ^ 64) : Fits (.num n) := by
  simp only [Fits]
  refine ⟨fun _ => ⟨h1, h2⟩, fun _ => ?_⟩
  have hb : ((2 : Rat) ^ 64) < 2 ^ 1024 - 2 ^ 970 := by decide +kernel
  have hb' : -((2 : Rat) ^ 1024 - 2 ^ 970) < -2 ^ 63 := by decide +kernel
  rw [abs_lt]
  exact ⟨lt_of_lt_of_le hb' h1, lt_trans h2 hb⟩

theorem showsAll_length {b : Bool} : ∀ {xs : List Data} {vs : List Value}, ShowsAll b xs vs → xs.length = vs.length
  | [], _, h => by cases h; rfl
  | _ :: xs, _, h => by
    cases h with
    | cons _ v _ vs _ h => simp [showsAll_length h]

theorem kept_back {t : Ty} {x : Data} (h : Kept t x) : Back t x := by
  refine Kept.rec (motive_1 := fun t x _ => Back t x)
    (motive_2 := fun t xs _ => ∀ vs, ShowsAll false xs vs → MeansAll vs t xs ∧ FitsAll vs)
    (motive_3 := fun fs ns xs _ => ∀ vs, ShowsAll false xs vs → MeansFields fs ns vs xs ∧ FitsAll vs)
    ?_ ?_ ?_ ?_ ?_ ?_ ?_ ?_ ?_ ?_ ?_ ?_ ?_ ?_ ?_ ?_ ?_ h
  · intro t v hs; cases hs; exact ⟨.null t, trivial⟩
  · intro b v hs; cases hs; exact ⟨.bool b, trivial⟩
  · intro i h0 h1 v hs
    cases hs with
    | int _ n hn hv =>
      refine ⟨.int n i hn hv h0 h1, fits_small ?_ ?_⟩
      · rw [hv]; exact_mod_cast h0
      · rw [hv]
        have : i < 2 ^ 64 := by omega
        exact_mod_cast this
  · intro k hk v hs
    cases hs with
    | count _ n hn hv =>
      refine ⟨.count n k hn hv hk, fits_small ?_ ?_⟩
      · rw [hv]
        have : (0 : Rat) ≤ k := by exact_mod_cast Nat.zero_le k
        linarith
      · rw [hv]; exact_mod_cast hk
  · intro k hk v hs
    cases hs with
    | real _ n hm hv =>
      have e := micro_value hk hm hv
      have hk' : |(k : Rat)| < 10 ^ 15 := by exact_mod_cast hk
      have hb : |n.value| < 10 ^ 9 := by
        rw [e, abs_div, abs_of_pos (show (0 : Rat) < 10 ^ 6 by norm_num), div_lt_iff₀ (by norm_num)]
        linarith
      have := abs_lt.mp hb
      have hfit := fits_small (n := n) (by linarith) (by linarith)
      refine ⟨?_, hfit⟩
      have hm := Means.real n (fun _ => ⟨by linarith, by linarith⟩) (by simp only [Fits] at hfit; exact hfit.2)
      rw [e] at hm
      exact hm
    | notFinite _ hf => exact absurd rfl (hf _)
  · intro d name u h0 h1 hu hw v hs
    cases hs with
    | duration _ t _ ht => exact ⟨.duration d name u t h0 h1 hu hw ht, trivial⟩
    | seconds _ _ hn => simp at hn
  · intro t h0 h1 hw v hs; cases hs; exact ⟨.time t h0 h1 hw, trivial⟩
  · intro s _ v hs; cases hs; exact ⟨.string s, trivial⟩
  · intro a v hs; cases hs; exact ⟨.address a, trivial⟩
  · intro n hn v hs; cases hs; exact ⟨.subnet n hn, trivial⟩
  · intro t xs _ ih v hs
    cases hs with
    | list _ vs hs =>
      obtain ⟨h1, h2⟩ := ih vs hs
      exact ⟨.list t vs xs h1, by simpa [Fits] using h2⟩
  · intro t ns xs _ hl _ hp ih v hs
    generalize hk : Data.map (ns.map Data.string) xs = y at hs
    cases hs with
    | map ks _ vs hs =>
      simp only [Data.map.injEq] at hk
      obtain ⟨hk, rfl⟩ := hk
      have hk' : ns = ks := (List.map_injective_iff.mpr (fun a b h => by simpa using h)) hk
      subst hk'
      obtain ⟨h1, h2⟩ := ih vs hs
      refine ⟨.map t ns vs xs h1 ?_ hp, by simpa [Fits] using h2⟩
      rw [hl, showsAll_length hs]
    | _ => simp at hk
  · intro fs ns xs _ hn ih v hs
    cases hs with
    | record _ _ vs hs =>
      obtain ⟨h1, h2⟩ := ih vs hs
      exact ⟨.record fs ns vs xs h1 hn, by simpa [Fits] using h2⟩
  · intro t vs hs; cases hs; exact ⟨.nil t, trivial⟩
  · intro t x xs _ _ h1 h2 vs hs
    cases hs with
    | cons _ v _ vs hx hs =>
      obtain ⟨a, b⟩ := h1 v hx
      obtain ⟨c, d⟩ := h2 vs hs
      exact ⟨.cons v t x vs xs a c, ⟨b, d⟩⟩
  · intro vs hs; cases hs; exact ⟨.nil, trivial⟩
  · intro n t rest x ns xs _ _ _ h1 h2 vs hs
    cases hs with
    | cons _ v _ vs hx hs =>
      obtain ⟨a, b⟩ := h1 v hx
      obtain ⟨c, d⟩ := h2 vs hs
      exact ⟨.cons n t rest v x ns vs xs a c, ⟨b, d⟩⟩

theorem column_ok {t : Ty} {x : Data} (h : ColumnKept t x) : ColumnOk false t x := by
  rcases h with h | ⟨labels, n, s, rfl, rfl, h1, _, _, h2⟩
  · right
    refine ⟨?_, kept_ok h⟩
    rintro n rfl
    cases h
  · left
    exact ⟨labels, n, s, rfl, rfl, h1, h2⟩

theorem column_back {t : Ty} {x : Data} (h : ColumnKept t x) (ht : ∀ fs, t ≠ .record fs) {v : Value} (hs : ShowsField false t [x] v) :
    Means v t x ∧ Fits v := by
  rcases h with h | ⟨labels, n, s, rfl, rfl, h1, h2, h3, _⟩
  · cases hs with
    | record fs => exact absurd rfl (ht fs)
    | label labels n s hl => cases h
    | column _ _ _ _ _ hs => exact kept_back h v hs
  · cases hs with
    | label _ _ s' hl =>
      rw [h1] at hl
      simp only [Option.some.injEq] at hl
      subst hl
      exact ⟨.label labels n s h1 h2 h3, trivial⟩
    | column _ _ _ _ hn => exact absurd rfl (hn n)

mutual
theorem field_length {b : Bool} : ∀ {t : Ty} {row : List Data} {v : Value}, ShowsField b t row v → (pathsOf t).length = row.length
  | .record fs, row, v, h => by
    cases h with
    | record _ _ ns vs h => simp only [pathsOf]; exact fields_length h
    | column _ _ _ ht => exact absurd rfl (ht fs)
  | .enum _, _, _, h => by cases h <;> simp [pathsOf]
  | .none, _, _, h => by cases h; simp [pathsOf]
  | .bool, _, _, h => by cases h; simp [pathsOf]
  | .int, _, _, h => by cases h; simp [pathsOf]
  | .count, _, _, h => by cases h; simp [pathsOf]
  | .real, _, _, h => by cases h; simp [pathsOf]
  | .duration, _, _, h => by cases h; simp [pathsOf]
  | .time, _, _, h => by cases h; simp [pathsOf]
  | .string, _, _, h => by cases h; simp [pathsOf]
  | .pattern, _, _, h => by cases h; simp [pathsOf]
  | .address, _, _, h => by cases h; simp [pathsOf]
  | .subnet, _, _, h => by cases h; simp [pathsOf]
  | .list _, _, _, h => by cases h; simp [pathsOf]
  | .map _ _, _, _, h => by cases h; simp [pathsOf]
  | .alias _, _, _, h => by cases h; simp [pathsOf]
theorem fields_length {b : Bool} : ∀ {fs : Fields} {row : List Data} {ns : List Str} {vs : List Value}, ShowsFields b fs row ns vs → (paths fs).length = row.length
  | .nil, _, _, _, h => by cases h; simp [paths]
  | .cons n t rest, _, _, _, h => by
    cases h with
    | cons _ _ _ row1 row2 v ns vs h1 h2 => simp [paths, field_length h1, fields_length h2]
end

theorem fits_leaf {t : Ty} (ht : ∀ fs, t ≠ .record fs) {row : List Data} {v : Value} (hk : List.Forall₂ (fun p x => ColumnKept p.2 x) (pathsOf t) row)
    (h : ShowsField false t row v) : Fits v := by
  rw [pathsOf_leaf ht] at hk
  cases hk with
  | cons hk hr =>
    cases hr
    exact (column_back hk ht h).2

mutual
theorem fits_field : ∀ (t : Ty) (row : List Data) (v : Value), List.Forall₂ (fun p x => ColumnKept p.2 x) (pathsOf t) row → ShowsField false t row v → Fits v
  | .record fs, row, v, hk, h => by
    cases h with
    | record _ _ ns vs h =>
      simp only [pathsOf] at hk
      simp only [Fits]
      exact fits_fields fs row ns vs hk h
    | column _ _ _ ht => exact absurd rfl (ht fs)
  | .enum _, _, _, hk, h => fits_leaf (by simp) hk h
  | .none, _, _, hk, h => fits_leaf (by simp) hk h
  | .bool, _, _, hk, h => fits_leaf (by simp) hk h
  | .int, _, _, hk, h => fits_leaf (by simp) hk h
  | .count, _, _, hk, h => fits_leaf (by simp) hk h
  | .real, _, _, hk, h => fits_leaf (by simp) hk h
  | .duration, _, _, hk, h => fits_leaf (by simp) hk h
  | .time, _, _, hk, h => fits_leaf (by simp) hk h
  | .string, _, _, hk, h => fits_leaf (by simp) hk h
  | .pattern, _, _, hk, h => fits_leaf (by simp) hk h
  | .address, _, _, hk, h => fits_leaf (by simp) hk h
  | .subnet, _, _, hk, h => fits_leaf (by simp) hk h
  | .list _, _, _, hk, h => fits_leaf (by simp) hk h
  | .map _ _, _, _, hk, h => fits_leaf (by simp) hk h
  | .alias _, _, _, hk, h => fits_leaf (by simp) hk h
theorem fits_fields : ∀ (fs : Fields) (row : List Data) (ns : List Str) (vs : List Value), List.Forall₂ (fun p x => ColumnKept p.2 x) (paths fs) row →
    ShowsFields false fs row ns vs → FitsAll vs
  | .nil, _, _, _, _, h => by cases h; trivial
  | .cons n t rest, row, ns, vs, hk, h => by
    cases h with
    | cons _ _ _ row1 row2 v ns vs h1 h2 =>
      simp only [paths] at hk
      have hlen : ((pathsOf t).map (fun p => (n :: p.1, p.2))).length = row1.length := by
        rw [List.length_map]; exact field_length h1
      have hk1 := List.forall₂_take_append _ _ _ hk
      have hk2 := List.forall₂_drop_append _ _ _ hk
      rw [← hlen, List.take_left] at hk1
      rw [← hlen, List.drop_left] at hk2
      rw [List.forall₂_map_left_iff] at hk1
      exact ⟨fits_field t row1 v hk1 h1, fits_fields rest row2 ns vs hk2 h2⟩
end

/-! ## Where the values are -/

theorem paths_leaf : ∀ (t : Ty) (p : List Str × Ty), p ∈ pathsOf t → ∀ fs, p.2 ≠ .record fs := by
  intro t
  refine Ty.rec (motive_1 := fun t => ∀ p ∈ pathsOf t, ∀ fs, p.2 ≠ .record fs) (motive_2 := fun fs => ∀ p ∈ paths fs, ∀ fs', p.2 ≠ .record fs')
    ?_ ?_ ?_ ?_ ?_ ?_ ?_ ?_ ?_ ?_ ?_ ?_ ?_ ?_ ?_ ?_ ?_ ?_ t
  all_goals try (intros; simp_all [pathsOf]; done)
  · intro fs ih p hp; simp only [pathsOf] at hp; exact ih p hp
  · intro p hp; simp [paths] at hp
  · intro n t rest ih1 ih2 p hp
    simp only [paths, List.mem_append, List.mem_map] at hp
    rcases hp with ⟨q, hq, rfl⟩ | hp
    · exact ih1 q hq
    · exact ih2 p hp

theorem shows_names {b : Bool} : ∀ {fs : Fields} {row : List Data} {ns : List Str} {vs : List Value}, ShowsFields b fs row ns vs → ns = topNames fs ∧ vs.length = ns.length
  | .nil, _, _, _, h => by cases h; simp [topNames]
  | .cons n t rest, _, _, _, h => by
    cases h with
    | cons _ _ _ _ _ _ _ _ _ h =>
      obtain ⟨h1, h2⟩ := shows_names h
      refine ⟨by simp [topNames, h1], by simp [h2]⟩

theorem member_head (n : Str) (v : Value) (ns : List Str) (vs : List Value) : Member n (n :: ns) (v :: vs) (some v) :=
  member_iff.mpr (by simp [atKey])

theorem member_skip {n k : Str} (h : n ≠ k) {v : Value} {ns : List Str} {vs : List Value} {r : Option Value} (hm : Member k ns vs r) :
    Member k (n :: ns) (v :: vs) r :=
  member_iff.mpr (by simp only [atKey, if_neg h]; exact member_iff.mp hm)

theorem dotted_dot (n m : Str) (p : List Str) : (46 : UInt8) ∈ dotted (n :: m :: p) := by simp [dotted]

theorem finds_skip {n : Str} (hn : (46 : UInt8) ∉ n) {v : Value} {parts ns : List Str} {vs : List Value} {r : Option Value} (h : Finds parts ns vs r)
    (hp : parts.head? ≠ some n) : Finds parts (n :: ns) (v :: vs) r := by
  cases h with
  | last k _ _ _ h => exact .last _ _ _ _ (member_skip (by rintro rfl; exact hp rfl) h)
  | inside k m p _ ns' _ vs' _ h1 h2 => exact .inside _ _ _ _ ns' _ vs' _ (member_skip (by rintro rfl; exact hp rfl) h1) h2
  | whole k m p _ _ _ h1 h2 =>
    exact .whole _ _ _ _ _ _ (member_skip (by rintro rfl; exact hp rfl) h1) (member_skip (by rintro rfl; exact hn (dotted_dot _ _ _)) h2)
  | blocked k m p _ _ w h1 h2 => exact .blocked _ _ _ _ _ w (member_skip (by rintro rfl; exact hp rfl) h1) h2

theorem paths_head (fs : Fields) : ∀ p ∈ paths fs, ∃ n q, p.1 = n :: q ∧ n ∈ topNames fs := by
  intro p hp
  match fs with
  | .nil => simp [paths] at hp
  | .cons n t rest =>
    simp only [paths, List.mem_append, List.mem_map] at hp
    rcases hp with ⟨q, _, rfl⟩ | hp
    · exact ⟨n, q.1, rfl, by simp [topNames]⟩
    · obtain ⟨m, q, h1, h2⟩ := paths_head rest p hp
      exact ⟨m, q, h1, by simp [topNames, h2]⟩

theorem forall2_imp_mem {α β : Type} {R S : α → β → Prop} : ∀ {xs : List α} {ys : List β}, List.Forall₂ R xs ys → (∀ x ∈ xs, ∀ y ∈ ys, R x y → S x y) → List.Forall₂ S xs ys
  | [], [], _, _ => .nil
  | x :: xs, y :: ys, h, f => by
    cases h with
    | cons h hs => exact .cons (f x (by simp) y (by simp) h) (forall2_imp_mem hs fun a ha b hb => f a (by simp [ha]) b (by simp [hb]))

/-- The value of a path, within the value of a field. -/
def FindsIn (parts : List Str) (v w : Value) : Prop :=
  (parts = [] ∧ w = v) ∨ (parts ≠ [] ∧ ∃ ns vs, v = .obj ns vs ∧ Finds parts ns vs (some w))

theorem finds_leaf {b : Bool} {t : Ty} (ht : ∀ fs, t ≠ .record fs) {row : List Data} {v : Value} (h : ShowsField b t row v) :
    List.Forall₂ (fun p x => ∃ w, FindsIn p.1 v w ∧ ShowsField b p.2 [x] w) (pathsOf t) row := by
  rw [pathsOf_leaf ht]
  cases h with
  | record fs => exact absurd rfl (ht fs)
  | label labels n s hl => exact .cons ⟨_, .inl ⟨rfl, rfl⟩, .label labels n s hl⟩ .nil
  | column _ x _ h1 h2 h3 => exact .cons ⟨v, .inl ⟨rfl, rfl⟩, .column t x v h1 h2 h3⟩ .nil

mutual
theorem finds_field (b : Bool) : ∀ (t : Ty) (row : List Data) (v : Value), DistinctIn t → ShowsField b t row v →
    List.Forall₂ (fun p x => ∃ w, FindsIn p.1 v w ∧ ShowsField b p.2 [x] w) (pathsOf t) row
  | .record fs, row, v, hd, h => by
    cases h with
    | record _ _ ns vs h =>
      simp only [pathsOf]
      refine forall2_imp_mem (finds_fields b fs row ns vs (by simpa [DistinctIn] using hd) h) ?_
      rintro p hp x _ ⟨w, h1, h2⟩
      exact ⟨w, .inr ⟨paths_ne fs p hp, ns, vs, rfl, h1⟩, h2⟩
    | column _ _ _ ht => exact absurd rfl (ht fs)
  | .enum _, row, v, _, h => finds_leaf (by simp) h
  | .none, row, v, _, h => finds_leaf (by simp) h
  | .bool, row, v, _, h => finds_leaf (by simp) h
  | .int, row, v, _, h => finds_leaf (by simp) h
  | .count, row, v, _, h => finds_leaf (by simp) h
  | .real, row, v, _, h => finds_leaf (by simp) h
  | .duration, row, v, _, h => finds_leaf (by simp) h
  | .time, row, v, _, h => finds_leaf (by simp) h
  | .string, row, v, _, h => finds_leaf (by simp) h
  | .pattern, row, v, _, h => finds_leaf (by simp) h
  | .address, row, v, _, h => finds_leaf (by simp) h
  | .subnet, row, v, _, h => finds_leaf (by simp) h
  | .list _, row, v, _, h => finds_leaf (by simp) h
  | .map _ _, row, v, _, h => finds_leaf (by simp) h
  | .alias _, row, v, _, h => finds_leaf (by simp) h
theorem finds_fields (b : Bool) : ∀ (fs : Fields) (row : List Data) (ns : List Str) (vs : List Value), Distinct fs → ShowsFields b fs row ns vs →
    List.Forall₂ (fun p x => ∃ w, Finds p.1 ns vs (some w) ∧ ShowsField b p.2 [x] w) (paths fs) row
  | .nil, row, ns, vs, _, h => by cases h; simp [paths]
  | .cons n t rest, row, ns, vs, hd, h => by
    cases h with
    | cons _ _ _ row1 row2 v ns vs h1 h2 =>
      simp only [Distinct] at hd
      obtain ⟨d1, d2, d3, d4⟩ := hd
      simp only [paths]
      apply List.rel_append
      · rw [List.forall₂_map_left_iff]
        refine forall2_imp_mem (finds_field b t row1 v d3 h1) ?_
        rintro p _ x _ ⟨w, hw, hs⟩
        refine ⟨w, ?_, hs⟩
        rcases hw with ⟨e, rfl⟩ | ⟨hne, ns', vs', rfl, hw⟩
        · simp only [e]; exact .last _ _ _ _ (member_head _ _ _ _)
        · simp only
          cases hp : p.1 with
          | nil => exact absurd hp hne
          | cons m q => rw [hp] at hw; exact .inside _ _ _ _ _ _ _ _ (member_head _ _ _ _) hw
      · refine forall2_imp_mem (finds_fields b rest row2 ns vs d4 h2) ?_
        rintro p hp x _ ⟨w, hw, hs⟩
        refine ⟨w, finds_skip d1 hw ?_, hs⟩
        obtain ⟨m, q, e, hm⟩ := paths_head rest p hp
        rw [e]
        simp only [List.head?_cons, ne_eq, Option.some.injEq]
        rintro rfl
        exact d2 hm
end

/-! ## Flat objects -/

theorem paths_free : ∀ (t : Ty), DistinctIn t → ∀ p ∈ pathsOf t, ∀ n ∈ p.1, (46 : UInt8) ∉ n := by
  intro t
  refine Ty.rec (motive_1 := fun t => DistinctIn t → ∀ p ∈ pathsOf t, ∀ n ∈ p.1, (46 : UInt8) ∉ n)
    (motive_2 := fun fs => Distinct fs → ∀ p ∈ paths fs, ∀ n ∈ p.1, (46 : UInt8) ∉ n)
    ?_ ?_ ?_ ?_ ?_ ?_ ?_ ?_ ?_ ?_ ?_ ?_ ?_ ?_ ?_ ?_ ?_ ?_ t
  all_goals try (intros; simp_all [pathsOf]; done)
  · intro fs ih hd p hp; simp only [pathsOf] at hp; exact ih (by simpa [DistinctIn] using hd) p hp
  · intro _ p hp; simp [paths] at hp
  · intro n t rest ih1 ih2 hd p hp
    simp only [Distinct] at hd
    simp only [paths, List.mem_append, List.mem_map] at hp
    rcases hp with ⟨q, hq, rfl⟩ | hp
    · intro m hm
      rcases List.mem_cons.mp hm with rfl | hm
      · exact hd.1
      · exact ih1 hd.2.2.1 q hq m hm
    · exact ih2 hd.2.2.2 p hp

theorem paths_nodup : ∀ (t : Ty), DistinctIn t → ((pathsOf t).map (·.1)).Nodup := by
  intro t
  refine Ty.rec (motive_1 := fun t => DistinctIn t → ((pathsOf t).map (·.1)).Nodup)
    (motive_2 := fun fs => Distinct fs → ((paths fs).map (·.1)).Nodup)
    ?_ ?_ ?_ ?_ ?_ ?_ ?_ ?_ ?_ ?_ ?_ ?_ ?_ ?_ ?_ ?_ ?_ ?_ t
  all_goals try (intros; simp_all [pathsOf]; done)
  · intro fs ih hd; simp only [pathsOf]; exact ih (by simpa [DistinctIn] using hd)
  · intro _; simp [paths]
  · intro n t rest ih1 ih2 hd
    simp only [Distinct] at hd
    simp only [paths, List.map_append, List.map_map]
    rw [List.nodup_append]
    refine ⟨?_, ih2 hd.2.2.2, ?_⟩
    · have e : (fun p : List Str × Ty => p.1) ∘ (fun p : List Str × Ty => (n :: p.1, p.2)) = (fun q => n :: q) ∘ (fun p : List Str × Ty => p.1) := rfl
      rw [e, ← List.map_map]
      exact List.Nodup.map (fun a b h => by simpa using h) (ih1 hd.2.2.1)
    · intro a ha b hb
      obtain ⟨p, _, rfl⟩ := List.mem_map.mp ha
      obtain ⟨q, hq, rfl⟩ := List.mem_map.mp hb
      obtain ⟨m, r, e, hm⟩ := paths_head rest q hq
      simp only [Function.comp_apply]
      rw [e]
      intro he
      simp only [List.cons.injEq] at he
      exact hd.2.1 (he.1 ▸ hm)

/-- A column at the top does not have the name of a record at the top. -/
theorem paths_top : ∀ (fs : Fields), Distinct fs → ∀ p ∈ paths fs, ∀ n m q, p.1 = n :: m :: q → ∀ p' ∈ paths fs, p'.1 ≠ [n]
  | .nil, _, p, hp, _, _, _, _, _, _ => by simp [paths] at hp
  | .cons k t rest, hd, p, hp, n, m, q, e, p', hp' => by
    simp only [Distinct] at hd
    simp only [paths, List.mem_append, List.mem_map] at hp hp'
    intro e'
    rcases hp with ⟨a, ha, rfl⟩ | hp
    · simp only [List.cons.injEq] at e
      rcases hp' with ⟨b, hb, rfl⟩ | hp'
      · simp only [List.cons.injEq] at e'
        by_cases ht : ∃ fs, t = .record fs
        · obtain ⟨fs, rfl⟩ := ht
          simp only [pathsOf] at hb
          exact paths_ne fs b hb e'.2
        · rw [pathsOf_leaf (by intro fs h; exact ht ⟨fs, h⟩)] at ha
          simp only [List.mem_singleton] at ha
          subst ha
          simp at e
      · obtain ⟨x, r, e2, hx⟩ := paths_head rest p' hp'
        rw [e'] at e2
        simp only [List.cons.injEq] at e2
        exact hd.2.1 (by rw [e.1, e2.1]; exact hx)
    · rcases hp' with ⟨b, hb, rfl⟩ | hp'
      · obtain ⟨x, r, e2, hx⟩ := paths_head rest p hp
        rw [e] at e2
        simp only [List.cons.injEq] at e2 e'
        exact hd.2.1 (by rw [e'.1, e2.1]; exact hx)
      · exact paths_top rest hd.2.2.2 p hp n m q e p' hp' e'

theorem member_zip {ns : List Str} (hn : ns.Nodup) : ∀ {vs : List Value} {n : Str} {v : Value}, (n, v) ∈ ns.zip vs → Member n ns vs (some v) := by
  intro vs n v h
  obtain ⟨i, hi⟩ := List.mem_iff_getElem?.mp h
  refine ⟨i, hi, ?_⟩
  intro j w hj hw
  rw [List.getElem?_zip_eq_some] at hi hw
  have := (List.nodup_iff_getElem?_ne_getElem?.mp hn) j i hj (List.getElem?_eq_some_iff.mp hi.1).1
  exact this (hw.1.trans hi.1.symm)

theorem finds_flat {fs : Fields} (hd : Distinct fs) {vs : List Value} {p : List Str × Ty} {v : Value} (h : (p, v) ∈ (paths fs).zip vs) :
    Finds p.1 ((paths fs).map fun p => dotted p.1) vs (some v) := by
  have hfree := fun p hp => paths_free (.record fs) (by simpa [DistinctIn] using hd) p (by simpa [pathsOf] using hp)
  have hnd : ((paths fs).map fun p => dotted p.1).Nodup := by
    have h1 := paths_nodup (.record fs) (by simpa [DistinctIn] using hd)
    simp only [pathsOf] at h1
    have e : ((paths fs).map fun p => dotted p.1) = ((paths fs).map (·.1)).map dotted := by rw [List.map_map]; rfl
    rw [e]
    refine List.Nodup.map_on ?_ h1
    intro a ha b hb he
    obtain ⟨p, hp, rfl⟩ := List.mem_map.mp ha
    obtain ⟨q, hq, rfl⟩ := List.mem_map.mp hb
    exact parts_unique (key := dotted p.1) ⟨paths_ne fs p hp, hfree p hp, rfl⟩ ⟨paths_ne fs q hq, hfree q hq, he.symm⟩
  have hp : p ∈ paths fs := (List.of_mem_zip h).1
  have hm : Member (dotted p.1) ((paths fs).map fun p => dotted p.1) vs (some v) := by
    apply member_zip hnd
    rw [List.zip_map_left, List.mem_map]
    exact ⟨(p, v), h, rfl⟩
  cases hq : p.1 with
  | nil => exact absurd hq (paths_ne fs p hp)
  | cons n q =>
    cases q with
    | nil => rw [hq] at hm; exact .last _ _ _ _ hm
    | cons m q =>
      rw [hq] at hm
      refine .whole _ _ _ _ _ _ ?_ hm
      intro w hw
      have := (List.of_mem_zip hw).1
      obtain ⟨p', hp', e⟩ := List.mem_map.mp this
      have h1 := parts_unique (key := n) (p := p'.1) (q := [n]) ⟨paths_ne fs p' hp', hfree p' hp', e⟩
        ⟨by simp, by simp only [List.mem_singleton, forall_eq]; exact hfree p hp n (by rw [hq]; simp), rfl⟩
      exact paths_top fs hd p hp n m q hq p' hp' h1

end Verif.Json
