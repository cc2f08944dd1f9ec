import Verif.Broker.Values
/-!
The types of columns.
-/
namespace Verif.Broker
open Verif.Data Verif.Calendar Spec

theorem tag_small (n : Nat) (h : n < 26) : Tag.of (signed 4 (n % 2 ^ 32)) = Tag.all[n]? := by
  rw [Nat.mod_eq_of_lt (by omega), signed, if_pos (by norm_num; omega), Tag.of, if_pos (by omega), Int.toNat_natCast]

theorem plain_convert {type : Nat} {t : Ty} (h : (type, t) ∈ plainTypes) (n : Nat) (sub : Option Tag) :
    convert (n + 1) (Tag.of (signed 4 (type % 2 ^ 32))) sub = some t := by
  have hl : type < 26 := by
    simp only [plainTypes, List.mem_cons, Prod.mk.injEq, List.not_mem_nil, or_false] at h
    omega
  rw [tag_small type hl]
  simp only [plainTypes, List.mem_cons, Prod.mk.injEq, List.not_mem_nil, or_false] at h
  rcases h with ⟨rfl, rfl⟩ | ⟨rfl, rfl⟩ | ⟨rfl, rfl⟩ | ⟨rfl, rfl⟩ | ⟨rfl, rfl⟩ | ⟨rfl, rfl⟩ | ⟨rfl, rfl⟩ | ⟨rfl, rfl⟩ | ⟨rfl, rfl⟩
    | ⟨rfl, rfl⟩ | ⟨rfl, rfl⟩ | ⟨rfl, rfl⟩ <;> rfl

theorem typeOf_convert {type sub : Nat} {t : Ty} (h : TypeOf type sub t) :
    convert 2 (Tag.of (signed 4 (type % 2 ^ 32))) (Tag.of (signed 4 (sub % 2 ^ 32))) = some t := by
  cases h with
  | plain _ h => exact plain_convert h 1 _
  | list t ht h =>
    have e := plain_convert h 0 (some .error)
    have hne : Tag.of (signed 4 (sub % 2 ^ 32)) ≠ some .table := by
      intro hc
      rw [hc] at e
      cases e
    rw [tag_small type (by omega)]
    rcases ht with rfl | rfl
    all_goals
      show (convert 1 _ _).map _ = _
      rw [e, Option.map_some, if_neg hne]

theorem plain_of_convert {type : Nat} {n : Nat} {t : Ty} {sub : Option Tag} (ht : type < 2 ^ 32)
    (h : convert (n + 1) (Tag.of (signed 4 (type % 2 ^ 32))) sub = some t) :
    (type, t) ∈ plainTypes ∨ ((type = 16 ∨ type = 22) ∧ ∃ u, convert n sub (some .error) = some u ∧ t = .list (if sub = some .table then .set u else u)) := by
  rw [Nat.mod_eq_of_lt ht] at h
  rw [convert.eq_def] at h
  simp only [] at h
  split at h
  all_goals first | (cases h; done) | skip
  all_goals rename_i htag
  case h_1 => cases h; rw [tag_number ht htag 1 rfl]; exact .inl (by decide)
  case h_2 => cases h; rw [tag_number ht htag 2 rfl]; exact .inl (by decide)
  case h_3 => cases h; rw [tag_number ht htag 3 rfl]; exact .inl (by decide)
  case h_4 => cases h; rw [tag_number ht htag 4 rfl]; exact .inl (by decide)
  case h_5 => cases h; rw [tag_number ht htag 12 rfl]; exact .inl (by decide)
  case h_6 => cases h; rw [tag_number ht htag 13 rfl]; exact .inl (by decide)
  case h_7 => cases h; rw [tag_number ht htag 14 rfl]; exact .inl (by decide)
  case h_8 => cases h; rw [tag_number ht htag 5 rfl]; exact .inl (by decide)
  case h_9 => cases h; rw [tag_number ht htag 6 rfl]; exact .inl (by decide)
  case h_10 => cases h; rw [tag_number ht htag 7 rfl]; exact .inl (by decide)
  case h_11 => cases h; rw [tag_number ht htag 10 rfl]; exact .inl (by decide)
  case h_12 => cases h; rw [tag_number ht htag 8 rfl]; exact .inl (by decide)
  case h_13 =>
    obtain ⟨u, h1, h2⟩ := Option.map_eq_some_iff.mp h
    exact .inr ⟨.inl (tag_number ht htag 16 rfl), u, h1, h2.symm⟩
  case h_14 =>
    obtain ⟨u, h1, h2⟩ := Option.map_eq_some_iff.mp h
    exact .inr ⟨.inr (tag_number ht htag 22 rfl), u, h1, h2.symm⟩

theorem convert_typeOf {type sub : Nat} {t : Ty} (ht : type < 2 ^ 32) (hs : sub < 2 ^ 32)
    (h : convert 2 (Tag.of (signed 4 (type % 2 ^ 32))) (Tag.of (signed 4 (sub % 2 ^ 32))) = some t) : TypeOf type sub t := by
  rcases plain_of_convert ht h with h | ⟨h16, u, h1, rfl⟩
  · exact .plain _ _ _ h
  · rcases plain_of_convert hs h1 with h | ⟨_, v, h2, _⟩
    · have : Tag.of (signed 4 (sub % 2 ^ 32)) ≠ some .table := by
        intro hc
        rw [hc] at h1
        cases h1
      rw [if_neg this]
      exact .list _ _ _ h16 h
    · cases h2

theorem plain_unique {type : Nat} {t u : Ty} (h1 : (type, t) ∈ plainTypes) (h2 : (type, u) ∈ plainTypes) : t = u :=
  Option.some.inj ((plain_convert h1 0 none).symm.trans (plain_convert h2 0 none))

theorem typeOf_unique {type sub : Nat} {t u : Ty} (h1 : TypeOf type sub t) (h2 : TypeOf type sub u) : t = u :=
  Option.some.inj ((typeOf_convert h1).symm.trans (typeOf_convert h2))

theorem typeOf_time {type sub : Nat} (h : TypeOf type sub .time) : type = 6 := by
  cases h with
  | plain _ h => simpa [plainTypes] using h

theorem typeOf_six {sub : Nat} {t : Ty} (h : TypeOf 6 sub t) : t = .time :=
  typeOf_unique h (.plain _ _ _ (by decide))

/-! ### zeekify -/

/-- A column that is a time named `ts`. -/
def ColTs (c : Str × Ty) : Prop := c.1 = str "ts" ∧ c.2 = .time

theorem stamp_length (cs : List (Str × Ty)) : (stamp cs).length = cs.length := by
  induction cs with
  | nil => rfl
  | cons c cs ih =>
    obtain ⟨name, t⟩ := c
    rw [stamp]
    split <;> simp [ih]

theorem stamp_get (cs : List (Str × Ty)) : ∀ (i : Nat) (c : Str × Ty), cs[i]? = some c → ∃ d, (stamp cs)[i]? = some d ∧ d.1 = c.1 ∧
    ((ColTs c ∧ ∀ j g, j < i → cs[j]? = some g → ¬ ColTs g) → d.2 = .timestamp) ∧
    (¬ (ColTs c ∧ ∀ j g, j < i → cs[j]? = some g → ¬ ColTs g) → d.2 = c.2) := by
  induction cs with
  | nil => intro i c h; simp at h
  | cons c0 cs ih =>
    obtain ⟨name, t⟩ := c0
    intro i c h
    rw [stamp]
    by_cases hc : name = str "ts" ∧ t = .time
    · rw [if_pos hc]
      cases i with
      | zero =>
        cases h
        exact ⟨_, rfl, rfl, fun _ => rfl, fun hn => absurd ⟨hc, fun j g hj => absurd hj (Nat.not_lt_zero _)⟩ hn⟩
      | succ i =>
        refine ⟨c, h, rfl, fun hh => absurd hc (hh.2 0 (name, t) (by omega) rfl), fun _ => rfl⟩
    · rw [if_neg hc]
      cases i with
      | zero =>
        cases h
        exact ⟨_, rfl, rfl, fun hh => absurd hh.1 hc, fun _ => rfl⟩
      | succ i =>
        obtain ⟨d, h1, h2, h3, h4⟩ := ih i c (by simpa using h)
        refine ⟨d, by simpa using h1, h2, fun hh => h3 ⟨hh.1, fun j g hj hg => hh.2 (j + 1) g (by omega) (by simpa using hg)⟩, fun hh => h4 fun hh' => hh ⟨hh'.1, ?_⟩⟩
        intro j g hj hg
        cases j with
        | zero => cases hg; exact hc
        | succ j => exact hh'.2 j g (by omega) (by simpa using hg)

/-! ### The layout of a log -/

theorem columns_some {fs : List Field} {ds : List BData} (hd : List.Forall₂ FieldMsg fs ds) (ht : ∀ f ∈ fs, ∃ t, TypeOf f.2.1 f.2.2 t) :
    ∃ cs, columnsOf ds = some cs ∧ List.Forall₂ (fun f c => c.1 = f.1 ∧ TypeOf f.2.1 f.2.2 c.2) fs cs := by
  induction hd with
  | nil => exact ⟨[], rfl, .nil⟩
  | @cons f d fs ds h _ ih =>
    obtain ⟨x, y, rfl⟩ := h
    obtain ⟨t, h1⟩ := ht f (by simp)
    obtain ⟨cs, h2, h3⟩ := ih fun g hg => ht g (by simp [hg])
    refine ⟨(f.1, t) :: cs, ?_, .cons ⟨rfl, h1⟩ h3⟩
    simp only [columnsOf, fieldOf, typeOf_convert h1, h2, Option.map_some]

theorem columns_inv {fs : List Field} {ds : List BData} (hd : List.Forall₂ FieldMsg fs ds) (hr : ∀ f ∈ fs, f.2.1 < 2 ^ 32 ∧ f.2.2 < 2 ^ 32)
    {cs : List (Str × Ty)} (h : columnsOf ds = some cs) : ∀ f ∈ fs, ∃ t, TypeOf f.2.1 f.2.2 t := by
  induction hd generalizing cs with
  | nil => intro f hf; cases hf
  | @cons f d fs ds h0 _ ih =>
    obtain ⟨x, y, rfl⟩ := h0
    simp only [columnsOf, fieldOf] at h
    split at h
    · cases h
    · rename_i t ht
      obtain ⟨cs', h1, _⟩ := Option.map_eq_some_iff.mp h
      intro g hg
      rcases List.mem_cons.mp hg with rfl | hg
      · exact ⟨t, convert_typeOf (hr _ (by simp)).1 (hr _ (by simp)).2 ht⟩
      · exact ih (fun g hg => hr g (by simp [hg])) h1 g hg

theorem forall2_get {α β : Type} {R : α → β → Prop} {as : List α} {bs : List β} (h : List.Forall₂ R as bs) (i : Nat) :
    (∀ b, bs[i]? = some b → ∃ a, as[i]? = some a ∧ R a b) ∧ (∀ a, as[i]? = some a → ∃ b, bs[i]? = some b ∧ R a b) := by
  induction h generalizing i with
  | nil => simp
  | cons h _ ih =>
    cases i with
    | zero => exact ⟨fun b hb => ⟨_, rfl, by cases hb; exact h⟩, fun a ha => ⟨_, rfl, by cases ha; exact h⟩⟩
    | succ i => simpa using ih i

theorem layout_columns {log : Log} {cs : List (Str × Ty)} (h : List.Forall₂ (fun f c => c.1 = f.1 ∧ TypeOf f.2.1 f.2.2 c.2) log.2 cs) :
    LayoutOf log (zeekify (str "zeek." ++ log.1, cs)) := by
  refine ⟨rfl, ?_, ?_⟩
  · simp only [zeekify, List.length_map, stamp_length]
    exact h.length_eq.symm
  · intro i c hc
    simp only [zeekify, List.getElem?_map, Option.map_eq_some_iff] at hc
    obtain ⟨d, hd, rfl⟩ := hc
    have hi : i < cs.length := by
      have := (List.getElem?_eq_some_iff.mp hd).1
      rwa [stamp_length] at this
    obtain ⟨d', h1, h2, h3, h4⟩ := stamp_get cs i cs[i] (List.getElem?_eq_getElem hi)
    have hdd : d = d' := by rw [hd] at h1; exact Option.some.inj h1
    subst hdd
    obtain ⟨f, hf, e1, e2⟩ := (forall2_get h i).1 cs[i] (List.getElem?_eq_getElem hi)
    have hts : ∀ (j : Nat) (f : Field) (c : Str × Ty), log.2[j]? = some f → cs[j]? = some c → (ColTs c ↔ Field.isTs f) := by
      intro j f c hf hc
      obtain ⟨f', hf', e1, e2⟩ := (forall2_get h j).1 c hc
      rw [hf] at hf'
      cases hf'
      constructor
      · rintro ⟨a, b⟩
        rw [b] at e2
        exact ⟨e1 ▸ a, typeOf_time e2⟩
      · rintro ⟨a, b⟩
        rw [b] at e2
        exact ⟨e1.trans a, typeOf_six e2⟩
    have hst : (ColTs cs[i] ∧ ∀ j g, j < i → cs[j]? = some g → ¬ ColTs g) ↔ IsStamp log.2 i := by
      constructor
      · rintro ⟨a, b⟩
        refine ⟨⟨f, hf, (hts i f _ hf (List.getElem?_eq_getElem hi)).mp a⟩, fun j g hj hg hts' => ?_⟩
        obtain ⟨c, hc, -⟩ := (forall2_get h j).2 g hg
        exact b j c hj hc ((hts j g c hg hc).mpr hts')
      · rintro ⟨⟨f', hf', a⟩, b⟩
        rw [hf] at hf'
        cases hf'
        refine ⟨(hts i f _ hf (List.getElem?_eq_getElem hi)).mpr a, fun j c hj hc hts' => ?_⟩
        obtain ⟨g, hg, -⟩ := (forall2_get h j).1 c hc
        exact b j g hj hg ((hts j g c hg hc).mp hts')
    refine ⟨f, cs[i].2, hf, e2, ?_, fun hs => ?_, fun hs => ?_⟩
    · rw [hash]
      split <;> simp [h2, e1]
    · have := h3 (hst.mpr hs)
      rw [hash, if_neg (by rw [this]; simp), this]
    · have := h4 fun hh => hs (hst.mp hh)
      rw [hash, this, h2, e1]
      simp only [List.mem_cons, List.not_mem_nil, or_false]
      split <;> simp_all

theorem layout_unique {log : Log} {l m : Layout} (h1 : LayoutOf log l) (h2 : LayoutOf log m) : l = m := by
  obtain ⟨a1, a2, a3⟩ := h1
  obtain ⟨b1, b2, b3⟩ := h2
  refine Prod.ext (a1.trans b1.symm) (List.ext_getElem? fun i => ?_)
  by_cases hi : i < l.2.length
  · have hi' : i < m.2.length := by omega
    rw [List.getElem?_eq_getElem hi, List.getElem?_eq_getElem hi']
    obtain ⟨f, t, c1, c2, c3, c4, c5⟩ := a3 i _ (List.getElem?_eq_getElem hi)
    obtain ⟨g, u, d1, d2, d3, d4, d5⟩ := b3 i _ (List.getElem?_eq_getElem hi')
    rw [c1] at d1
    cases d1
    have := typeOf_unique c2 d2
    subst this
    congr 1
    refine Prod.ext (c3.trans d3.symm) ?_
    by_cases hs : IsStamp log.2 i
    · rw [c4 hs, d4 hs]
    · rw [c5 hs, d5 hs]
  · rw [List.getElem?_eq_none (by omega), List.getElem?_eq_none (by omega)]

/-! ### Values of a column -/

theorem accepts_none (t : Ty) : accepts t .none = true := by
  induction t with
  | set t ih => rw [accepts]; exact ih
  | _ => rfl

theorem plain_accepts {type : Nat} {t : Ty} {x : Data} (h1 : (type, t) ∈ plainTypes) (h2 : Typed type x) : accepts t x = true := by
  simp only [plainTypes, List.mem_cons, Prod.mk.injEq, List.not_mem_nil, or_false] at h1
  cases h2 with
  | none => exact accepts_none t
  | count type n hc =>
    rcases hc with rfl | rfl | rfl <;> simp at h1 <;> subst h1 <;> rfl
  | text type s hc =>
    simp only [List.mem_cons, List.not_mem_nil, or_false] at hc
    rcases hc with rfl | rfl | rfl | rfl <;> simp at h1 <;> subst h1 <;> rfl
  | _ => simp at h1; subst h1; rfl

theorem fits_accepts {type sub : Nat} {t : Ty} {x : Data} (h1 : TypeOf type sub t) (h2 : Fits type sub x) : accepts t x = true := by
  cases h1 with
  | plain _ h =>
    cases h2 with
    | plain _ hx => exact plain_accepts h hx
    | list xs ht _ =>
      simp only [plainTypes, List.mem_cons, Prod.mk.injEq, List.not_mem_nil, or_false] at h
      omega
  | list t ht h =>
    cases h2 with
    | plain _ hx =>
      cases hx with
      | none => exact accepts_none _
      | count type n hc => omega
      | text type s hc => simp at hc; omega
      | _ => omega
    | list xs _ hx =>
      rw [accepts, List.all_eq_true]
      exact fun x hx' => plain_accepts h (hx x hx')

theorem column_accepts {fs : List Field} {i : Nat} {c : Str × Ty} {f : Field} {x : Data} (hc : Column fs i c) (hf : fs[i]? = some f)
    (hx : Fits f.2.1 f.2.2 x) : accepts c.2 x = true := by
  obtain ⟨g, t, h1, h2, h3, h4, h5⟩ := hc
  rw [hf] at h1
  cases h1
  have ha := fits_accepts h2 hx
  by_cases hs : IsStamp fs i
  · obtain ⟨⟨g, hg, hts⟩, -⟩ := id hs
    rw [hf] at hg
    cases hg
    rw [hts.2] at h2
    have := typeOf_six h2
    subst this
    rw [h4 hs]
    cases x <;> first | rfl | simp [accepts] at ha
  · rw [h5 hs]
    split
    · rename_i hh
      rw [hh.1] at ha
      cases x <;> first | rfl | simp [accepts] at ha
    · exact ha

end Verif.Broker
