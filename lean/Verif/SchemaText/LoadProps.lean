import Verif.SchemaText.Props

/-! # C98: examples, counterexamples and several directories -/

namespace Verif.SchemaText

open Verif.Types (Name Meta)
open Spec

/-- Names and attributes for the examples. -/
def named (n : UInt8) : Meta := ⟨[n], []⟩

/-- `type a = record{x: int}` -/
def exA : T := .record (.cons [120] (.basic .int {}) .nil) (named 97)
/-- `type b = list<a>` -/
def exB : T := .list (.none (named 97)) (named 98)
/-- `type c = a + record{y: g}` -/
def exC : T := .record (.cons [] (.none (named 97)) (.cons [43] (.record (.cons [121] (.none (named 103)) .nil) {}) .nil))
  ⟨[99], [(algebraKey, none)]⟩
/-- `type g = string`, a global symbol -/
def exG : T := .basic .string (named 103)
/-- `record{x: int, y: g}`, named `c` -/
def exC' : T := .record (.cons [120] (.basic .int {}) (.cons [121] exG .nil)) (named 99)

def exSymbols : List (Name × T) := [([99], exC), ([98], exB), ([97], exA)]
def exGlobals : List (Name × T) := [([103], exG)]

theorem exParsed : Parsed exSymbols := by
  refine ⟨by decide, ?_⟩
  intro n d h
  simp only [exSymbols, List.mem_cons, List.not_mem_nil, or_false, Prod.mk.injEq] at h
  rcases h with ⟨rfl, rfl⟩ | ⟨rfl, rfl⟩ | ⟨rfl, rfl⟩ <;> exact ⟨by decide, by decide, fun m h => by cases h⟩

theorem exMeansA {self : Name} (h : [97] ≠ self) : Means exGlobals exSymbols self (.none (named 97)) exA :=
  .symbol (t := exA) (by decide) h (show _ ∈ [_, _, _] from by simp [exA]) (.record (by simp [named]) (.cons .basic .nil))

theorem exMeans : ∀ n d, (n, d) ∈ exSymbols → ∃ t, Means exGlobals exSymbols n d t := by
  intro n d h
  simp only [exSymbols, List.mem_cons, List.not_mem_nil, or_false, Prod.mk.injEq] at h
  rcases h with ⟨rfl, rfl⟩ | ⟨rfl, rfl⟩ | ⟨rfl, rfl⟩
  · refine ⟨exC', .algebra (v := none) (by simp) (.cons (exMeansA (by decide)) (.cons (.record (by simp)
      (.cons (.global (t := exG) (by decide) (.inr ?_) (by simp [exGlobals])) .nil)) .nil)) ?_⟩
    · intro d h; simp [exSymbols] at h
    · exact (algebra_iff ..).mp (by decide)
  · exact ⟨_, .list (exMeansA (by decide))⟩
  · exact ⟨_, .record (by simp [named]) (.cons .basic .nil)⟩

example : resolve exGlobals exSymbols = .ok ([exA, exC', .list exA (named 98)],
    [([97], exA), ([99], exC'), ([98], .list exA (named 98))]) := by decide

example : resolve exGlobals exSymbols.reverse = .ok ([exA, .list exA (named 98), exC'],
    [([97], exA), ([98], .list exA (named 98)), ([99], exC')]) := by decide

/-- An example for `C98_rejects_partial` and `C98_errors_partial`: `type b = list<a>` alone -/
example : resolve exGlobals [([98], exB)] = .error ∧ Plain exB ∧ (∀ t, ¬ Means exGlobals [([98], exB)] [98] exB t) ∧
    ∀ n, Reaches [([98], exB)] n n → n ∉ exGlobals.map (·.1) := by
  refine ⟨by decide, .list (.none (by decide)), ?_, ?_⟩
  · intro t h
    cases h with
    | list h =>
      cases h with
      | symbol _ _ h => simp at h
      | global _ _ h => simp [exGlobals] at h
  · intro n h
    obtain ⟨b, ⟨d, hd, hb, hne, e, he⟩, _⟩ := reaches_first h
    simp only [List.mem_singleton, Prod.mk.injEq] at hd he
    exact absurd (he.1.trans hd.1.symm) hne

/-- `type a = record{x: b}` -/
def cycA : T := .record (.cons [120] (.none (named 98)) .nil) (named 97)
/-- `type b = record{y: a}` -/
def cycB : T := .record (.cons [121] (.none (named 97)) .nil) (named 98)

/-- C98 fails for definitions that refer to each other when one of them is also a global symbol: they have no meaning,
    and it depends on the order in the hash table whether they are accepted. -/
theorem C98_cycle_refuted : ∃ globals symbols symbols' r, (globals.map (·.1)).Nodup ∧ Parsed symbols ∧
    symbols.Perm symbols' ∧ (∀ n d, (n, d) ∈ symbols → ∀ t, ¬ Means globals symbols n d t) ∧
    resolve globals symbols = .ok r ∧ resolve globals symbols' = .error := by
  refine ⟨[([97], .basic .int (named 97))], [([97], cycA), ([98], cycB)], [([98], cycB), ([97], cycA)], _, by decide,
    ⟨by decide, ?_⟩, .swap .., ?_, rfl, by decide⟩
  · intro n d h
    simp only [List.mem_cons, List.not_mem_nil, or_false, Prod.mk.injEq] at h
    rcases h with ⟨rfl, rfl⟩ | ⟨rfl, rfl⟩ <;> exact ⟨by decide, by decide, fun m h => by cases h⟩
  · have hab : Uses [([97], cycA), ([98], cycB)] [97] [98] :=
      ⟨cycA, by simp, by decide, by decide, cycB, by simp⟩
    have hba : Uses [([97], cycA), ([98], cycB)] [98] [97] :=
      ⟨cycB, by simp, by decide, by decide, cycA, by simp⟩
    intro n d h t hm
    have hacc : Acc (fun x y => Uses [([97], cycA), ([98], cycB)] y x) n := by
      refine Acc.intro _ ?_
      rintro y ⟨d', hd', hy, hyb, e, he⟩
      rw [keys_unique (by decide) hd' h] at hy
      exact means_acc (by decide) hm y hy hyb ⟨e, he⟩
    simp only [List.mem_cons, List.not_mem_nil, or_false, Prod.mk.injEq] at h
    rcases h with ⟨rfl, rfl⟩ | ⟨rfl, rfl⟩
    · exact acc_not_reaches hacc (.step (.single hab) hba)
    · exact acc_not_reaches hacc (.step (.single hba) hab)

/-- C98 fails for expressions with an operand that is not a record: `type a = record{x: int}`, `type b = a`,
    `type c = b + a` violate an assertion instead of giving an error, because `b` is an alias. -/
theorem C98_operand_refuted : ∃ symbols, Parsed symbols ∧ resolve [] symbols = .abort := by
  refine ⟨[([97], exA), ([98], .alias (.none (named 97)) (named 98)),
    ([99], .record (.cons [] (.none (named 98)) (.cons [43] (.none (named 97)) .nil)) ⟨[99], [(algebraKey, none)]⟩)],
    ⟨by decide, ?_⟩, by decide⟩
  intro n d h
  simp only [List.mem_cons, List.not_mem_nil, or_false, Prod.mk.injEq] at h
  rcases h with ⟨rfl, rfl⟩ | ⟨rfl, rfl⟩ | ⟨rfl, rfl⟩ <;> exact ⟨by decide, by decide, fun m h => by cases h⟩

/-- C98 fails for the attributes of expressions: the attributes of `type c = a + a #k` are lost. -/
theorem C98_attributes_refuted : ∃ symbols d sch resolved, Parsed symbols ∧ ([99], d) ∈ symbols ∧
    ([107], none) ∈ d.meta.attrs ∧ resolve [] symbols = .ok (sch, resolved) ∧
    ∃ t ∈ sch, t.name = [99] ∧ t.meta.attrs = [] := by
  refine ⟨[([97], exA), ([99], .record (.cons [] (.none (named 97)) (.cons [43] (.none (named 97)) .nil))
    ⟨[99], [(algebraKey, none), ([107], none)]⟩)], _, _, _, ⟨by decide, ?_⟩, List.mem_cons_of_mem _ (List.mem_cons_self ..),
    by simp [T.meta], rfl, .record (.cons [120] (.basic .int {}) .nil) (named 99), by decide, rfl, rfl⟩
  intro n d h
  simp only [List.mem_cons, List.not_mem_nil, or_false, Prod.mk.injEq] at h
  rcases h with ⟨rfl, rfl⟩ | ⟨rfl, rfl⟩ <;> exact ⟨by decide, by decide, fun m h => by cases h⟩

/-! ### Directories -/

namespace Spec

/-- The symbols after loading directories: those of each directory get their meaning with the symbols before, and
    replace symbols with the same name. -/
inductive Layers : List (Name × T) → List (List (Name × T)) → List (Name × T) → Prop
  | nil {g : List (Name × T)} : Layers g [] g
  | cons {g g' f symbols : List (Name × T)} {dirs : List (List (Name × T))} : Parsed symbols →
    (∀ n d, (n, d) ∈ symbols → ∃ t, Means g symbols n d t) → (g'.map (·.1)).Nodup →
    (∀ n t, (n, t) ∈ g' ↔ (∃ d, (n, d) ∈ symbols ∧ Means g symbols n d t) ∨ ((n, t) ∈ g ∧ ∀ d, (n, d) ∉ symbols)) →
    Layers g' dirs f → Layers g (symbols :: dirs) f

end Spec

theorem means_globals {g g' symbols : List (Name × T)} (hs : ∀ x, x ∈ g ↔ x ∈ g') {self : Name} {e t : T}
    (h : Means g symbols self e t) : Means g' symbols self e t := by
  refine Means.rec (motive_1 := fun self e t _ => Means g' symbols self e t)
    (motive_2 := fun self fs gs _ => MeansAll g' symbols self fs gs) ?_ ?_ ?_ ?_ ?_ ?_ ?_ ?_ ?_ ?_ ?_ h
  · intro _ _ _ _ _ h1 h2 h3 _ ih; exact .symbol h1 h2 h3 ih
  · intro _ _ _ _ h1 h2 h3; exact .global h1 h2 ((hs _).mp h3)
  · intros; exact .basic
  · intros; exact .enum
  · intro _ _ _ _ _ ih; exact .list ih
  · intro _ _ _ _ _ _ _ _ ih1 ih2; exact .map ih1 ih2
  · intro _ _ _ _ _ ih; exact .alias ih
  · intro _ _ _ _ h1 _ ih; exact .record h1 ih
  · intro _ _ _ _ _ _ h1 _ h2 ih; exact .algebra h1 ih h2
  · intros; exact .nil
  · intro _ _ _ _ _ _ _ _ ih1 ih2; exact .cons ih1 ih2

theorem load_layers {g : List (Name × T)} {dirs : List (List (Name × T))} {f : List (Name × T)} (h : Layers g dirs f) :
    ∀ (types : List T) (gl : List (Name × T)), (gl.map (·.1)).Nodup → (∀ x, x ∈ g ↔ x ∈ gl) → Schema.Spec.Valid types →
    (∀ t, t ∈ types ↔ ∃ n, (n, t) ∈ g) → (∀ n t, (n, t) ∈ g → t.name = n) →
    ∃ r, loadDirs dirs types gl = .ok r ∧ Schema.Spec.Valid r ∧ ∀ t, t ∈ r ↔ ∃ n, (n, t) ∈ f := by
  induction h with
  | nil => intro types gl _ _ hv ht _; exact ⟨types, rfl, hv, ht⟩
  | @cons g g' f symbols dirs hp hm hgn hg' _ ih =>
    intro types gl hgl hgg hv ht hname
    obtain ⟨sch, res, h1, h2, h3, h4, h5⟩ := C98_meaning hgl hp (fun n d hd => by
      obtain ⟨t, ht⟩ := hm n d hd
      exact ⟨t, means_globals hgg ht⟩)
    have hiff : ∀ n d t, Means gl symbols n d t ↔ Means g symbols n d t := fun n d t =>
      ⟨means_globals fun x => (hgg x).symm, means_globals hgg⟩
    simp only [hiff] at h3 h5
    have hnamed : ∀ n d t, (n, d) ∈ symbols → Means g symbols n d t → t.name = n ∧ n ≠ [] ∧ ∀ m, t ≠ .none m := by
      intro n d t hd hmt
      have h := means_named hmt (hp.named n d hd).2.2
      exact ⟨h.1.trans (hp.named n d hd).2.1, (hp.named n d hd).1, h.2⟩
    have hvs : Schema.Spec.Valid sch := by
      refine ⟨h2, fun t ht => ?_⟩
      obtain ⟨n, d, hd, hmt⟩ := (h3 t).mp ht
      obtain ⟨e1, e2, e3⟩ := hnamed n d t hd hmt
      refine ⟨show t.name ≠ [] from e1 ▸ e2, ?_⟩
      cases t with
      | none m => exact absurd rfl (e3 m)
      | _ => rfl
    obtain ⟨hv', hmem⟩ := Schema.combine_ok hv hvs
    rw [loadDirs, h1]
    simp only [R.bind]
    have hkeys : ∀ n, n ∈ res.map (·.1) ↔ ∃ d, (n, d) ∈ symbols := by
      intro n
      constructor
      · intro h
        obtain ⟨⟨k, t⟩, hk, rfl⟩ := List.mem_map.mp h
        obtain ⟨d, hd, _⟩ := (h5 k t).mp hk
        exact ⟨d, hd⟩
      · rintro ⟨d, hd⟩
        obtain ⟨t, hmt⟩ := hm n d hd
        exact List.mem_map.mpr ⟨(n, t), (h5 n t).mpr ⟨d, hd, hmt⟩, rfl⟩
    have hmerge : ∀ n t, (n, t) ∈ mergeSymbols res gl ↔ (n, t) ∈ g' := by
      intro n t
      rw [hg', mergeSymbols, List.mem_append, List.mem_filter, h5, ← hgg]
      refine or_congr Iff.rfl (and_congr Iff.rfl ?_)
      constructor
      · intro h d hd
        exact assoc_none (Option.isNone_iff_eq_none.mp h) ((hkeys n).mpr ⟨d, hd⟩)
      · intro h
        rw [assoc_eq_none (fun hk => by obtain ⟨d, hd⟩ := (hkeys n).mp hk; exact h d hd)]; rfl
    have hname' : ∀ n t, (n, t) ∈ g' → t.name = n := by
      intro n t h
      rcases (hg' n t).mp h with ⟨d, hd, hmt⟩ | ⟨h, _⟩
      · exact (hnamed n d t hd hmt).1
      · exact hname n t h
    refine ih _ _ ?_ (fun x => (hmerge x.1 x.2).symm) hv' ?_ hname'
    · rw [mergeSymbols, List.map_append, List.nodup_append]
      refine ⟨h4, hgl.sublist (List.filter_sublist.map _), ?_⟩
      intro a ha b hb hab
      subst hab
      obtain ⟨⟨k, t⟩, hk, rfl⟩ := List.mem_map.mp hb
      have := (List.mem_filter.mp hk).2
      exact assoc_none (Option.isNone_iff_eq_none.mp this) ha
    · intro t
      rw [hmem, h3, ht]
      constructor
      · rintro (⟨n, d, hd, hmt⟩ | ⟨⟨n, hn⟩, hno⟩)
        · exact ⟨n, (hg' n t).mpr (.inl ⟨d, hd, hmt⟩)⟩
        · refine ⟨n, (hg' n t).mpr (.inr ⟨hn, fun d hd => ?_⟩)⟩
          obtain ⟨u, hu⟩ := hm n d hd
          exact hno u ((h3 u).mpr ⟨n, d, hd, hu⟩)
            (show u.name = t.name from ((hnamed n d u hd hu).1).trans (hname n t hn).symm)
      · rintro ⟨n, hn⟩
        rcases (hg' n t).mp hn with ⟨d, hd, hmt⟩ | ⟨h, hno⟩
        · exact .inl ⟨n, d, hd, hmt⟩
        · refine .inr ⟨⟨n, h⟩, fun u hu hun => ?_⟩
          obtain ⟨k, d, hd, hmu⟩ := (h3 u).mp hu
          have e1 : u.name = t.name := hun
          rw [(hnamed k d u hd hmu).1, hname n t h] at e1
          subst e1
          exact hno d hd

/-- C98: when the definitions of several directories have meanings, the loaded schema has for each symbol the meaning
    of its definition in the last directory that defines it, and nothing else. -/
theorem C98_directories (dirs : List (List (Name × T))) (f : List (Name × T)) (h : Layers [] dirs f) :
    ∃ sch, load dirs = .ok sch ∧ (sch.map T.name).Nodup ∧ ∀ t, t ∈ sch ↔ ∃ n, (n, t) ∈ f := by
  obtain ⟨r, h1, h2, h3⟩ := load_layers h [] [] (by simp) (fun _ => Iff.rfl) ⟨by simp, by simp⟩ (by simp) (by simp)
  exact ⟨r, h1, h2.1, h3⟩

/-- `type a = a + record{y: string}` in a later directory extends the `a` of an earlier one. -/
example : load [[([97], exA)], [([97], .record (.cons [] (.none (named 97)) (.cons [43]
      (.record (.cons [121] (.basic .string {}) .nil) {}) .nil)) ⟨[97], [(algebraKey, none)]⟩)]] =
    .ok [.record (.cons [120] (.basic .int {}) (.cons [121] (.basic .string {}) .nil)) (named 97)] := by decide

theorem exLayers : Layers [] [[([97], exA)], [([98], exB)]] [([98], .list exA (named 98)), ([97], exA)] := by
  have hA : ∀ g s, Means g s [97] exA exA := fun g s => .record (by simp [named]) (.cons .basic .nil)
  have hB : Means [([97], exA)] [([98], exB)] [98] exB (.list exA (named 98)) :=
    .list (.global (t := exA) (by decide) (.inr (by simp)) (by simp))
  refine .cons (g' := [([97], exA)]) ⟨by decide, ?_⟩ ?_ (by decide) ?_ (.cons ⟨by decide, ?_⟩ ?_ (by decide) ?_ .nil)
  · intro n d h; simp only [List.mem_singleton, Prod.mk.injEq] at h
    obtain ⟨rfl, rfl⟩ := h; exact ⟨by decide, by decide, fun m h => by cases h⟩
  · intro n d h; simp only [List.mem_singleton, Prod.mk.injEq] at h
    obtain ⟨rfl, rfl⟩ := h; exact ⟨_, hA ..⟩
  · intro n t
    simp only [List.mem_singleton, Prod.mk.injEq, List.not_mem_nil, false_and, or_false]
    constructor
    · rintro ⟨rfl, rfl⟩; exact ⟨_, ⟨rfl, rfl⟩, hA ..⟩
    · rintro ⟨d, ⟨rfl, rfl⟩, h⟩
      exact ⟨rfl, means_unique (by decide) (by decide) (hA ..) _ h⟩
  · intro n d h; simp only [List.mem_singleton, Prod.mk.injEq] at h
    obtain ⟨rfl, rfl⟩ := h; exact ⟨by decide, by decide, fun m h => by cases h⟩
  · intro n d h; simp only [List.mem_singleton, Prod.mk.injEq] at h
    obtain ⟨rfl, rfl⟩ := h; exact ⟨_, hB⟩
  · intro n t
    simp only [List.mem_cons, List.not_mem_nil, or_false, Prod.mk.injEq]
    constructor
    · rintro (⟨rfl, rfl⟩ | ⟨rfl, rfl⟩)
      · exact .inl ⟨_, ⟨rfl, rfl⟩, hB⟩
      · exact .inr ⟨⟨rfl, rfl⟩, fun d h => by simp at h⟩
    · rintro (⟨d, ⟨rfl, rfl⟩, h⟩ | ⟨⟨rfl, rfl⟩, _⟩)
      · exact .inl ⟨rfl, means_unique (by decide) (by decide) hB _ h⟩
      · exact .inr ⟨rfl, rfl⟩

end Verif.SchemaText
