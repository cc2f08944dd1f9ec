import Verif.TestGen.Spec
namespace Verif.TestGen
open Verif.DataText Verif.Data Spec

/-- The distribution of a column. -/
def own (c : Kind × List Attr) : Option Dist := match makeDistribution c.1 c.2 with | .dist d => some d | _ => none

/-- The columns of a type with their distributions. -/
def cols (cs : List (Kind × List Attr)) : List (Kind × Option Dist) := cs.map fun c => (c.1, own c)

/-- All distributions. -/
def pushed (cs : List (Kind × List Attr)) : List Dist := cs.filterMap own

/-- Only columns that are filled with samples have a distribution. -/
def Sampled (cs : List (Kind × List Attr)) : Prop := ∀ c ∈ cs, own c ≠ none → c.1 ≠ .subnet ∧ c.1 ≠ .other

variable {S G : Type}

mutual
/-- The data fits the type. -/
def Fits : Ty → Val S → Prop
  | .leaf k attrs, .leaf x => own (k, attrs) = none ↔ x = .null
  | .record fs, .list vs => FitsAll fs vs
  | _, _ => False
def FitsAll : Tys → Vals S → Prop
  | .nil, .nil => True
  | .cons t ts, .cons v vs => Fits t v ∧ FitsAll ts vs
  | _, _ => False
end

theorem cols_append (a b : List (Kind × List Attr)) : cols (a ++ b) = cols a ++ cols b := by simp [cols]
theorem pushed_append (a b : List (Kind × List Attr)) : pushed (a ++ b) = pushed a ++ pushed b := by simp [pushed]

mutual
theorem blueprint_ok : ∀ (t : Ty) (ds : List Dist) (v : Val S) (ds' : List Dist), blueprint t ds = some (v, ds') →
    ds' = ds ++ pushed (columns t) ∧ Fits t v ∧ v.leaves = start (cols (columns t))
  | .leaf k attrs, ds, v, ds', h => by
    rw [blueprint.eq_def] at h
    simp only [] at h
    split at h
    · cases h
    · rename_i e
      simp only [Option.some.injEq, Prod.mk.injEq] at h
      obtain ⟨rfl, rfl⟩ := h
      simp [columns, pushed, own, e, Fits, Val.leaves, start, cols]
    · rename_i d e
      simp only [Option.some.injEq, Prod.mk.injEq] at h
      obtain ⟨rfl, rfl⟩ := h
      simp [columns, pushed, own, e, Fits, Val.leaves, start, cols]
  | .record fs, ds, v, ds', h => by
    rw [blueprint.eq_def] at h
    simp only [Option.map_eq_some_iff] at h
    obtain ⟨⟨vs, ds1⟩, h1, h2⟩ := h
    simp only [Prod.mk.injEq] at h2
    obtain ⟨rfl, rfl⟩ := h2
    have := blueprints_ok fs ds vs ds1 h1
    simpa [columns, Fits, Val.leaves] using this
theorem blueprints_ok : ∀ (ts : Tys) (ds : List Dist) (vs : Vals S) (ds' : List Dist), blueprints ts ds = some (vs, ds') →
    ds' = ds ++ pushed (columnsAll ts) ∧ FitsAll ts vs ∧ vs.leaves = start (cols (columnsAll ts))
  | .nil, ds, vs, ds', h => by
    rw [blueprints.eq_def] at h
    simp only [Option.some.injEq, Prod.mk.injEq] at h
    obtain ⟨rfl, rfl⟩ := h
    simp [columnsAll, pushed, FitsAll, Vals.leaves, start, cols]
  | .cons t ts, ds, vs, ds', h => by
    rw [blueprints.eq_def] at h
    simp only [Option.bind_eq_some_iff, Option.map_eq_some_iff] at h
    obtain ⟨⟨v, ds1⟩, h1, ⟨vs1, ds2⟩, h2, h3⟩ := h
    simp only [Prod.mk.injEq] at h3
    obtain ⟨rfl, rfl⟩ := h3
    obtain ⟨a1, a2, a3⟩ := blueprint_ok t ds v ds1 h1
    obtain ⟨b1, b2, b3⟩ := blueprints_ok ts ds1 vs1 ds2 h2
    refine ⟨by rw [b1, a1]; simp [columnsAll, pushed_append], ⟨a2, b2⟩, ?_⟩
    simp [Vals.leaves, a3, b3, columnsAll, cols_append, start]
end

theorem fill_ne (rng : Rng S G) (k : Kind) (x : S) (old : Leaf S) (g : G) : (fill rng k x old g).1 ≠ .null := by
  unfold fill; cases k <;> cases old <;> simp

theorem fill_eq (rng : Rng S G) (k : Kind) (x : S) (old : Leaf S) (g : G) : fill rng k x old g = advance rng k old x g := by
  unfold fill advance; cases k <;> cases old <;> simp

mutual
/-- The randomizer never runs out of distributions. -/
theorem randomize_safe (rng : Rng S G) (ds : List Dist) : ∀ (t : Ty) (v : Val S) (i : Nat) (g : G), Fits t v →
    i + (pushed (columns t)).length ≤ ds.length →
    ∃ v' i' g', randomize rng ds t v i g = some (v', i', g') ∧ Fits t v' ∧ i' ≤ i + (pushed (columns t)).length
  | .leaf k attrs, .leaf x, i, g, hf, hl => by
    by_cases hx : x = .null
    · subst hx
      exact ⟨_, _, _, by rw [randomize.eq_def], hf, by omega⟩
    · have ho : own (k, attrs) ≠ none := fun h => hx (hf.1 h)
      have hp : (pushed (columns (.leaf k attrs))).length = 1 := by
        obtain ⟨d, hd⟩ := Option.ne_none_iff_exists'.1 ho
        simp [columns, pushed, hd]
      rw [hp] at hl ⊢
      have hfit : ∀ y : Leaf S, y ≠ .null → Fits (.leaf k attrs) (.leaf y) := fun y hy => ⟨fun h => (ho h).elim, fun h => (hy h).elim⟩
      obtain ⟨d, hi⟩ : ∃ d, ds[i]? = some d := ⟨_, List.getElem?_eq_getElem (by omega)⟩
      have key : ∀ kk : Kind, kk = k → kk ≠ .other → kk ≠ .subnet → randomize rng ds (.leaf k attrs) (.leaf x) i g =
          some (.leaf (fill rng k (rng.draw d g).1 x (rng.draw d g).2).1, i + 1,
            (fill rng k (rng.draw d g).1 x (rng.draw d g).2).2) := by
        intro kk e h1 h2
        subst e
        rw [randomize.eq_def]
        cases x <;> cases kk <;> simp_all
      by_cases h1 : k = .other
      · subst h1
        refine ⟨.leaf x, i, g, ?_, hfit x hx, by omega⟩
        rw [randomize.eq_def]; cases x <;> simp_all
      · by_cases h2 : k = .subnet
        · subst h2
          refine ⟨.leaf (.net (rng.length g).1), i, (rng.length g).2, ?_, hfit _ (by simp), by omega⟩
          rw [randomize.eq_def]; cases x <;> simp_all
        · exact ⟨_, _, _, key k rfl h1 h2, hfit _ (fill_ne rng k _ _ _), by omega⟩
  | .record fs, .list vs, i, g, hf, hl => by
    obtain ⟨v', i', g', h1, h2, h3⟩ := randomizes_safe rng ds fs vs i g hf hl
    exact ⟨.list v', i', g', by rw [randomize.eq_def]; simp only [h1]; rfl, h2, h3⟩
theorem randomizes_safe (rng : Rng S G) (ds : List Dist) : ∀ (ts : Tys) (vs : Vals S) (i : Nat) (g : G), FitsAll ts vs →
    i + (pushed (columnsAll ts)).length ≤ ds.length →
    ∃ v' i' g', randomizes rng ds ts vs i g = some (v', i', g') ∧ FitsAll ts v' ∧ i' ≤ i + (pushed (columnsAll ts)).length
  | .nil, .nil, i, g, _, _ => ⟨.nil, i, g, by rw [randomizes.eq_def], trivial, by omega⟩
  | .cons t ts, .cons v vs, i, g, hf, hl => by
    have hp : (pushed (columnsAll (.cons t ts))).length = (pushed (columns t)).length + (pushed (columnsAll ts)).length := by
      simp [columnsAll, pushed_append]
    rw [hp] at hl ⊢
    obtain ⟨v', i1, g1, a1, a2, a3⟩ := randomize_safe rng ds t v i g hf.1 (by omega)
    obtain ⟨vs', i2, g2, b1, b2, b3⟩ := randomizes_safe rng ds ts vs i1 g1 hf.2 (by omega)
    exact ⟨.cons v' vs', i2, g2, by rw [randomizes.eq_def]; simp only [a1, Option.bind_some, b1]; rfl, ⟨a2, b2⟩, by omega⟩
end

theorem event_append (rng : Rng S G) : ∀ (a b : List (Kind × Option Dist)) (x y : List (Leaf S)) (g : G), a.length = x.length →
    event rng (a ++ b) (x ++ y) g = ((event rng a x g).1 ++ (event rng b y (event rng a x g).2).1, (event rng b y (event rng a x g).2).2)
  | [], b, [], y, g, _ => by simp [event]
  | (k, none) :: a, b, z :: x, y, g, h => by
    simp only [List.cons_append, event, event_append rng a b x y g (by simpa using h)]
  | (k, some d) :: a, b, z :: x, y, g, h => by
    simp only [List.cons_append, event, event_append rng a b x y _ (by simpa using h)]
  | [], _, _ :: _, _, _, h => by simp at h
  | _ :: _, _, [], _, _, h => by simp at h

mutual
theorem leaves_length : ∀ (t : Ty) (v : Val S), Fits t v → (columns t).length = v.leaves.length
  | .leaf _ _, .leaf _, _ => by simp [columns, Val.leaves]
  | .record fs, .list vs, h => by simpa [columns, Val.leaves] using leavesAll_length fs vs h
theorem leavesAll_length : ∀ (ts : Tys) (vs : Vals S), FitsAll ts vs → (columnsAll ts).length = vs.leaves.length
  | .nil, .nil, _ => by simp [columnsAll, Vals.leaves]
  | .cons t ts, .cons v vs, h => by simp [columnsAll, Vals.leaves, leaves_length t v h.1, leavesAll_length ts vs h.2]
end

theorem Sampled.left {a b : List (Kind × List Attr)} (h : Sampled (a ++ b)) : Sampled a := fun c hc => h c (by simp [hc])
theorem Sampled.right {a b : List (Kind × List Attr)} (h : Sampled (a ++ b)) : Sampled b := fun c hc => h c (by simp [hc])

mutual
/-- The randomizer draws from the distribution of each column. -/
theorem randomize_event (rng : Rng S G) (ds : List Dist) : ∀ (t : Ty) (v : Val S) (i : Nat) (g : G), Fits t v → Sampled (columns t) →
    (pushed (columns t)) <+: ds.drop i →
    ∃ v', randomize rng ds t v i g = some (v', i + (pushed (columns t)).length, (event rng (cols (columns t)) v.leaves g).2) ∧
      v'.leaves = (event rng (cols (columns t)) v.leaves g).1
  | .leaf k attrs, .leaf x, i, g, hf, hs, hp => by
    by_cases hx : x = .null
    · subst hx
      have ho : own (k, attrs) = none := hf.2 rfl
      refine ⟨.leaf .null, ?_, ?_⟩
      · rw [randomize.eq_def]; simp [columns, pushed, ho, cols, Val.leaves, event]
      · simp [columns, ho, cols, Val.leaves, event]
    · have ho : own (k, attrs) ≠ none := fun h => hx (hf.1 h)
      obtain ⟨d, hd⟩ := Option.ne_none_iff_exists'.1 ho
      obtain ⟨h2, h1⟩ := hs (k, attrs) (by simp [columns]) ho
      simp only at h1 h2
      have hi : ds[i]? = some d := by
        simp only [columns, pushed, List.filterMap_cons, hd, List.filterMap_nil] at hp
        obtain ⟨r, hr⟩ := hp
        have := congrArg List.head? hr
        simpa using this.symm
      refine ⟨.leaf (fill rng k (rng.draw d g).1 x (rng.draw d g).2).1, ?_, ?_⟩
      · have e : (event rng (cols (columns (.leaf k attrs))) (Val.leaf x).leaves g).2 = (fill rng k (rng.draw d g).1 x (rng.draw d g).2).2 := by
          simp [columns, hd, cols, Val.leaves, event, fill_eq]
        rw [e, randomize.eq_def]
        have : (pushed (columns (.leaf k attrs))).length = 1 := by simp [columns, pushed, hd]
        rw [this]
        cases x <;> cases k <;> simp_all
      · simp [columns, hd, cols, Val.leaves, event, fill_eq]
  | .record fs, .list vs, i, g, hf, hs, hp => by
    obtain ⟨v', h1, h2⟩ := randomizes_event rng ds fs vs i g hf hs hp
    refine ⟨.list v', ?_, ?_⟩
    · rw [randomize.eq_def]; simp only [h1, Option.map_some]; rfl
    · exact h2
theorem randomizes_event (rng : Rng S G) (ds : List Dist) : ∀ (ts : Tys) (vs : Vals S) (i : Nat) (g : G), FitsAll ts vs →
    Sampled (columnsAll ts) → (pushed (columnsAll ts)) <+: ds.drop i →
    ∃ v', randomizes rng ds ts vs i g =
        some (v', i + (pushed (columnsAll ts)).length, (event rng (cols (columnsAll ts)) vs.leaves g).2) ∧
      v'.leaves = (event rng (cols (columnsAll ts)) vs.leaves g).1
  | .nil, .nil, i, g, _, _, _ => by
    refine ⟨.nil, ?_, ?_⟩
    · rw [randomizes.eq_def]; simp [columnsAll, pushed, cols, Vals.leaves, event]
    · simp [columnsAll, cols, Vals.leaves, event]
  | .cons t ts, .cons v vs, i, g, hf, hs, hp => by
    simp only [columnsAll] at hs hp ⊢
    rw [pushed_append] at hp
    obtain ⟨r, hr⟩ := hp
    obtain ⟨v', a1, a2⟩ := randomize_event rng ds t v i g hf.1 hs.left ⟨_, by rw [← hr, List.append_assoc]⟩
    obtain ⟨vs', b1, b2⟩ := randomizes_event rng ds ts vs (i + (pushed (columns t)).length)
      (event rng (cols (columns t)) v.leaves g).2 hf.2 hs.right
      ⟨r, by rw [← List.drop_drop, ← hr, List.append_assoc, List.drop_left]⟩
    have hl : (cols (columns t)).length = v.leaves.length := by rw [cols, List.length_map, leaves_length t v hf.1]
    refine ⟨.cons v' vs', ?_, ?_⟩
    · rw [randomizes.eq_def]
      simp only [a1, Option.bind_some, b1, Option.map_some, Vals.leaves, cols_append, event_append rng _ _ _ _ _ hl, pushed_append,
        List.length_append]
      rw [Nat.add_assoc]
    · simp only [Vals.leaves, cols_append, event_append rng _ _ _ _ _ hl, a2, b2]
end

/-- Filling a slice. -/
theorem fillRows_safe (rng : Rng S G) (t : Ty) (ds : List Dist) (hds : (pushed (columns t)).length ≤ ds.length) :
    ∀ (n : Nat) (v : Val S) (g : G), Fits t v → ∃ rows v' g', fillRows rng t ds n v g = some (rows, v', g') ∧ Fits t v' ∧ rows.length = n ∧
      v'.leaves = rows.getLast?.getD v.leaves
  | 0, v, g, hf => ⟨[], v, g, rfl, hf, rfl, rfl⟩
  | n + 1, v, g, hf => by
    obtain ⟨v1, i1, g1, h1, h2, _⟩ := randomize_safe rng ds t v 0 g hf (by omega)
    obtain ⟨rows, v2, g2, h3, h4, h5, h6⟩ := fillRows_safe rng t ds hds n v1 g1 h2
    refine ⟨v1.leaves :: rows, v2, g2, ?_, h4, by simp [h5], ?_⟩
    · simp only [fillRows, h1, Option.bind_some, h3, Option.map_some]
    · rw [h6]; cases rows <;> simp [List.getLast?_cons]

theorem fillRows_events (rng : Rng S G) (t : Ty) (hs : Sampled (columns t)) :
    ∀ (n : Nat) (v : Val S) (g : G), Fits t v → ∀ rows v' g', fillRows rng t (pushed (columns t)) n v g = some (rows, v', g') →
      rows = events rng (cols (columns t)) n v.leaves g
  | 0, v, g, hf, rows, v', g', h => by
    simp only [fillRows, Option.some.injEq, Prod.mk.injEq] at h
    simp [events, h.1.symm]
  | n + 1, v, g, hf, rows, v', g', h => by
    obtain ⟨v1, h1, h2⟩ := randomize_event rng (pushed (columns t)) t v 0 g hf hs (by simp)
    obtain ⟨v1', i1, g1, h1', h2', _⟩ := randomize_safe rng (pushed (columns t)) t v 0 g hf (by omega)
    rw [h1] at h1'
    simp only [Option.some.injEq, Prod.mk.injEq] at h1'
    obtain ⟨rfl, _, _⟩ := h1'
    simp only [fillRows, h1, Option.bind_some, Option.map_eq_some_iff] at h
    obtain ⟨⟨rows1, v2, g2⟩, h3, h4⟩ := h
    simp only [Prod.mk.injEq] at h4
    have := fillRows_events rng t hs n v1 _ h2' rows1 v2 g2 h3
    rw [← h4.1, this, events, h2]

/-- An entry that `schema` made, perhaps after some events. -/
structure Good (e : Entry S) : Prop where
  record : ∃ fs, e.type = .record fs
  fits : Fits e.type e.data
  dists : e.dists = pushed (columns e.type)

theorem entriesOf_ok : ∀ (sch : List (Str × Ty)) (es : List (Entry S)), entriesOf sch = some es →
    ∀ e ∈ es, Good e ∧ e.data.leaves = start (cols (columns e.type))
  | [], es, h, e, he => by
    simp only [entriesOf, Option.some.injEq] at h
    subst h; cases he
  | (name, t) :: ts, es, h, e, he => by
    rw [entriesOf] at h
    split at h
    · simp only [Option.bind_eq_some_iff] at h
      obtain ⟨⟨v, ds⟩, h1, h2⟩ := h
      cases t with
      | leaf k a => cases h2
      | record fs =>
        simp only [Option.map_eq_some_iff] at h2
        obtain ⟨es', h3, rfl⟩ := h2
        obtain ⟨a1, a2, a3⟩ := blueprint_ok _ _ _ _ h1
        cases he with
        | head => exact ⟨⟨⟨fs, rfl⟩, a2, by simpa using a1⟩, a3⟩
        | tail _ he => exact entriesOf_ok ts es' h3 e he
    · exact entriesOf_ok ts es h e he

end Verif.TestGen
