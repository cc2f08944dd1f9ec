import Verif.Explorer.Model
import Verif.Number.Model
import Verif.Calendar.Props
/-!
C92: the context of an event.
-/
namespace Verif.Explorer
open Verif.Data Verif.DataText Verif.Number Verif.Calendar Verif.Explorer.Spec
open Verif.QueryText (E)

theorem withNumbers_as_times (env : Env) : ∃ env', withNumbers env = withTimes env' :=
  ⟨{ env with
    real := fun l => .fin (litVal l)
    scale := scale env
    printReal := fun x => (printReal 10 x).getD (env.printReal x)
    printDuration := fun d => (printDuration d).getD (env.printDuration d) }, rfl⟩

theorem print_time (env : Env) (t : Int) : print (withNumbers env) (.time t) = some (printTime t) := by
  simp only [print]; rfl

theorem time_near (env : Env) (t : Int) (h0 : -2208988800 * 10 ^ 9 ≤ t) (h1 : t < 2 ^ 63) :
    ∃ t', (print (withNumbers env) (.time t)).bind (toData (withNumbers env)) = some (.time t') ∧ (t' = t ∨ t' = t - 1) ∧ (t % 10 ^ 9 = 0 → t' = t) := by
  obtain ⟨env', he⟩ := withNumbers_as_times env
  rw [print_time, Option.bind_some, he]
  by_cases hw : t % 10 ^ 9 = 0
  · exact ⟨t, C84_whole_seconds_partial env' t h0 h1 hw, .inl rfl, fun _ => rfl⟩
  · obtain ⟨t', e1, e2⟩ := C84_nearby_partial env' t h0 h1
    exact ⟨t', e1, e2, fun h => absurd h hw⟩

/-- The time box that options ask for around a point in time: from and to. -/
def Spec.box (before after : Option Int) (x : Int) : Option Int × Option Int :=
  match before, after with
  | none, none => (none, none)
  | some b, none => (some (x - b), some x)
  | none, some a => (some x, some (x + a))
  | some b, some a => (some (x - b), some (x + a))

/-- A point in time from 1900 on. -/
def Spec.Readable (t : Int) : Prop := -2208988800 * 10 ^ 9 ≤ t ∧ t < 2 ^ 63

theorem int64_readable (env : Env) {t : Int} (h : Spec.Readable t) : (withNumbers env).int64 t = t := by
  unfold Env.int64
  have := h.1
  rw [if_pos ⟨by omega, h.2⟩]

/-- The query for an event at `x` matches the events with one timestamp that lie in the box, whose ends may be one nanosecond
early if they are not whole seconds, and, with `--by`, have the same value in that field. -/
theorem C92_context_partial (env : Env) (o : Options) (x : Int) (v : Option Data) (hsome : o.before.isSome ∨ o.after.isSome ∨ o.by_.isSome)
    (hlo : ∀ l ∈ (Spec.box o.before o.after x).1, Spec.Readable l) (hhi : ∀ h ∈ (Spec.box o.before o.after x).2, Spec.Readable h)
    (hby : ∀ f, o.by_ = some f → ∃ d, v = some d ∧ (print (withNumbers env) d).bind (toData (withNumbers env)) = some d) :
    ∃ q q' lo hi, contextExpr (withNumbers env) o.fill x v = some q ∧ rereadExpr (withNumbers env) q = some q'
      ∧ Option.Rel (fun a b => (b = a ∨ b = a - 1) ∧ (a % 10 ^ 9 = 0 → b = a)) (Spec.box o.before o.after x).1 lo
      ∧ Option.Rel (fun a b => (b = a ∨ b = a - 1) ∧ (a % 10 ^ 9 = 0 → b = a)) (Spec.box o.before o.after x).2 hi
      ∧ ∀ e : Event, (∃ t, e.stamps = [some t]) →
        (q'.eval (holds e) = true ↔ InContext e lo hi (match o.by_, v with | some f, some d => some (f, d) | _, _ => none)) := by
  have hge : ∀ (e : Event) (t b : Int), e.stamps = [some t] → holds e (.ge b) = decide (b ≤ t) := by
    intro e t b h; simp [holds, h]
  have hle : ∀ (e : Event) (t b : Int), e.stamps = [some t] → holds e (.le b) = decide (t ≤ b) := by
    intro e t b h; simp [holds, h]
  have both : ∀ (b a : Int) (by_ : Option Str), Spec.Readable (x - b) → Spec.Readable (x + a) →
      (∀ f, by_ = some f → ∃ d, v = some d ∧ (print (withNumbers env) d).bind (toData (withNumbers env)) = some d) →
      ∃ q q' lo hi, contextExpr (withNumbers env) ⟨some b, some a, by_⟩ x v = some q ∧ rereadExpr (withNumbers env) q = some q'
        ∧ ((lo = x - b ∨ lo = x - b - 1) ∧ ((x - b) % 10 ^ 9 = 0 → lo = x - b))
        ∧ ((hi = x + a ∨ hi = x + a - 1) ∧ ((x + a) % 10 ^ 9 = 0 → hi = x + a))
        ∧ ∀ e : Event, (∃ t, e.stamps = [some t]) →
          (q'.eval (holds e) = true ↔ InContext e (some lo) (some hi) (match by_, v with | some f, some d => some (f, d) | _, _ => none)) := by
    intro b a by_ h1 h2 h3
    obtain ⟨lo, l1, l2, l3⟩ := time_near env (x - b) h1.1 h1.2
    obtain ⟨hi, g1, g2, g3⟩ := time_near env (x + a) h2.1 h2.2
    cases by_ with
    | none =>
      refine ⟨.conj [.leaf (.ge (x - b)), .leaf (.le (x + a))], .conj [.leaf (.ge lo), .leaf (.le hi)], lo, hi, ?_, ?_, ⟨l2, l3⟩, ⟨g2, g3⟩, ?_⟩
      · simp [contextExpr, conjunction, int64_readable env h1, int64_readable env h2]
      · simp [rereadExpr, rereadExpr.go, reread, l1, g1]
      · rintro e ⟨t, ht⟩
        simp [E.eval, E.eval.evalAll, hge e t lo ht, hle e t hi ht, InContext, ht]
    | some f =>
      obtain ⟨d, hd, hp⟩ := h3 f rfl
      subst hd
      refine ⟨.conj [.conj [.leaf (.ge (x - b)), .leaf (.le (x + a))], .leaf (.eq f d)], .conj [.conj [.leaf (.ge lo), .leaf (.le hi)], .leaf (.eq f d)],
        lo, hi, ?_, ?_, ⟨l2, l3⟩, ⟨g2, g3⟩, ?_⟩
      · simp [contextExpr, conjunction, int64_readable env h1, int64_readable env h2]
      · simp [rereadExpr, rereadExpr.go, reread, l1, g1, hp]
      · rintro e ⟨t, ht⟩
        simp [E.eval, E.eval.evalAll, hge e t lo ht, hle e t hi ht, InContext, ht, holds, and_assoc]
  obtain ⟨before, after, by_⟩ := o
  cases before with
  | none =>
    cases after with
    | none =>
      cases by_ with
      | none => simp at hsome
      | some f =>
        obtain ⟨d, hd, hp⟩ := hby f rfl
        subst hd
        refine ⟨.leaf (.eq f d), .leaf (.eq f d), none, none, ?_, ?_, .none, .none, ?_⟩
        · simp [contextExpr, conjunction, Options.fill]
        · simp [rereadExpr, reread, hp]
        · rintro e ⟨t, ht⟩
          simp [E.eval, InContext, ht, holds]
    | some a =>
      have h0 : Spec.Readable (x - 0) := by rw [Int.sub_zero]; exact hlo x (by simp [Spec.box])
      obtain ⟨q, q', lo, hi, e1, e2, e3, e4, e5⟩ := both 0 a by_ h0 (hhi _ (by simp [Spec.box])) hby
      rw [Int.sub_zero] at e3
      exact ⟨q, q', some lo, some hi, e1, e2, .some e3, .some e4, e5⟩
  | some b =>
    cases after with
    | none =>
      have h0 : Spec.Readable (x + 0) := by rw [Int.add_zero]; exact hhi x (by simp [Spec.box])
      obtain ⟨q, q', lo, hi, e1, e2, e3, e4, e5⟩ := both b 0 by_ (hlo _ (by simp [Spec.box])) h0 hby
      rw [Int.add_zero] at e4
      exact ⟨q, q', some lo, some hi, e1, e2, .some e3, .some e4, e5⟩
    | some a =>
      obtain ⟨q, q', lo, hi, e1, e2, e3, e4, e5⟩ := both b a by_ (hlo _ (by simp [Spec.box])) (hhi _ (by simp [Spec.box])) hby
      exact ⟨q, q', some lo, some hi, e1, e2, .some e3, .some e4, e5⟩

/-- Five minutes before an event of 2021, for the same value in a field. -/
example (env : Env) : let o : Options := ⟨some (300 * 10 ^ 9), none, some [105, 100]⟩
    (∀ l ∈ (Spec.box o.before o.after (1619785800 * 10 ^ 9)).1, Spec.Readable l)
    ∧ (∀ h ∈ (Spec.box o.before o.after (1619785800 * 10 ^ 9)).2, Spec.Readable h)
    ∧ (print (withNumbers env) (.bool true)).bind (toData (withNumbers env)) = some (.bool true) := by
  refine ⟨by simp [Spec.box, Spec.Readable], by simp [Spec.box, Spec.Readable], rfl⟩

/-- The text of a point in time may come back one nanosecond early, so that the context of an event with `--before` alone may
lack the event itself. -/
theorem C92_self_refuted (env : Env) : ∃ q q', contextExpr (withNumbers env) (Options.fill ⟨some (10 ^ 9), none, none⟩) 1001000000 none = some q
    ∧ rereadExpr (withNumbers env) q = some q' ∧ q'.eval (holds ⟨[some 1001000000], fun _ => []⟩) = false := by
  obtain ⟨env', he⟩ := withNumbers_as_times env
  obtain ⟨t', e1, e2, _⟩ := time_near env 1000000 (by decide) (by decide)
  have h2 : (print (withNumbers env) (.time 1001000000)).bind (toData (withNumbers env)) = some (.time 1000999999) := by
    rw [print_time, Option.bind_some, he]; exact C84_subsecond_refuted env'
  refine ⟨.conj [.leaf (.ge 1000000), .leaf (.le 1001000000)], .conj [.leaf (.ge t'), .leaf (.le 1000999999)], ?_, ?_, ?_⟩
  · have h1 : (withNumbers env).int64 1000000 = 1000000 := int64_readable env ⟨by decide, by decide⟩
    have h2 : (withNumbers env).int64 1001000000 = 1001000000 := int64_readable env ⟨by decide, by decide⟩
    simp [contextExpr, conjunction, Options.fill, h1, h2]
  · simp [rereadExpr, rereadExpr.go, reread, e1, h2]
  · simp [E.eval, E.eval.evalAll, holds]

/-- An event with two timestamps is taken to be in the box if one lies after its begin and the other one before its end. -/
theorem C92_two_stamps_refuted (env : Env) :
    ∃ q q', contextExpr (withNumbers env) (Options.fill ⟨some (10 ^ 9), some (10 ^ 9), none⟩) (50 * 10 ^ 9) none = some q
      ∧ rereadExpr (withNumbers env) q = some q' ∧ q'.eval (holds ⟨[some 0, some (100 * 10 ^ 9)], fun _ => []⟩) = true := by
  obtain ⟨t1, e1, _, e2⟩ := time_near env 49000000000 (by decide) (by decide)
  obtain ⟨t2, g1, _, g2⟩ := time_near env 51000000000 (by decide) (by decide)
  have e2 := e2 (by decide)
  have g2 := g2 (by decide)
  subst e2 g2
  refine ⟨.conj [.leaf (.ge 49000000000), .leaf (.le 51000000000)], .conj [.leaf (.ge 49000000000), .leaf (.le 51000000000)], ?_, ?_, ?_⟩
  · have h1 : (withNumbers env).int64 49000000000 = 49000000000 := int64_readable env ⟨by decide, by decide⟩
    have h2 : (withNumbers env).int64 51000000000 = 51000000000 := int64_readable env ⟨by decide, by decide⟩
    simp [contextExpr, conjunction, Options.fill, h1, h2]
  · simp [rereadExpr, rereadExpr.go, reread, e1, g1]
  · simp [E.eval, E.eval.evalAll, holds]

/-- A box that begins before 1900 makes a query that is not accepted: there is no context at all. -/
theorem C92_old_refuted (env : Env) (b a x : Int) (h0 : -(2 ^ 63) ≤ x - b) (h1 : x - b < -2208988800 * 10 ^ 9) :
    ∃ q, contextExpr (withNumbers env) (Options.fill ⟨some b, some a, none⟩) x none = some q ∧ rereadExpr (withNumbers env) q = none := by
  obtain ⟨env', he⟩ := withNumbers_as_times env
  have h2 : (print (withNumbers env) (.time (x - b))).bind (toData (withNumbers env)) = none := by
    rw [print_time, Option.bind_some, he]; exact C84_before_1900_refuted env' _ h0 h1
  refine ⟨.conj [.leaf (.ge (x - b)), .leaf (.le ((withNumbers env).int64 (x + a)))], ?_, ?_⟩
  · simp only [contextExpr, conjunction, Options.fill, Option.map_some]
    have : (withNumbers env).int64 (x - b) = x - b := by unfold Env.int64; rw [if_pos ⟨h0, by omega⟩]
    simp [this]
  · simp [rereadExpr, rereadExpr.go, reread, h2]

/-- A value is there. -/
def Spec.present : Data → Bool
  | .none => false
  | _ => true

/-- Point in time of a value. -/
def Spec.pointInTime : Data → Option Int
  | .time x => some x
  | _ => none

/-- The events to explore: those with a timestamp in column `c` and, with `--by`, a value in column `k`. -/
def Spec.subjects (c : Nat) (k : Option Nat) (rows : List (List Data)) : List (Int × Option Data) :=
  rows.filterMap fun row => do
    let x ← (← row[c]?) |> Spec.pointInTime
    match k with
    | none => some (x, none)
    | some k =>
      let v ← row[k]?
      if Spec.present v then some (x, some v) else none

/-- The first column whose name ends with these parts. -/
def Spec.FirstWith (layout : List Column) (parts : List Str) (c : Nat) : Prop :=
  (∃ col, layout[c]? = some col ∧ parts <:+ col.name) ∧ ∀ (j : Nat) col, j < c → layout[j]? = some col → ¬ parts <:+ col.name

theorem findColumn_first {layout : List Column} {parts : List Str} {c : Nat} (h : Spec.FirstWith layout parts c) : findColumn layout parts = some c := by
  obtain ⟨⟨col, hc, hp⟩, hn⟩ := h
  unfold findColumn
  rw [List.findIdx?_eq_some_iff_getElem]
  obtain ⟨hlt, hce⟩ := List.getElem?_eq_some_iff.mp hc
  refine ⟨hlt, by rw [hce]; simpa [List.isSuffixOf_iff_suffix] using hp, fun j hj => ?_⟩
  have := hn j _ hj (List.getElem?_eq_getElem (by omega))
  simpa [List.isSuffixOf_iff_suffix] using this

/-- One query for each event with a timestamp, and, with `--by`, a value in that field, in the order of the events: if no other
column's name ends with the name of the first field for timestamps, and that is a field at the top. -/
theorem C92_each_partial (env : Env) (o : Options) (byParts : List Str) (layout : List Column) (rows : List (List Data)) (c : Nat) (col : Column)
    (k : Option Nat) (hc : layout[c]? = some col) (ht : col.top = true ∧ col.stamp = true)
    (hfirst : ∀ (j : Nat) d, j < c → layout[j]? = some d → d.stamp = false)
    (hname : ∀ (j : Nat) d, j < c → layout[j]? = some d → ¬ col.name <:+ d.name)
    (hby : (o.by_ = none ∧ k = none) ∨ (o.by_.isSome ∧ ∃ j, k = some j ∧ Spec.FirstWith layout byParts j)) :
    queries env o byParts false layout rows = (Spec.subjects c k rows).filterMap fun s => contextExpr env o.fill s.1 s.2 := by
  have hf : layout.find? (fun c => c.top && c.stamp) = some col := by
    rw [List.find?_eq_some_iff_getElem]
    obtain ⟨hlt, hce⟩ := List.getElem?_eq_some_iff.mp hc
    refine ⟨by simp [ht], c, hlt, hce, fun j hj => ?_⟩
    have := hfirst j _ hj (List.getElem?_eq_getElem (by omega))
    simp [this]
  have hs : stampColumn layout = some c := by
    unfold stampColumn
    rw [hf]
    exact findColumn_first ⟨⟨col, hc, List.suffix_refl _⟩, hname⟩
  unfold queries Spec.subjects
  rw [hs, List.filterMap_filterMap]
  simp only [Bool.false_eq_true, if_false]
  rcases hby with ⟨hb, hk⟩ | ⟨hb, j, hk, hj⟩
  · rw [hb, hk]
    apply List.filterMap_congr
    intro row _
    cases row[c]? with
    | none => simp [rowQuery]
    | some d => cases d <;> simp [rowQuery, Spec.pointInTime]
  · obtain ⟨f, hf⟩ := Option.isSome_iff_exists.mp hb
    rw [hf, hk, findColumn_first hj]
    apply List.filterMap_congr
    intro row _
    cases row[c]? with
    | none => simp [rowQueryBy]
    | some d =>
      cases d with
      | time x =>
        cases hy : row[j]? with
        | none => simp [rowQueryBy, Spec.pointInTime, hy]
        | some v => cases v <;> simp [rowQueryBy, Spec.pointInTime, Spec.present, hy]
      | _ => simp [rowQueryBy, Spec.pointInTime]

/-- A layout with a field for the point in time and one for the source. -/
example : let layout : List Column := [⟨[[105, 100]], true, false⟩, ⟨[[116, 115]], true, true⟩]
    layout[1]? = some ⟨[[116, 115]], true, true⟩ ∧ Spec.FirstWith layout [[105, 100]] 0
    ∧ Spec.subjects 1 (some 0) [[.count 1, .time 5], [.none, .time 6], [.count 1, .none], [.count 2, .time 7]]
      = [(5, some (.count 1)), (7, some (.count 2))] := by
  refine ⟨rfl, ⟨⟨_, rfl, List.suffix_refl _⟩, fun j _ h => absurd h (by omega)⟩, rfl⟩

/-- With a column before that has the same name in a record, nothing is explored. -/
theorem C92_column_refuted (env : Env) (o : Options) (x : Int) (hby : o.by_ = none) :
    queries env o [] false [⟨[[120], [116, 115]], true, false⟩, ⟨[[116, 115]], true, true⟩] [[.string [97], .time x]] = []
    ∧ (contextExpr env o.fill x none).isSome = (o.before.isSome || o.after.isSome) := by
  constructor
  · unfold queries
    have : stampColumn [⟨[[120], [116, 115]], true, false⟩, ⟨[[116, 115]], true, true⟩] = some 0 := by decide
    rw [this, hby]
    simp [rowQuery]
  · obtain ⟨before, after, by_⟩ := o
    simp only at hby
    subst hby
    cases before <;> cases after <;> rfl

/-- There are no queries if the limit is reached, if the events have no timestamp, or if they lack the field of `--by`. -/
theorem C92_none (env : Env) (o : Options) (byParts : List Str) (full : Bool) (layout : List Column) (rows : List (List Data))
    (h : full = true ∨ (∀ c, c ∈ layout → ¬ (c.top = true ∧ c.stamp = true)) ∨
      (o.by_.isSome ∧ ∀ c, c ∈ layout → ¬ byParts <:+ c.name)) :
    queries env o byParts full layout rows = [] := by
  unfold queries
  rcases h with rfl | h | ⟨h1, h2⟩
  · rfl
  · have : stampColumn layout = none := by
      have hn : layout.find? (fun c => c.top && c.stamp) = none := by
        rw [List.find?_eq_none]; intro c hc; simpa using h c hc
      rw [stampColumn, hn]
    rw [this]; split <;> rfl
  · have : findColumn layout byParts = none := by
      rw [findColumn, List.findIdx?_eq_none_iff]
      intro c hc
      have := h2 c hc
      rw [← List.isSuffixOf_iff_suffix] at this
      exact Bool.eq_false_iff.mpr this
    obtain ⟨f, hf⟩ := Option.isSome_iff_exists.mp h1
    rw [this, hf]
    split
    · rfl
    · split <;> rfl

example : ∀ c, c ∈ [Column.mk [[116, 115]] true true] → ¬ ([[117]] : List Str) <:+ c.name := by
  intro c hc
  simp only [List.mem_cons, List.not_mem_nil, or_false] at hc
  subst hc
  decide

end Verif.Explorer
