import Verif.TestGen.Runs
import Verif.Zeek.Reading
import Verif.Number.Reading
/-!
# Generating test events

`vast import test` makes as many events as asked for, of the layouts of the schema in turn (C150), each column with its own
distribution (C151), which the attributes of the schema tell (C152).
-/
namespace Verif.TestGen
open Verif.DataText Verif.Data Spec

variable {S G : Type}

/-! ## C150: the number of events -/

/-- A generator whose samples tell the distribution they were drawn from. -/
def telling : Rng Dist Unit := ⟨fun d g => (d, g), fun g => (true, g), fun g => (24, g)⟩

/-- For every schema that the reader accepts, whatever numbers are drawn, and however many events the source asks for each time:
the reader never stops at an assertion or reads past its distributions, it makes exactly as many events as were asked for in
total, up to the number of events of the command, and it reports the end exactly when that number is reached. -/
theorem C150_exact (rng : Rng S G) (sch : List (Str × Ty)) (n : Nat) (gen : G) (s : State S G) (hs : setSchema sch (init n gen) = some s)
    (calls : List (Nat × Nat)) (hc : ∀ c ∈ calls, 0 < c.1 ∧ 0 < c.2) :
    total (reads rng calls s).2.out = min (if n = 0 then 2 ^ 64 - 1 else n) (calls.map Prod.fst).sum ∧
    (reads rng calls s).1 = if (if n = 0 then 2 ^ 64 - 1 else n) ≤ (calls.map Prod.fst).sum then .eof else .ok := by
  obtain ⟨hi, hn, _, _, ho, hnum⟩ := setSchema_inv rng hs
  obtain ⟨s'', L, h1, h2, h3⟩ := reads_chain rng calls s hc hi hn
  have ht := h1.total
  rw [ho] at ht
  rw [h2, ← hnum]
  have h0 : total ([] : List (Nat × List (List (Leaf S)))) = 0 := rfl
  rw [h0] at ht
  rcases h3 with ⟨a, _, c, d, _⟩ | ⟨a, b, c⟩
  · refine ⟨by omega, ?_⟩
    rw [a, if_neg (by omega)]
  · refine ⟨by omega, ?_⟩
    rw [a, if_pos (by omega)]

/-- Every call adds slices of at least one and at most the given number of events to those before. -/
theorem C150_slices (rng : Rng S G) (sch : List (Str × Ty)) (n : Nat) (gen : G) (s : State S G) (hs : setSchema sch (init n gen) = some s)
    (before : List (Nat × Nat)) (hc : ∀ c ∈ before, 0 < c.1 ∧ 0 < c.2) (hok : (reads rng before s).1 = .ok)
    (maxEvents maxSlice : Nat) (hM : 0 < maxEvents) (hL : 0 < maxSlice) :
    ∃ add, (read rng maxEvents maxSlice (reads rng before s).2).2.out = (reads rng before s).2.out ++ add ∧
      ∀ x ∈ add, 0 < x.2.length ∧ x.2.length ≤ maxSlice := by
  obtain ⟨hi, hn, _, _, ho, hnum⟩ := setSchema_inv rng hs
  obtain ⟨s'', L, h1, h2, h3⟩ := reads_chain rng before s hc hi hn
  rcases h3 with ⟨_, b, _, d, f⟩ | ⟨a, _, _⟩
  · rw [b]
    obtain ⟨s3, k1, k2, _⟩ := read_chain rng maxEvents maxSlice hM hL s'' f d
    rw [k2]
    exact k1.slices
  · rw [a] at hok; cases hok

/-- The layouts are the types of the schema whose names are `test`, a dot and something, and the slices take turns. -/
theorem C150_turns (rng : Rng S G) (sch : List (Str × Ty)) (n : Nat) (gen : G) (s : State S G) (hs : setSchema sch (init n gen) = some s)
    (calls : List (Nat × Nat)) (hc : ∀ c ∈ calls, 0 < c.1 ∧ 0 < c.2) (j : Nat) (x : Nat × List (List (Leaf S)))
    (hx : (reads rng calls s).2.out[j]? = some x) :
    s.entries.map (fun e => (e.name, e.type)) = sch.filter (fun t => isTest t.1) ∧
    x.1 = j % (sch.filter fun t => isTest t.1).length := by
  obtain ⟨hi, hn, ht, _, ho, hnum⟩ := setSchema_inv rng hs
  obtain ⟨es, e1, _, e3⟩ := setSchema_ok hs
  have hnames : s.entries.map (fun e => (e.name, e.type)) = sch.filter (fun t => isTest t.1) := by
    rw [e3]; exact entriesOf_names sch es e1
  obtain ⟨s'', L, h1, h2, _⟩ := reads_chain rng calls s hc hi hn
  obtain ⟨k1, k2⟩ := h1.turns ht
  rw [h2] at hx
  refine ⟨hnames, ?_⟩
  rw [k1.2 j x hx, k2, ← hnames, List.length_map]

/-- Which names those are: `test`, a dot, and a name without dots; -/
theorem C150_names (x : Str) (hx : x ≠ []) (hd : ch '.' ∉ x) : isTest (str "test." ++ x) = true := by
  have h := Zeek.splitAll_joined (sep := str ".") (by decide) (xs := [str "test", x]) (by simp) (by
    intro y hy
    simp only [List.mem_cons, List.not_mem_nil, or_false] at hy
    rcases hy with rfl | rfl
    · exact ⟨by decide, fun b hb => by
        have : b = 46 := by simpa [str] using hb.symm
        subst this; decide⟩
    · exact ⟨hx, fun b hb => by
        have : b = ch '.' := by simpa [str, ch] using hb.symm
        rw [this]; exact hd⟩) (by simp)
  have e : Zeek.Spec.joined (str ".") [str "test", x] = str "test." ++ x := by
    simp only [Zeek.Spec.joined]
    have : str "test" ++ str "." = str "test." := by decide
    rw [this]
  rw [e] at h
  simp [isTest, h]

/-- but a dot at the end is not noticed. -/
theorem C150_names_refuted : isTest (str "test.a.") = true ∧ isTest (str "test") = false ∧ isTest (str "zeek.test") = false := by
  decide +kernel

/-- After the end, the reader goes on: the last events are made once more. -/
theorem C150_again_refuted : (setSchema [(str "test.a", .record (.cons (.leaf .int []) .nil))] (init 3 ())).map (fun s : State Dist Unit =>
      let once := read telling 10 10 s
      let twice := read telling 10 10 once.2
      (once.1, total once.2.out, twice.1, total twice.2.out)) = some (.eof, 3, .eof, 6) := by decide +kernel

/-! ## C151: what the columns hold -/

/-- If only columns that are filled from samples have a distribution, then the events of each slice follow from the last event of
that layout (or the blueprint) column by column, each sample drawn from the distribution of its own column: columns without one
are null, times and durations advance by their samples. -/
theorem C151_columns_partial (rng : Rng S G) (sch : List (Str × Ty)) (n : Nat) (gen : G) (s : State S G) (hs : setSchema sch (init n gen) = some s)
    (calls : List (Nat × Nat)) (hc : ∀ c ∈ calls, 0 < c.1 ∧ 0 < c.2) (pre post : List (Nat × List (List (Leaf S)))) (j : Nat)
    (rows : List (List (Leaf S))) (h : (reads rng calls s).2.out = pre ++ (j, rows) :: post) :
    ∃ t g, (s.entries[j]?).map Entry.type = some t ∧
      ((∀ c ∈ columns t, own c ≠ none → c.1 ≠ .subnet ∧ c.1 ≠ .other) →
        rows = events rng ((columns t).map fun c => (c.1, own c)) rows.length
          (last j (start ((columns t).map fun c => (c.1, own c))) pre) g) := by
  obtain ⟨hi, hn, _, hh, ho, hnum⟩ := setSchema_inv rng hs
  obtain ⟨s'', L, h1, h2, _⟩ := reads_chain rng calls s hc hi hn
  obtain ⟨k1, k2⟩ := h1.hist hi hh
  rw [h2] at h
  obtain ⟨t, g, m1, m2⟩ := k1.slices pre j rows post h
  rw [k2] at m1
  exact ⟨t, g, by simpa [types] using m1, m2⟩

/-- Two columns of a layout: a subnet with a distribution and a count. -/
def shifted (k : Kind) : Ty :=
  .record (.cons (.leaf k [(str "default", some (str "uniform(1,2)"))]) (.cons (.leaf .count [(str "default", some (str "uniform(5,6)"))]) .nil))

/-- A subnet gets no sample, so a column after it draws from the distribution of the subnet, -/
theorem C151_subnet_refuted : (setSchema [(str "test.a", shifted .subnet)] (init 1 ())).map (fun s => (read telling 1 1 s).2.out) =
    some [(0, [[.net 24, .drawn (.uniformReal ⟨false, [1], []⟩ ⟨false, [2], []⟩)]])] := by decide +kernel

/-- and the same after a list, a map, an enumeration, a pattern or an alias with a distribution. -/
theorem C151_list_refuted : (setSchema [(str "test.a", shifted .other)] (init 1 ())).map (fun s => (read telling 1 1 s).2.out) =
    some [(0, [[.blank, .drawn (.uniformReal ⟨false, [1], []⟩ ⟨false, [2], []⟩)]])] := by decide +kernel

/-- With columns of the types that get samples, all is as it should be: a case of the theorem above. -/
example : (setSchema [(str "test.a", shifted .time)] (init 2 ())).map (fun s => (read telling 2 2 s).2.out) = some [(0, [
      [.summed [.uniformReal ⟨false, [1], []⟩ ⟨false, [2], []⟩], .drawn (.uniformCount ⟨false, [5], []⟩ ⟨false, [6], []⟩)],
      [.summed [.uniformReal ⟨false, [1], []⟩ ⟨false, [2], []⟩, .uniformReal ⟨false, [1], []⟩ ⟨false, [2], []⟩],
        .drawn (.uniformCount ⟨false, [5], []⟩ ⟨false, [6], []⟩)]])] := by decide +kernel

example : ∀ c ∈ columns (shifted .time), own c ≠ none → c.1 ≠ .subnet ∧ c.1 ≠ .other := by decide +kernel

/-- Two layouts, seven events, calls of two and then of four: the slices take turns. -/
example : (setSchema [(str "test.a", shifted .time), (str "zeek.conn", .leaf .int []), (str "test.b", shifted .int)] (init 7 ())).map (fun s =>
      let r := reads telling [(2, 3), (4, 3), (5, 3)] s
      (r.1, r.2.out.map fun x => (x.1, x.2.length))) = some (.eof, [(0, 2), (1, 3), (0, 1), (1, 1)]) := by decide +kernel

/-! ## C152: the attributes -/

theorem letters_append : ∀ (a r : Str), (∀ b ∈ a, isAlpha b = true) → letters (a ++ ch '(' :: r) = (a, ch '(' :: r)
  | [], r, _ => by
    have : isAlpha (ch '(') = false := by decide
    simp [letters, this]
  | b :: a, r, h => by
    simp [letters, h b (by simp), letters_append a r (fun x hx => h x (by simp [hx]))]

theorem numeral_read {t : Str} {l : Lit} (h : Numeral t l) (r : Str) (h1 : headNot isDigit r = true) (h2 : headNot (· == ch '.') r = true) :
    realP false (t ++ r) = some (l, r) := by
  cases h with
  | whole neg ds hd hl =>
    have e : (if neg then [45] else []) ++ Verif.DataText.Spec.digitText ds ++ r = (if neg then [ch '-'] else []) ++ (txt ds ++ r) := by
      rw [← Number.txt_digitText, List.append_assoc]; rfl
    have hs : takeSign ((if neg then [ch '-'] else []) ++ (txt ds ++ r)) = (neg, txt ds ++ r) := by
      cases neg
      · exact takeSign_txt ds hd.2 hd.1 _
      · rfl
    have hne : (if neg then [ch '-'] else []) ++ (txt ds ++ r) ≠ [] := by
      intro h
      exact txt_append_ne ds hd.1 r (List.append_eq_nil_iff.1 h).2
    have a1 := takeDigits_all 20 ds hd.2 hl r h1
    have a2 := takeDigits_all 20 [] (by simp) (by simp) r h1
    simp only [txt, List.map_nil, List.nil_append] at a2
    rw [e]
    simp [realP, hs, a1, eat_none h2, hne, hd.1, a2]
  | dotted neg ds fs hd hl hf hlf =>
    have e := Number.decimalText_eq neg ds fs r
    unfold Number.Spec.decimalText at e
    rw [e]
    exact Number.realP_num hd hf hl hlf neg false r h1

/-- `name(a,b)` with a known name means that distribution, whatever attributes come before that are not `default`; with an unknown
name the schema is refused. -/
theorem C152_read (k : Kind) (name : Str) (hn : name ≠ []) (ha : ∀ b ∈ name, (65 ≤ b.toNat ∧ b.toNat ≤ 90) ∨ (97 ≤ b.toNat ∧ b.toNat ≤ 122))
    (a b : Str) (p q : Lit) (hp : Numeral a p) (hq : Numeral b q) (before after : List Attr) (hb : ∀ x ∈ before, x.1 ≠ str "default") :
    makeDistribution k (before ++ (str "default", some (name ++ [40] ++ a ++ [44] ++ b ++ [41])) :: after) =
      match meaning k name p q with | some d => .dist d | none => .error := by
  have hf : (before ++ (str "default", some (name ++ [40] ++ a ++ [44] ++ b ++ [41])) :: after).find? (fun x => x.1 = str "default") =
      some (str "default", some (name ++ [40] ++ a ++ [44] ++ b ++ [41])) := by
    rw [List.find?_append, List.find?_eq_none.2 (fun x hx => by simpa using hb x hx)]
    simp
  have hl := letters_append (name) (a ++ ch ',' :: (b ++ ch ')' :: [])) (fun x hx => by
    rcases ha x hx with h | h <;> simp [isAlpha, h])
  have e : name ++ [40] ++ a ++ [44] ++ b ++ [41] = name ++ ch '(' :: (a ++ ch ',' :: (b ++ ch ')' :: [])) := by
    simp [ch]
  have hr : parseSpec (name ++ [40] ++ a ++ [44] ++ b ++ [41]) = some (name, p, q) := by
    rw [e]
    unfold parseSpec
    rw [hl]
    simp only [if_neg hn, eat_cons, Option.bind_some]
    rw [numeral_read hp (ch ',' :: (b ++ ch ')' :: [])) rfl rfl]
    simp only [Option.bind_some, eat_cons]
    rw [numeral_read hq (ch ')' :: []) (by decide) rfl]
    simp [eat_cons]
  rw [makeDistribution, hf]
  simp only [hr]
  have hc : choose k name p q = meaning k name p q := by
    unfold choose meaning
    have n1 : str "normal" ≠ str "uniform" := by decide
    have n2 : str "pareto" ≠ str "uniform" := by decide
    have n3 : str "pareto" ≠ str "normal" := by decide
    by_cases h1 : name = str "normal"
    · subst h1; simp [n1]
    · by_cases h2 : name = str "pareto"
      · subst h2; simp [n2, n3]
      · by_cases h3 : name = str "uniform"
        · subst h3
          cases k <;> simp [n1.symm, n2.symm]
        · simp [h1, h2, h3]
  rw [hc]
  cases meaning k name p q <;> rfl

/-- A layout with an attribute that cannot be read makes the reader refuse the schema. -/
theorem C152_refused (name : Str) (hn : isTest name = true) (fs : Tys) (hbad : ∃ c ∈ columnsAll fs, makeDistribution c.1 c.2 = .error)
    (before after : List (Str × Ty)) (s : State S G) : setSchema (before ++ (name, .record fs) :: after) s = none := by
  have h1 : ∀ (ts : Tys) (ds : List Dist), (∃ c ∈ columnsAll ts, makeDistribution c.1 c.2 = .error) → blueprints (S := S) ts ds = none := by
    intro ts
    apply Tys.rec (motive_1 := fun t => ∀ ds, (∃ c ∈ columns t, makeDistribution c.1 c.2 = .error) → blueprint (S := S) t ds = none)
      (motive_2 := fun ts => ∀ ds, (∃ c ∈ columnsAll ts, makeDistribution c.1 c.2 = .error) → blueprints (S := S) ts ds = none)
    · intro k attrs ds ⟨c, hc, he⟩
      simp only [columns, List.mem_cons, List.not_mem_nil, or_false] at hc
      subst hc
      rw [blueprint.eq_def]
      simp only [he]
    · intro fs ih ds h
      rw [blueprint.eq_def]
      simp only [ih ds h, Option.map_none]
    · intro ds ⟨c, hc, _⟩
      simp [columnsAll] at hc
    · intro t ts iht ihts ds ⟨c, hc, he⟩
      rw [blueprints.eq_def]
      simp only [columnsAll, List.mem_append] at hc
      cases hb : blueprint (S := S) t ds with
      | none => simp only [hb, Option.bind_none]
      | some x =>
        simp only [hb]
        rcases hc with hc | hc
        · rw [iht ds ⟨c, hc, he⟩] at hb; cases hb
        · simp only [Option.bind_some, ihts x.2 ⟨c, hc, he⟩, Option.map_none]
  have h2 : ∀ l : List (Str × Ty), entriesOf (S := S) (l ++ (name, .record fs) :: after) = none := by
    intro l
    induction l with
    | nil =>
      have : blueprint (S := S) (.record fs) [] = none := by
        rw [blueprint.eq_def]; simp only [h1 fs [] hbad, Option.map_none]
      simp [entriesOf, hn, this]
    | cons x l ih =>
      obtain ⟨m, t⟩ := x
      simp only [List.cons_append, entriesOf, ih]
      split
      · cases hb : blueprint (S := S) t [] with
        | none => rfl
        | some v => cases t <;> rfl
      · rfl
  unfold setSchema
  simp [h2 before]

/-- The bounds are not checked: `uniform(10,0)` is accepted, though the standard library requires the first to be no greater. -/
theorem C152_bounds_refuted : makeDistribution .int [(str "default", some (str "uniform(10,0)"))] =
    .dist (.uniformInt ⟨false, [1, 0], []⟩ ⟨false, [0], []⟩) := by decide +kernel

/-- An attribute without a value hides a later one. -/
theorem C152_hidden_refuted : makeDistribution .int [(str "default", none), (str "default", some (str "uniform(0,1)"))] = .nothing := by
  decide +kernel

/-- In the built-in schema, the count is drawn from `pareto(0,1)`, whose samples are all infinite as soon as the uniform number
between 0 and 1 it is computed from is neither of them: `std::pow(x, inf)` is 0 for `0 < x < 1` (IEEE 754).  Converting infinity to
an integer is undefined. -/
theorem C152_builtin_refuted :
    (setSchema builtin (init 1 ())).map (fun s => (read telling 1 1 s).2.out.map fun x => x.2.map fun r => r[3]?) =
      some [[some (.drawn (.pareto ⟨false, [0], []⟩ ⟨false, [1], []⟩))]] ∧
    ∀ (pow : Rat → Data.Real → Data.Real), (∀ x, 0 < x → x < 1 → pow x .posInf = .fin 0) → ∀ p : Rat, 0 < p → p < 1 → quantile pow 0 1 p = .posInf := by
  refine ⟨by decide +kernel, ?_⟩
  intro pow hpow p h0 h1
  have e : pow (1 - p) .posInf = .fin 0 := hpow _ (by grind) (by grind)
  unfold quantile
  rw [if_neg (by grind), if_neg (by grind), if_pos rfl, e]
  simp

example : makeDistribution .time [(str "skip", none), (str "default", some (str "normal(-1.5,20)"))] =
    .dist (.normal ⟨true, [1], [5]⟩ ⟨false, [2, 0], []⟩) := by decide +kernel

example : Numeral (str "-1.5") ⟨true, [1], [5]⟩ := .dotted true [1] [5] ⟨by decide, by decide⟩ (by decide) ⟨by decide, by decide⟩ (by decide)

end Verif.TestGen
