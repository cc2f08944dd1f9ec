import Verif.SynopsisStore.Found
/-! # C124–C126: what is known about a partition is written, read again, and does not rule out its events -/
namespace Verif.SynopsisStore
open Verif.Data Verif.DataText Verif.Calendar Verif.Synopsis Spec

/-- **C124 (partial).**  Let a partition get any slices, whose columns all have names, with any options for the synopses whose rates have
at most six digits after the point.  When its synopses are shrunk and written, reading what was written succeeds, and gives every answer
that the synopses gave before, about the same fields and types.  The separate file that is extracted from the file of the partition is
written alike.  Missing: other rates and columns without names, for which this fails. -/
theorem C124_reload_partial (env : Env) (hk : Narrow env) (o : Opts) (ho : Decimal o) (slices : List Slice) (hn : Named slices)
    (hl : amount slices < 2 ^ 63) (full x : PartSyn) (hf : filled env o slices = .ok full) (hs : full.shrink env = .ok x)
    (file : List (Field × Packed)) (hp : x.pack = .ok file) :
    ∃ y, unpack env file = .ok y ∧ y.answers env = x.answers env ∧ extract env file = .ok file := by
  obtain ⟨y, h1, h2, h3, _⟩ := unpack_packed (shrink_inv (fun _ h => h) hk hl (filled_inv (W := (· ≠ [])) hk (rates_decimal ho) hn hf) hs) hp
  refine ⟨y, h1, h2, ?_⟩
  unfold extract
  rw [unpackSome_ok h1]
  simp only [Res.bind]
  rw [h3]

/-- **C124 (partial).**  Hence a query finds the same partitions after a restart: the catalog gives the same candidates for every expression
when it has the synopses that were read in the place of those that were written. -/
theorem C124_candidates_partial (env : Env) (hk : Narrow env) (o : Opts) (ho : Decimal o) (slices : List Slice) (hn : Named slices)
    (hl : amount slices < 2 ^ 63) (full x : PartSyn) (hf : filled env o slices = .ok full) (hs : full.shrink env = .ok x)
    (file : List (Field × Packed)) (hp : x.pack = .ok file) :
    ∃ y, unpack env file = .ok y ∧ ∀ R T before id after fuel e,
      candidates R T (before ++ (id, y.answers env) :: after) fuel e = candidates R T (before ++ (id, x.answers env) :: after) fuel e := by
  obtain ⟨y, h1, h2, _⟩ := C124_reload_partial env hk o ho slices hn hl full x hf hs file hp
  exact ⟨y, h1, by intros; rw [h2]⟩

/-- **C125 (partial).**  Let a partition get any slices, with rates for which filters can be made.  Then its synopses can be shrunk and
written.  Missing: other rates, for which this fails. -/
theorem C125_written_partial (env : Env) (hk : Narrow env) (o : Opts) (slices : List Slice)
    (hs : Feasible env (o.stringRate.getD (rnd (1 / 100)))) (ha : Feasible env (o.addressRate.getD (rnd (1 / 100))))
    (full : PartSyn) (hf : filled env o slices = .ok full) :
    ∃ x file, full.shrink env = .ok x ∧ x.pack = .ok file :=
  written (Q := Feasible env) (W := fun _ => True) (fun _ h => h) (filled_inv hk ⟨hs, ha⟩ (fun _ _ _ _ => trivial) hf)

/-- **C125 (refuted).**  For every rate above one that is configured for strings, and every column of strings, with or without values: the
partition takes the column, and then its synopses cannot be written. -/
theorem C125_rate_refuted (env : Env) (p : Rat) (hp : 1 < p) (cap : Nat) (o : Opts) (ho : o.stringRate = some p) (hc : o.cap = some cap)
    (layout name : Str) (values : List Str) :
    ∃ full x, filled env o [⟨layout, [⟨name, ⟨.string, false, [], []⟩, values.map Data.string⟩]⟩] = .ok full ∧
      full.shrink env = .ok x ∧ x.pack = .error := by
  have hadd : ∀ (vs : List Data) (data : List Data), (∀ v ∈ vs, ∃ s, v = .string s) →
      ∃ data', Syn.addAll env (.buffered ⟨.string, false, [], []⟩ p data) vs = .ok (.buffered ⟨.string, false, [], []⟩ p data') := by
    intro vs
    induction vs with
    | nil => intro data _; exact ⟨data, rfl⟩
    | cons v vs ih =>
      intro data h
      obtain ⟨s, rfl⟩ := h v (List.mem_cons_self ..)
      obtain ⟨d', h'⟩ := ih (bufferedAdd data (.string s)) (fun v hv => h v (List.mem_cons_of_mem _ hv))
      exact ⟨d', h'⟩
  obtain ⟨data, hd⟩ : ∃ data, addColumn env (values.map Data.string) (some (.buffered ⟨.string, false, [], []⟩ p [])) =
      .ok (some (.buffered ⟨.string, false, [], []⟩ p data)) := by
    simp only [addColumn]
    generalize hvs : List.filter _ (values.map Data.string) = vs
    obtain ⟨data, h⟩ := hadd vs [] (by
      intro v hv
      rw [← hvs] at hv
      obtain ⟨s, _, rfl⟩ := List.mem_map.mp (List.mem_filter.mp hv).1
      exact ⟨s, rfl⟩)
    exact ⟨data, by rw [h]; rfl⟩
  refine ⟨⟨[(⟨layout, name, ⟨.string, false, [], []⟩⟩, none)], [(⟨.string, false, [], []⟩, some (.buffered ⟨.string, false, [], []⟩ p data))]⟩,
    ⟨[(⟨layout, name, ⟨.string, false, [], []⟩⟩, none)], [(⟨.string, false, [], []⟩, some (.buffered ⟨.string, false, [], []⟩ p data))]⟩, ?_, ?_, rfl⟩
  · have hm : makeSynopsis env { o with buffered := true } ⟨.string, false, [], []⟩ = .ok (some (.buffered ⟨.string, false, [], []⟩ p [])) := by
      unfold makeSynopsis make makeBloomed
      simp [Ty.skip, parameters, ho, hc]
    simp only [filled, foldRes, PartSyn.add, PartSyn.addColumn, Ty.isString, decide_true, Bool.not_false, Bool.and_self, if_true,
      Ty.clean, MetaIndex.find, orMake, hm, Res.bind, hd, MetaIndex.assign]
  · have hm : makeFilter env (nextPowerOfTwo data.length 1) p = .ok none := by
      unfold makeFilter
      rw [if_pos (.inr (.inr hp))]
    simp [PartSyn.shrink, mapRes, shrinkOne, Syn.shrink, makeWith, annotate, hm, Res.bind]

/-- **C126 (partial).**  Let a partition get any slices, be shrunk, written and read again (with the rates and names as above).  Every column
that it got is known.  If there is a synopsis for it, then for every value in the column that satisfies a predicate, the synopsis does not
answer "no" to the predicate.  Missing: `!=` and `!in` and patterns, for which this fails already before (`C18_not_equal_refuted`,
`C20_pattern_refuted`). -/
theorem C126_found_partial (env : Env) (hk : Narrow env) (o : Opts) (ho : Decimal o) (slices : List Slice) (hn : Named slices)
    (hl : amount slices < 2 ^ 63) (full x : PartSyn) (hf : filled env o slices = .ok full) (hs : full.shrink env = .ok x)
    (file : List (Field × Packed)) (hp : x.pack = .ok file) :
    ∃ y, unpack env file = .ok y ∧ ∀ s ∈ slices, ∀ c ∈ s.columns, ∃ r, known env y s.layout c = some r ∧
      ∀ ask, r = some ask → ∀ d ∈ c.values, d ≠ .none → ∀ R op rhs, op ≠ .notEqual → op ≠ .notIn → (∀ p, rhs ≠ .pattern p) →
        evaluate R d op rhs = true → ask op rhs ≠ some (some false) := by
  obtain ⟨y, h1, _, _, h4⟩ := unpack_packed (shrink_inv (fun _ h => h) hk hl (filled_inv (W := (· ≠ [])) hk (rates_decimal ho) hn hf) hs) hp
  refine ⟨y, h1, ?_⟩
  intro s hs' c hc
  obtain ⟨r, hr, ht⟩ := shrink_taken hs (filled_taken hf s hs' c hc)
  refine ⟨r.map fun s => s.lookup env, ?_, ?_⟩
  · rw [h4]
    show (entry x s.layout c).map _ = _
    rw [hr]
    rfl
  · intro ask ha d hd hdn R op rhs n1 n2 n3 hm
    cases r with
    | none => cases ha
    | some syn =>
      cases ha
      exact contains_sound (ht syn rfl d hd hdn) (pack_unbuffered hp hr) R op rhs n1 n2 n3 hm

/-! ### Where it fails -/

/-- An arithmetic that gives twice the capacity and one hash function, if the rate is not zero. -/
def arith0 (n : Nat) (p : Rat) : Option (Nat × Nat) := if p = 0 then none else some (2 * n, 1)

/-- An environment. -/
def env0 : Env := ⟨arith0, fun seed _ => seed⟩

theorem narrow0 : Narrow env0 := by
  intro n p m k h
  unfold env0 arith0 at h
  simp only at h
  split at h
  · cases h
  · cases h; decide

/-- A type without name and attributes. -/
def ty (k : Kind) : Ty := ⟨k, false, [], []⟩

/-- A slice with columns of three types. -/
def slice0 : Slice := ⟨str "l", [⟨str "a", ty .bool, [.bool true, .none]⟩, ⟨str "b", ty .string, [.string (str "x"), .string (str "y")]⟩,
  ⟨str "c", ty .time, [.time 5, .time 7]⟩]⟩

/-- The default options, with a rate for strings. -/
def opts0 (p : Option Rat) : Opts := ⟨some 1048576, p, none, true⟩

/-- A partition is filled, shrunk and written. -/
def stored (env : Env) (o : Opts) (slices : List Slice) : Res (PartSyn × List (Field × Packed)) :=
  (filled env o slices).bind fun full => (full.shrink env).bind fun x => x.pack.bind fun file => .ok (x, file)

/-- An action gives something with a property. -/
def Res.gives {α : Type} (r : Res α) (f : α → Bool) : Bool :=
  match r with
  | .ok a => f a
  | _ => false

theorem Res.gives_iff {α : Type} {r : Res α} {f : α → Bool} (h : r.gives f = true) : ∃ a, r = .ok a ∧ f a = true := by
  cases r with
  | ok a => exact ⟨a, rfl, h⟩
  | error => cases h
  | abort => cases h
  | undefined => cases h

theorem stored_iff {env : Env} {o : Opts} {slices : List Slice} {x : PartSyn} {file : List (Field × Packed)}
    (h : stored env o slices = .ok (x, file)) : ∃ full, filled env o slices = .ok full ∧ full.shrink env = .ok x ∧ x.pack = .ok file := by
  obtain ⟨full, h1, h⟩ := Res.bind_ok h
  obtain ⟨y, h2, h⟩ := Res.bind_ok h
  obtain ⟨z, h3, h⟩ := Res.bind_ok h
  cases h
  exact ⟨full, h1, h2, h3⟩

/-- The hypotheses of `C124_reload_partial`, `C125_written_partial` and `C126_found_partial` hold of a partition with three columns. -/
example : ∃ full x file, filled env0 (opts0 (some (rnd (5 / 1000)))) [slice0, slice0] = .ok full ∧ full.shrink env0 = .ok x ∧ x.pack = .ok file ∧
    Decimal (opts0 (some (rnd (5 / 1000)))) ∧ Named [slice0, slice0] ∧ amount [slice0, slice0] < 2 ^ 63 ∧ file.length = 4 ∧
    Feasible env0 (rnd (5 / 1000)) ∧ Feasible env0 (rnd (1 / 100)) := by
  obtain ⟨⟨x, file⟩, h, hl⟩ := Res.gives_iff (r := stored env0 (opts0 (some (rnd (5 / 1000)))) [slice0, slice0])
    (f := fun a => a.2.length == 4) (by decide +kernel)
  obtain ⟨full, h1, h2, h3⟩ := stored_iff h
  refine ⟨full, x, file, h1, h2, h3, ?_, ?_, by decide, by simpa using hl, ?_, ?_⟩
  · rintro p (h | h)
    · cases h; exact ⟨5000, by omega, by norm_num⟩
    · cases h
  · simp [Named, slice0, str]
  · exact ⟨by decide +kernel, by decide +kernel, fun j => ⟨2 * 2 ^ j, 1, by
      show arith0 _ _ = _
      unfold arith0
      rw [if_neg (by decide +kernel)], by positivity, by omega⟩⟩
  · exact ⟨by decide +kernel, by decide +kernel, fun j => ⟨2 * 2 ^ j, 1, by
      show arith0 _ _ = _
      unfold arith0
      rw [if_neg (by decide +kernel)], by positivity, by omega⟩⟩

/-- **C124 (refuted).**  With a rate of 10⁻⁷ for strings, a partition with one string can be written.  But in the file the rate is zero, and
reading it is undefined when the sizing of filters is undefined for a rate of zero (it divides the infinite logarithm of zero). -/
theorem C124_rate_refuted :
    ∃ full x file, filled env0 (opts0 (some (rnd (1 / 10 ^ 7)))) [slice0] = .ok full ∧ full.shrink env0 = .ok x ∧ x.pack = .ok file ∧
      unpack env0 file = .undefined := by
  obtain ⟨⟨x, file⟩, h, hl⟩ := Res.gives_iff (r := stored env0 (opts0 (some (rnd (1 / 10 ^ 7)))) [slice0])
    (f := fun a => match unpack env0 a.2 with | .undefined => true | _ => false) (by decide +kernel)
  obtain ⟨full, h1, h2, h3⟩ := stored_iff h
  refine ⟨full, x, file, h1, h2, h3, ?_⟩
  simp only at hl
  split at hl
  · assumption
  · cases hl

/-- **C124 (refuted).**  A column of Booleans without a name: before, the partition is known to have it; after writing and reading, it is not. -/
theorem C124_name_refuted :
    ∃ full x file y, filled env0 (opts0 none) [⟨str "l", [⟨[], ty .bool, [.bool true]⟩]⟩] = .ok full ∧ full.shrink env0 = .ok x ∧
      x.pack = .ok file ∧ unpack env0 file = .ok y ∧ (x.answers env0).fields.length = 1 ∧ (y.answers env0).fields = [] :=
  ⟨_, _, _, _, rfl, rfl, rfl, rfl, rfl, rfl⟩

/-- **C125 (refuted).**  A column whose type is an alias of the Booleans, of the strings or of the addresses violates an assertion. -/
theorem C125_alias_refuted (env : Env) (o : Opts) (layout name tname : Str) (k : Kind) (hk : k = .bool ∨ k = .string ∨ k = .address)
    (values : List Data) (rest : List Column) :
    filled env o [⟨layout, ⟨name, ⟨k, true, tname, []⟩, values⟩ :: rest⟩] = .abort := by
  rcases hk with rfl | rfl | rfl <;> rfl

end Verif.SynopsisStore
