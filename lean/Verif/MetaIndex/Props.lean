import Verif.MetaIndex.Lemmas
import Verif.MetaIndex.Built
/-
C21: the catalog never rules out a partition that holds a match.
-/
namespace Verif.MetaIndex
open Verif.Data Verif.Expr Verif.SetOps Verif.Synopsis

variable {τ σ : Type} [DecidableEq τ]

/-- **C21.** Without the pruning step (`lookup_impl`), for any synopses without
false negatives: a partition that holds a match for the query is among the
candidates. -/
theorem C21_candidates_partial (R : Regex) (T : TypeSys τ) (ops : SynOps τ σ) (cat : Catalog τ σ)
    (hsorted : SortedSet (allPartitions cat)) (id : Nat) (ps : PartSyn τ σ)
    (hid : (id, ps) ∈ cat) (slices : List (Slice τ)) (e : Expr τ) (he : e.noEmpty)
    (hplain : ∀ p ∈ e.preds, Pred.plain T p)
    (hsyn : ∀ p ∈ e.preds, ∀ d, p.rhs = .data d → NoFalseNegative R ops ps slices p.op d)
    (hmatch : HoldsMatch R T slices e) :
    id ∈ lookupImpl R T ops cat e := by
  obtain ⟨s, hs, row, hrow, hcols, hsat⟩ := hmatch
  have hall : id ∈ allPartitions cat := (mem_all id).2 ⟨ps, hid⟩
  refine lookupImpl_sound R T ops cat id (satPred R T s.layout row) hsorted hall e ?_
    (weak_of_eval _ e hsat) ?_ he
  · intro p hp hpv
    exact lookupPred_sound R T ops cat id ps slices hsorted hid s hs row hrow hcols p (hplain p hp)
      (hsyn p hp) hpv
  · intro xs hx; subst hx; simp only [Expr.noEmpty] at he; exact he.1

/-- **C21 (partial).** The whole lookup, with pruning, over partition synopses
that were built from the partitions' slices with VAST's own synopses: if the
lookup returns, a partition that holds a match is among the candidates. The
query may contain negations. The hypotheses exclude the cases in which this
fails: a string literal that occurs twice below a disjunction
(`C21_pruner_refuted`), negated `#field` predicates
(`C21_field_negation_refuted`), glob characters in field extractors
(`C21_glob_refuted`), comparisons that a nil satisfies (`C21_nil_refuted`), and
`!=`, `!in` and patterns (C18, C20). -/
theorem C21_lookup_partial (R : Regex) (T : TypeSys τ) (I : TypeInfo τ) (hI : I.Valid)
    (parts : List (Nat × List (Slice τ))) (hsorted : SortedSet (parts.map (·.1)))
    (id : Nat) (slices : List (Slice τ)) (hid : (id, slices) ∈ parts)
    (hty : ∀ s ∈ slices, WellTyped I s) (e : Expr τ) (he : e.noEmpty)
    (hdist : stringsDistinct e) (hplain : ∀ p ∈ e.preds, Pred.plain T p)
    (hsup : ∀ p ∈ e.preds, ∀ d, p.rhs = .data d →
      Supported p.op d ∧ evaluate R .none p.op d = false)
    (hmatch : HoldsMatch R T slices e) (fuel : Nat) (result : List Nat)
    (hlookup : lookup R T (synOps I) (parts.map fun x => (x.1, build I x.2)) fuel e = some result) :
    id ∈ result := by
  obtain ⟨s, hs, row, hrow, hcols, hsat⟩ := hmatch
  unfold lookup at hlookup
  simp only [Option.map_eq_some_iff] at hlookup
  obtain ⟨r, hr, rfl⟩ := hlookup
  have hw := pruneAll_weaker (satPred R T s.layout row) fuel e r ⟨he, hdist⟩ hr
  have hso : Sorted (parts.map fun x => (x.1, build I x.2)) := by
    unfold Sorted allPartitions
    simpa [List.map_map, Function.comp_def] using hsorted
  have hidc : (id, build I slices) ∈ parts.map fun x => (x.1, build I x.2) :=
    List.mem_map.2 ⟨(id, slices), hid, rfl⟩
  refine lookupImpl_sound R T (synOps I) _ id (satPred R T s.layout row) hso
    ((mem_all id).2 ⟨_, hidc⟩) r ?_ (hw.weak (weak_of_eval _ e hsat)) ?_ hw.ok.noEmpty
  · intro p hp hpv
    have hpe := hw.preds p hp
    refine lookupPred_sound R T (synOps I) _ id _ slices hso hidc s hs row hrow hcols p
      (hplain p hpe) ?_ hpv
    intro d hd
    obtain ⟨h1, h2⟩ := hsup p hpe d hd
    exact build_noFalseNegative R I hI slices hty p.op d h1 h2
  · intro xs hx
    have := hw.ok.noEmpty
    subst hx
    simp only [Expr.noEmpty] at this
    exact this.1

/-- **C21.** The candidates are known partitions, listed once each and in
ascending order, for every query. -/
theorem C21_candidates_known (R : Regex) (T : TypeSys τ) (ops : SynOps τ σ) (cat : Catalog τ σ)
    (hsorted : SortedSet (allPartitions cat)) (fuel : Nat) (e : Expr τ) (result : List Nat)
    (h : lookup R T ops cat fuel e = some result) :
    SortedSet result ∧ ∀ id ∈ result, id ∈ allPartitions cat := by
  unfold lookup at h
  simp only [Option.map_eq_some_iff] at h
  obtain ⟨r, _, rfl⟩ := h
  exact lookupImpl_good R T ops hsorted r

/-- **C21.** The lookup returns for every query without NaN literals: `fuel`
iterations of the pruning loop suffice for some `fuel`. -/
theorem C21_terminates (R : Regex) (T : TypeSys τ) (ops : SynOps τ σ) (cat : Catalog τ σ)
    (e : Expr τ) (h : nanFree e) : ∃ fuel, (lookup R T ops cat fuel e).isSome := by
  have := pruneLoop_terminates (size (prune e) + 1) e (prune e)
    (fun p hp => h p ((preds_prune e).subset hp)) (by omega)
  refine ⟨size (prune e) + 1, ?_⟩
  unfold lookup pruneAll
  simpa using this

/-! ### Refutations -/

/-- Two types, strings and booleans, without attributes. -/
inductive Ty where
  | string | bool
deriving DecidableEq

/-- No `skip` attribute, and a filter for strings. -/
def info : TypeInfo Ty where
  kind | .string => .string | .bool => .bool
  clean := id
  skip _ := false
  filter _ := some demoBloom

theorem info_valid : info.Valid :=
  ⟨fun _ => rfl, fun t b h => by simp [info] at h; subst h; simp [demoBloom]⟩

/-- Field extractors select by suffix; everything else is irrelevant here. -/
def types : TypeSys Ty where
  compatible _ _ _ := true
  congruent a b := a == b
  named _ _ _ _ := false
  timestamp _ := false
  suffix k n := endsWith n k

/-- No regular expressions. -/
def noRegex : Regex := ⟨fun _ _ => false, fun _ _ => false⟩

/-- A slice of layout `t` with one string column. -/
def stringSlice (layout column value : String) : Slice Ty :=
  { layout := ⟨str layout, [⟨str (layout ++ "." ++ column), .string⟩]⟩
    rows := [[.string (str value)]]
    offset := 0 }

/-- The catalog of two partitions: number 1 has a column `a`, number 2 has a
column `b`. -/
def twoParts : Catalog Ty Syn :=
  [(1, build info [stringSlice "t" "a" "x"]), (2, build info [stringSlice "u" "b" "foo"])]

/-- `field == "literal"`. -/
def fieldIs (f s : String) : Expr Ty := .pred ⟨.field (str f), .equal, .data (.string (str s))⟩

/-- The hypotheses of `C21_lookup_partial` are met by the query
`b == "foo" || a == "bar"` and the two partitions above, of which the second
one holds a match. -/
example : lookup noRegex types (synOps info) twoParts 9
      (.disj [fieldIs "b" "foo", fieldIs "a" "bar"]) = some [2] ∧
    stringsDistinct (.disj [fieldIs "b" "foo", fieldIs "a" "bar"]) ∧
    HoldsMatch noRegex types [stringSlice "u" "b" "foo"]
      (.disj [fieldIs "b" "foo", fieldIs "a" "bar"]) ∧
    Supported .equal (.string (str "foo")) ∧
    evaluate noRegex .none .equal (.string (str "foo")) = false := by
  refine ⟨by decide +kernel, ?_, ?_, ?_, by decide⟩
  · simp [stringsDistinct, stringsDistinctAll, fieldIs, Expr.predsAll, Expr.preds, stringLiteral,
      Operand.isMeta]
    decide
  · exact ⟨_, List.mem_singleton.2 rfl, _, List.mem_singleton.2 rfl, by decide, by decide⟩
  · exact ⟨by decide, by decide, by simp⟩

/-- **C21 (refuted: repeated strings).** The event in partition 2 satisfies
`a == "foo" || b == "foo"`, but the pruning step drops the second predicate
because its string was seen, and partition 2 is ruled out. -/
theorem C21_pruner_refuted :
    ∃ e : Expr Ty, HoldsMatch noRegex types [stringSlice "u" "b" "foo"] e ∧
      lookup noRegex types (synOps info) twoParts 9 e = some [] := by
  refine ⟨.disj [fieldIs "a" "foo", fieldIs "b" "foo"], ?_, by decide⟩
  exact ⟨_, List.mem_singleton.2 rfl, _, List.mem_singleton.2 rfl, by decide, by decide⟩

/-- **C21 (refuted: negated `#field`).** A partition with events of two layouts:
the second has no field `a`, so its event satisfies `#field != "a"`, but the
partition is ruled out because of the first. -/
theorem C21_field_negation_refuted :
    let slices := [stringSlice "t" "a" "x", stringSlice "u" "b" "foo"]
    ∃ e : Expr Ty, HoldsMatch noRegex types slices e ∧
      lookup noRegex types (synOps info) [(1, build info slices)] 9 e = some [] := by
  refine ⟨.pred ⟨.metaField, .notEqual, .data (.string (str "a"))⟩, ?_, by decide⟩
  exact ⟨stringSlice "u" "b" "foo", by simp, _, List.mem_singleton.2 rfl, by decide, by decide⟩

/-- **C21 (refuted: globs).** With the glob `b*` selecting the field `u.b`
(`record_type::find_suffix` turns keys into patterns), partition 2 has a match
for `b* == "foo"`, but the catalog compares the key literally. -/
theorem C21_glob_refuted :
    let globTypes : TypeSys Ty := { types with suffix := fun k n => k == str "b*" && n == str "u.b" }
    ∃ e : Expr Ty, HoldsMatch noRegex globTypes [stringSlice "u" "b" "foo"] e ∧
      lookup noRegex globTypes (synOps info) twoParts 9 e = some [] := by
  refine ⟨fieldIs "b*" "foo", ?_, by decide⟩
  exact ⟨_, List.mem_singleton.2 rfl, _, List.mem_singleton.2 rfl, by decide, by decide⟩

/-- A slice with one boolean column and two rows, `true` and nil. -/
def boolSlice : Slice Ty :=
  { layout := ⟨str "t", [⟨str "t.b", .bool⟩]⟩
    rows := [[.bool true], [.none]]
    offset := 0 }

/-- **C21 (refuted: nil).** The second event has no value for `b`, so it
satisfies `b != true`, but nil values are not part of synopses and the
partition is ruled out. -/
theorem C21_nil_refuted :
    ∃ e : Expr Ty, HoldsMatch noRegex types [boolSlice] e ∧
      lookup noRegex types (synOps info) [(1, build info [boolSlice])] 9 e = some [] := by
  refine ⟨.pred ⟨.field (str "b"), .notEqual, .data (.bool true)⟩, ?_, by decide⟩
  exact ⟨boolSlice, by simp, [.none], by simp [boolSlice], by decide, by decide⟩

/-- A query that compares with NaN. -/
def nanQuery : Expr Ty := .pred ⟨.field (str "x"), .equal, .data (.real .nan)⟩

theorem nanQuery_loops (n : Nat) : pruneLoop n nanQuery nanQuery = none := by
  induction n with
  | zero => rfl
  | succ n ih => rw [pruneLoop]; exact ih

/-- **C21 (refuted: NaN).** A query with a NaN literal keeps the lookup busy
forever: no number of iterations of the pruning loop suffices. -/
theorem C21_nan_refuted (cat : Catalog Ty Syn) :
    ∃ e : Expr Ty, ∀ fuel, lookup noRegex types (synOps info) cat fuel e = none := by
  refine ⟨nanQuery, fun fuel => ?_⟩
  unfold lookup pruneAll
  rw [show prune nanQuery = nanQuery from rfl, nanQuery_loops]
  rfl

end Verif.MetaIndex
