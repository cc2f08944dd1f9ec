import Verif.Partition.Query
import Verif.Partition.Props
import Mathlib.Data.List.Perm.Basic
import Mathlib.Data.List.Nodup

/-! # C103: A query is answered with the events that satisfy it, from the catalog to the client -/

namespace Verif.Partition
open Verif.Data Verif.Expr Verif.Evaluator Verif.Partition.Spec
open Verif.Evaluator.Spec (Has)
open Verif.MetaIndex (Field find find_mem TypeInfo WellTyped Supported stringsDistinct synOps HoldsMatch)

variable {τ : Type} [DecidableEq τ]

/-- C103, one partition: whatever the indexes find in addition, the store sends exactly the events of the partition that
    satisfy the query, each once and in order, for every order of the replies of the indexers. In particular the cases in
    which the store alone would send too much (C25: layouts without a column for the query, and metadata predicates) do not
    arise with the hits of the partition. Partial: see `Indexed`, and metadata predicates have to be conjuncts (C25). -/
theorem C103_partition_partial (R : Regex) (T : TypeSys τ) (answer : τ → List (Nat × Data) → RelOp → Data → Option Ids)
    (skip : τ → Bool) (slices : List (Slice τ)) (part : Part τ) (hb : build skip slices = some part) (e : Expr τ) (hq : Query e)
    (hm : e.metaConjunctive) (hts : ∀ p ∈ e.preds, p.noTimestamp) (hx : Indexed R T answer skip slices part e)
    (order : List (Position × Option Ids)) (horder : order.Perm (requests R T answer part e)) :
    storeExtract R T e (hits e order) slices = some (matching R T e slices) := by
  refine storeExtract_exact R T e _ hq hm hts (fun p hp => (hx.covered p hp).plain) slices hx.safe ?_ ?_
  · intro s hs i row hi hsat
    exact C102_found_partial R T answer skip slices part hb hx.qualified hx.ownIds e hq.normal.noNegation hq.noEmpty hq.noNil
      hx.covered order horder s hs i row hi hsat
  · intro s hs i row hi hhit
    exact hits_weak hb hx hq.normal.noNegation hq.noEmpty hq.noNil horder hs hi hhit

theorem find_of_mem {β : Type} : ∀ (parts : List (Nat × β)), (parts.map (·.1)).Nodup → ∀ x ∈ parts, find x.1 parts = some x.2
  | [], _, x, h => by cases h
  | y :: parts, hn, x, h => by
    rw [List.map_cons, List.nodup_cons] at hn
    rw [find.eq_def]
    rcases List.mem_cons.1 h with rfl | h
    · simp
    · have hne : y.1 ≠ x.1 := fun he => hn.1 (he ▸ List.mem_map_of_mem h)
      simp only [hne, if_false]
      exact find_of_mem parts hn.2 x h

theorem ask_exact (R : Regex) (T : TypeSys τ) (e : Expr τ) (parts : List (Nat × List (Slice τ)))
    (replies : Nat → List (Position × Option Ids)) (hn : (parts.map (·.1)).Nodup)
    (h : ∀ x ∈ parts, storeExtract R T e (hits e (replies x.1)) x.2 = some (matching R T e x.2)) : ∀ (schedule : List Nat),
    (∀ id ∈ schedule, id ∈ parts.map (·.1)) →
    ask R T e parts replies schedule = some (schedule.flatMap fun id => matching R T e ((find id parts).getD []))
  | [], _ => rfl
  | id :: schedule, hs => by
    obtain ⟨x, hx, rfl⟩ := List.mem_map.1 (hs id List.mem_cons_self)
    have hf := find_of_mem parts hn x hx
    rw [ask, hf, Option.bind_some, h x hx, Option.bind_some,
      ask_exact R T e parts replies hn h schedule fun id h => hs id (List.mem_cons_of_mem _ h)]
    simp [hf]

theorem flatMap_filter_nil {α β : Type} (f : α → List β) (p : α → Bool) : ∀ (xs : List α), (∀ x ∈ xs, p x = false → f x = []) →
    xs.flatMap f = (xs.filter p).flatMap f
  | [], _ => rfl
  | x :: xs, h => by
    have ih := flatMap_filter_nil f p xs fun y hy => h y (List.mem_cons_of_mem _ hy)
    rw [List.flatMap_cons, ih]
    cases hp : p x with
    | true => rw [List.filter_cons_of_pos hp, List.flatMap_cons]
    | false => rw [List.filter_cons_of_neg (by simp [hp]), h x List.mem_cons_self hp]; rfl

theorem matching_nil {R : Regex} {T : TypeSys τ} {e : Expr τ} {slices : List (Slice τ)} (hcols : ∀ s ∈ slices, s.layout.columns ≠ [])
    (h : ¬ HoldsMatch R T slices e) : matching R T e slices = [] := by
  rw [matching, List.flatMap_eq_nil_iff]
  intro s hs
  rw [List.map_eq_nil_iff, List.filter_eq_nil_iff]
  intro row hrow hsat
  exact h ⟨s, hs, row, hrow, hcols s hs, hsat⟩

/-- C103, all partitions: the client gets exactly the events of all partitions that satisfy the query, each once: whichever
    partitions the catalog rules out, in whichever order the others are asked, whichever order the indexers reply in, and
    whether or not more partitions than the candidates are asked, as the active one and those that are not yet persisted
    always are (index.cpp:806-821).
    Partial: the hypotheses exclude what fails for the catalog (C21), the partitions (C102) and the stores (C25). -/
theorem C103_answer_partial (R : Regex) (T : TypeSys τ) (I : TypeInfo τ) (hI : I.Valid)
    (answer : τ → List (Nat × Data) → RelOp → Data → Option Ids) (parts : List (Nat × List (Slice τ)))
    (hsorted : SetOps.SortedSet (parts.map (·.1))) (e : Expr τ) (hq : Query e) (hm : e.metaConjunctive)
    (hts : ∀ p ∈ e.preds, p.noTimestamp) (hdist : stringsDistinct e) (hplain : ∀ p ∈ e.preds, MetaIndex.Pred.plain T p)
    (hsup : ∀ p ∈ e.preds, ∀ d, p.rhs = .data d → Supported p.op d ∧ Data.evaluate R .none p.op d = false)
    (replies : Nat → List (Position × Option Ids))
    (hparts : ∀ x ∈ parts, (∀ s ∈ x.2, WellTyped I s ∧ s.layout.columns ≠ []) ∧ ∃ part, build I.skip x.2 = some part ∧
      Indexed R T answer I.skip x.2 part e ∧ (replies x.1).Perm (requests R T answer part e))
    (fuel : Nat) (candidates : List Nat)
    (hlookup : MetaIndex.lookup R T (synOps I) (parts.map fun x => (x.1, MetaIndex.build I x.2)) fuel e = some candidates)
    (schedule : List Nat) (honce : schedule.Nodup) (hthere : ∀ id ∈ schedule, id ∈ parts.map (·.1))
    (hall : ∀ id ∈ candidates, id ∈ schedule) :
    ∃ out, ask R T e parts replies schedule = some out ∧ out.Perm (parts.flatMap fun x => matching R T e x.2) := by
  have hnd : (parts.map (·.1)).Nodup := hsorted.imp (fun h => Nat.ne_of_lt h)
  have hcat : MetaIndex.allPartitions (parts.map fun x => (x.1, MetaIndex.build I x.2)) = parts.map (·.1) := by
    simp [MetaIndex.allPartitions, Function.comp_def]
  have hknown := MetaIndex.C21_candidates_known R T (synOps I) (parts.map fun x => (x.1, MetaIndex.build I x.2))
    (by rw [hcat]; exact hsorted) fuel e candidates hlookup
  rw [hcat] at hknown
  refine ⟨_, ask_exact R T e parts replies hnd (fun x hx => ?_) schedule hthere, ?_⟩
  · obtain ⟨_, part, hb, hind, hperm⟩ := hparts x hx
    exact C103_partition_partial R T answer I.skip x.2 part hb e hq hm hts hind _ hperm
  · have h1 : parts.flatMap (fun x => matching R T e x.2) =
        (parts.map (·.1)).flatMap fun id => matching R T e ((find id parts).getD []) := by
      rw [List.flatMap_map]
      apply List.flatMap_congr
      intro x hx
      rw [find_of_mem parts hnd x hx]; rfl
    rw [h1, flatMap_filter_nil _ (fun id => schedule.contains id) (parts.map (·.1)) ?_]
    · refine List.Perm.flatMap_right _ ?_
      refine (List.perm_ext_iff_of_nodup honce (hnd.filter _)).2 fun id => ?_
      rw [List.mem_filter, List.contains_iff_mem]
      exact ⟨fun h => ⟨hthere id h, h⟩, fun h => h.2⟩
    · intro id hid hc
      obtain ⟨x, hx, rfl⟩ := List.mem_map.1 hid
      rw [find_of_mem parts hnd x hx]
      obtain ⟨hty, _⟩ := hparts x hx
      refine matching_nil (fun s hs => (hty s hs).2) fun hmatch => ?_
      have := MetaIndex.C21_lookup_partial R T I hI parts hsorted x.1 x.2 hx (fun s hs => (hty s hs).1) e hq.noEmpty hdist hplain hsup
        hmatch fuel candidates hlookup
      have := hall _ this
      rw [← List.contains_iff_mem] at this
      rw [this] at hc
      cases hc

/-! ### The hypotheses can be met -/

/-- Two partitions: an event of the layout `t` with `a = "x"`, and one of the layout `u` with `b = "foo"`. -/
def demoParts : List (Nat × List (Slice MetaIndex.Ty)) :=
  [(1, [MetaIndex.stringSlice "t" "a" "x"]), (2, [MetaIndex.stringSlice "u" "b" "foo"])]

/-- `b == "foo" || a == "bar"` -/
def demoQuery : Expr MetaIndex.Ty := .disj [MetaIndex.fieldIs "b" "foo", MetaIndex.fieldIs "a" "bar"]

theorem endsWith_undot {n k : Str} (hk : k.head? ≠ some 46) (h : endsWith (46 :: n) k = true) : endsWith n k = true := by
  rw [endsWith, List.isSuffixOf_iff_suffix] at *
  rcases List.suffix_cons_iff.1 h with rfl | h
  · exact absurd rfl hk
  · exact h

theorem stringSlice_own (l c v : String) : OwnIds [MetaIndex.stringSlice l c v] := by
  intro s hs s' hs' i row row' h h'
  rw [List.mem_singleton] at hs hs'
  subst hs hs'
  rw [mem_events] at h h'
  exact ⟨rfl, Option.some.inj (h.2.symm.trans h'.2)⟩

theorem demo_indexed (l c v : String) (hq : str l <+: str (l ++ "." ++ c)) (part : Part MetaIndex.Ty) :
    Indexed MetaIndex.noRegex MetaIndex.types (fun _ v o x => some (scan MetaIndex.noRegex v o x)) MetaIndex.info.skip
      [MetaIndex.stringSlice l c v] part demoQuery := by
  have hpl : ∀ p ∈ demoQuery.preds, Plain p := by
    intro p hp
    simp only [demoQuery, MetaIndex.fieldIs, Expr.preds, Expr.predsAll, List.mem_append, List.mem_singleton, List.not_mem_nil, or_false] at hp
    rcases hp with rfl | rfl <;> exact ⟨⟨_, rfl⟩, (by rintro t i ⟨⟩), (by rintro ⟨⟩)⟩
  have hfield : ∀ p ∈ demoQuery.preds, p.lhs ≠ .metaField := by
    intro p hp
    simp only [demoQuery, MetaIndex.fieldIs, Expr.preds, Expr.predsAll, List.mem_append, List.mem_singleton, List.not_mem_nil, or_false] at hp
    rcases hp with rfl | rfl <;> rintro ⟨⟩
  refine ⟨?_, stringSlice_own l c v, fun p hp => ⟨hpl p hp, fun k _ n h => endsWith_dot h, fun d _ f _ _ => ⟨rfl, scan_complete ..⟩,
    fun h => absurd h (hfield p hp)⟩, ?_, ?_, fun p hp h => absurd h (hfield p hp), ?_⟩
  · intro s hs x hx
    rw [List.mem_singleton] at hs
    subst hs
    simp only [MetaIndex.stringSlice, List.mem_singleton] at hx
    subst hx
    exact hq
  · intro p hp k hk n h
    refine endsWith_undot ?_ h
    simp only [demoQuery, MetaIndex.fieldIs, Expr.preds, Expr.predsAll, List.mem_append, List.mem_singleton, List.not_mem_nil, or_false] at hp
    rcases hp with rfl | rfl <;> simp only [Operand.field.injEq] at hk <;> subst hk <;> decide
  · intro p _ d _ f _ _ ids h i hi
    cases h
    obtain ⟨v, hv, _⟩ := (has_scan ..).1 hi
    exact ⟨v, hv⟩
  · intro s hs row hrow p hp _ d hd i
    rw [List.mem_singleton] at hs
    subst hs
    simp only [MetaIndex.stringSlice, List.mem_singleton] at hrow
    subst hrow
    simp only [demoQuery, MetaIndex.fieldIs, Expr.preds, Expr.predsAll, List.mem_append, List.mem_singleton, List.not_mem_nil, or_false] at hp
    rcases hp with rfl | rfl <;> simp only [Operand.data.injEq] at hd <;> subst hd <;> cases i <;> rfl

theorem demoQuery_query : Query demoQuery where
  normal := by
    refine ⟨by simp [demoQuery, MetaIndex.fieldIs, Expr.noNeg, Expr.noNegAll], by simp [demoQuery, MetaIndex.fieldIs, Expr.noSingle, Expr.noSingleAll], ?_⟩
    intro p hp
    simp only [demoQuery, MetaIndex.fieldIs, Expr.preds, Expr.predsAll, List.mem_append, List.mem_singleton, List.not_mem_nil, or_false] at hp
    rcases hp with rfl | rfl <;> simp [Pred.aligned, Operand.isExtractor]
  noEmpty := by simp [demoQuery, MetaIndex.fieldIs, Expr.noEmpty, Expr.noEmptyAll]
  noNil := by simp [demoQuery, MetaIndex.fieldIs, Expr.noNil, Expr.noNilAll]

/-- The two partitions and the query meet what `C103_answer_partial` asks of them: the first partition is ruled out, and
    the client gets the event of the second. -/
example : Query demoQuery ∧ demoQuery.metaConjunctive ∧ (∀ p ∈ demoQuery.preds, p.noTimestamp) ∧ stringsDistinct demoQuery ∧
    (∀ x ∈ demoParts, (∀ s ∈ x.2, s.layout.columns ≠ []) ∧ ∃ part, build MetaIndex.info.skip x.2 = some part ∧
      Indexed MetaIndex.noRegex MetaIndex.types (fun _ v o x => some (scan MetaIndex.noRegex v o x)) MetaIndex.info.skip x.2 part demoQuery) ∧
    MetaIndex.lookup MetaIndex.noRegex MetaIndex.types (synOps MetaIndex.info)
      (demoParts.map fun x => (x.1, MetaIndex.build MetaIndex.info x.2)) 9 demoQuery = some [2] ∧
    demoParts.flatMap (fun x => matching MetaIndex.noRegex MetaIndex.types demoQuery x.2) =
      [(⟨str "u", [⟨str "u.b", .string⟩]⟩, [.string (str "foo")])] := by
  refine ⟨demoQuery_query, ?_, ?_, ?_, ?_, by decide +kernel, by rfl⟩
  · intro p hp
    simp only [MetaIndex.fieldIs, Expr.preds, Expr.predsAll, List.mem_append, List.mem_singleton, List.not_mem_nil, or_false] at hp
    rcases hp with rfl | rfl <;> rfl
  · intro p hp
    simp only [demoQuery, MetaIndex.fieldIs, Expr.preds, Expr.predsAll, List.mem_append, List.mem_singleton, List.not_mem_nil, or_false] at hp
    rcases hp with rfl | rfl <;> exact ⟨(by rintro ⟨⟩), (by rintro ⟨⟩)⟩
  · simp [demoQuery, stringsDistinct, MetaIndex.stringsDistinctAll, MetaIndex.fieldIs, Expr.predsAll, Expr.preds, MetaIndex.stringLiteral,
      Operand.isMeta]
    decide
  · intro x hx
    simp only [demoParts, List.mem_cons, List.not_mem_nil, or_false] at hx
    rcases hx with rfl | rfl
    · refine ⟨fun s hs => ?_, _, rfl, demo_indexed "t" "a" "x" (by decide) _⟩
      rw [List.mem_singleton] at hs; subst hs; simp [MetaIndex.stringSlice]
    · refine ⟨fun s hs => ?_, _, rfl, demo_indexed "u" "b" "foo" (by decide) _⟩
      rw [List.mem_singleton] at hs; subst hs; simp [MetaIndex.stringSlice]

/-! ### Where it fails -/

/-- A query of two conditions on the kind of event, connected by "or": the catalog and the partition find the event of
    the layout `a`, and the store drops it. -/
theorem C103_disjunction_refuted : ∃ part, build (fun _ => false) two = some part ∧
    (let e : Expr Unit := .disj [.pred ⟨.metaType, .equal, .data (.string (str "a"))⟩, .pred ⟨.field (str "x"), .equal, .data (.count 9)⟩]
     let h := hits e (requests noRegex types (fun _ v o x => some (scan noRegex v o x)) part e)
     h = [false, false, false, true, true] ∧
     (matching noRegex types e two).map (·.2) = [[.count 1], [.count 2]] ∧
     (storeExtract noRegex types e h two).map List.length = some 0) := by
  exact ⟨_, rfl, by decide +kernel, by rfl, by decide +kernel⟩

end Verif.Partition
