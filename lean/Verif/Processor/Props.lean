import Verif.Processor.Lemmas
import Verif.Partition.IndexProps

/-! # C105: Counting the events that satisfy a query -/

namespace Verif.Processor
open Verif.Processor.Spec Verif.Data Verif.Expr Verif.Evaluator Verif.Partition Verif.Partition.Spec
open Verif.Evaluator.Spec (Has)
open Verif.MetaIndex (find TypeInfo WellTyped Supported stringsDistinct synOps)

variable {τ : Type} [DecidableEq τ]

/-! ### The counter and the index -/

/-- C105: in every execution, whatever the order of the candidates and of the counts, the counter meets no failing assertion
    and can go on until it is finished, the number of messages it handles is bounded, and when it is finished the result is
    the sum of the counts of all partitions that could be loaded, and no message is left over. Partial: the index has to
    hand out at least one partition at a time, and partitions that cannot be loaded are left out without notice. -/
theorem C105_total_partial (taste : Nat) (htaste : taste ≠ 0) (candidates : List Candidate) (k : Nat) (s : System)
    (h : Steps taste candidates k initial s) :
    k ≤ 3 + ((candidates.filterMap id).flatten).length + candidates.length ∧
    (s.finished = false → ∃ s', Step taste candidates s s') ∧
    (s.finished = true → s.result = total candidates ∧ s.mail = []) := by
  obtain ⟨m, hi, hk⟩ := inv_steps htaste h rfl
  refine ⟨by unfold numCounts at hk; omega, fun hf => ?_, fun hf => ?_⟩
  · rcases inv_progress htaste hi with h' | h'
    · rw [h'] at hf; cases hf
    · exact h'
  · cases hi with
    | start => cases hf
    | asked _ _ _ _ _ hf' => rw [hf'] at hf; cases hf
    | working _ _ _ _ _ _ _ _ hf' => rw [hf'] at hf; cases hf
    | finished _ hm _ hr => exact ⟨hr, hm⟩

/-- An execution from every state on: as long as it is not finished, it can be continued to the end. -/
theorem finish {taste : Nat} (htaste : taste ≠ 0) {candidates : List Candidate} : ∀ (m : Nat) (k : Nat) (s : System),
    Inv taste candidates s m → Steps taste candidates k initial s → ∃ k' s', Steps taste candidates k' initial s' ∧ s'.finished = true := by
  intro m
  induction m using Nat.strongRecOn with
  | ind m ih =>
    intro k s hi hs
    rcases inv_progress htaste hi with hf | ⟨s', hstep⟩
    · exact ⟨k, s, hs, hf⟩
    · obtain ⟨m', hi', hlt⟩ := inv_step htaste hi hstep
      exact ih m' hlt (k + 1) s' hi' (.step hs hstep)

/-- C105: counting comes to its end. -/
theorem C105_ends_partial (taste : Nat) (htaste : taste ≠ 0) (candidates : List Candidate) :
    ∃ k s, Steps taste candidates k initial s ∧ s.finished = true ∧ s.result = total candidates := by
  obtain ⟨k, s, h, hf⟩ := finish htaste _ 0 initial .start (.refl _)
  exact ⟨k, s, h, hf, ((C105_total_partial taste htaste candidates k s h).2.2 hf).1⟩

/-- Three partitions, one of which is gone, two at a time: 12 events. -/
example : ∃ k s, Steps 2 [some [3, 4], none, some [5]] k initial s ∧ s.finished = true ∧ s.result = 12 :=
  C105_ends_partial 2 (by decide) [some [3, 4], none, some [5]]

/-- The events of a partition that cannot be loaded are missing from the result, and nothing says so. -/
theorem C105_lost_refuted : ∃ k s, Steps 1 [none] k initial s ∧ s.finished = true ∧ s.result = 0 :=
  C105_ends_partial 1 (by decide) [none]

/-- With `vast.max-taste-partitions` set to zero, which no one checks, counting never ends as soon as there is a candidate:
    the index takes the request for zero partitions for the end of the query. -/
theorem C105_taste_refuted (candidates : List Candidate) (hc : candidates ≠ []) (k : Nat) (s : System)
    (h : Steps 0 candidates k initial s) : s.finished = false ∧ k ≤ 2 := by
  have key : ∀ k s₀ s, Steps 0 candidates k s₀ s → s₀ = initial → s.finished = false ∧
      ((k = 0 ∧ s = initial) ∨ (k = 1 ∧ s.processor = { phase := .awaitId } ∧ s.mail = [.reply candidates.length 0]) ∨ (k = 2 ∧ s.mail = [])) := by
    intro k s₀ s h h0
    induction h with
    | refl => exact ⟨by rw [h0]; rfl, .inl ⟨rfl, h0⟩⟩
    | step _ hstep ih =>
      obtain ⟨hf, ih⟩ := ih h0
      obtain ⟨msg, rest, p, outs, hm, hp, hs⟩ := hstep
      rcases ih with ⟨rfl, rfl⟩ | ⟨rfl, h1, h2⟩ | ⟨rfl, h1⟩
      · simp only [initial, List.cons.injEq] at hm
        obtain ⟨rfl, rfl⟩ := hm
        simp only [counter, initial, Bool.false_eq_true, if_false, Option.some.injEq, Prod.mk.injEq] at hp
        obtain ⟨rfl, rfl⟩ := hp
        cases hs with
        | none h => exact absurd h hc
        | query msgs pending _ hserve =>
          have : msgs = [] := by
            rw [Nat.min_zero] at hserve
            cases hserve with
            | drop => rfl
            | batch _ _ _ _ h => exact absurd rfl h
          subst this
          exact ⟨rfl, .inr (.inl ⟨rfl, rfl, by simp⟩)⟩
      · rw [h2] at hm
        cases hm
        rw [h1] at hp
        simp only [counter, Bool.false_eq_true, if_false, Nat.zero_le, if_true, Option.some.injEq, Prod.mk.injEq] at hp
        obtain ⟨rfl, rfl⟩ := hp
        cases hs
        exact ⟨hf, .inr (.inr ⟨rfl, rfl⟩)⟩
      · rw [h1] at hm; cases hm
  obtain ⟨h1, h2⟩ := key k _ s h rfl
  refine ⟨h1, ?_⟩
  rcases h2 with ⟨rfl, _⟩ | ⟨rfl, _⟩ | ⟨rfl, _⟩ <;> omega

/-! ### What the partitions send -/

/-- local_segment_store.cpp:41-51, 58, archive.cpp:180-200: the count that the store sends for a slice. `none` is an error. -/
def countSlice (R : Regex) (T : TypeSys τ) (e : Expr τ) (h : Ids) (s : Slice τ) : Option Nat :=
  if e.isNone then some (countMatching R s .none (some (hint h)))
  else (tailor T s.layout e).map fun c => countMatching R s (pruneMeta c) (some (hint h))

/-- local_segment_store.cpp:36-61 with segment.cpp:100-120: the counts of the slices with an event among the hits. -/
def storeCount (R : Regex) (T : TypeSys τ) (e : Expr τ) (h : Ids) : List (Slice τ) → Option (List Nat)
  | [] => some []
  | s :: rest =>
    if s.events.any fun ev => hint h ev.1 then
      (countSlice R T e h s).bind fun n => (storeCount R T e h rest).map fun more => n :: more
    else storeCount R T e h rest

/-- partition.cpp:876-900: what the partition sends for an exact count. It sends nothing if there is an error. -/
def exactCounts (R : Regex) (T : TypeSys τ) (e : Expr τ) (parts : List (Nat × List (Slice τ)))
    (replies : Nat → List (Position × Option Ids)) (id : Nat) : Candidate :=
  (find id parts).map fun slices => (storeCount R T e (hits e (replies id)) slices).getD []

/-- partition.cpp:893-897: the estimate of a partition is the number of hits. -/
def estimate (h : Ids) : Nat := h.count true

theorem countSlice_extract (R : Regex) (T : TypeSys τ) (e : Expr τ) (h : Ids) (s : Slice τ) :
    countSlice R T e h s = (extract R T e (some (hint h)) s).map List.length := by
  unfold countSlice extract
  split
  · simp [countMatching, filter]
  · cases tailor T s.layout e with
    | none => rfl
    | some c => simp [countMatching, filter]

theorem storeCount_extract (R : Regex) (T : TypeSys τ) (e : Expr τ) (h : Ids) : ∀ (slices : List (Slice τ)) (out : List (Layout τ × Row)),
    storeExtract R T e h slices = some out → ∃ ns, storeCount R T e h slices = some ns ∧ ns.sum = out.length
  | [], out, hs => by cases hs; exact ⟨[], rfl, rfl⟩
  | s :: rest, out, hs => by
    rw [storeExtract] at hs
    rw [storeCount]
    split at hs
    · rename_i hany
      rw [if_pos hany, countSlice_extract]
      cases hx : extract R T e (some (hint h)) s with
      | none => rw [hx] at hs; cases hs
      | some rows =>
        rw [hx, Option.bind_some, Option.map_eq_some_iff] at hs
        obtain ⟨more, h1, rfl⟩ := hs
        obtain ⟨ns, h2, h3⟩ := storeCount_extract R T e h rest more h1
        exact ⟨rows.length :: ns, by simp [h2], by simp [h3]⟩
    · rename_i hany
      rw [if_neg hany]
      exact storeCount_extract R T e h rest out hs

theorem ask_total (R : Regex) (T : TypeSys τ) (e : Expr τ) (parts : List (Nat × List (Slice τ)))
    (replies : Nat → List (Position × Option Ids)) : ∀ (schedule : List Nat) (out : List (Layout τ × Row)),
    ask R T e parts replies schedule = some out → total (schedule.map (exactCounts R T e parts replies)) = out.length
  | [], out, h => by cases h; rfl
  | id :: schedule, out, h => by
    rw [ask, Option.bind_eq_some_iff] at h
    obtain ⟨slices, h1, h⟩ := h
    rw [Option.bind_eq_some_iff] at h
    obtain ⟨rows, h2, h⟩ := h
    rw [Option.map_eq_some_iff] at h
    obtain ⟨more, h3, rfl⟩ := h
    obtain ⟨ns, h4, h5⟩ := storeCount_extract R T e _ slices rows h2
    have : exactCounts R T e parts replies id = some ns := by simp [exactCounts, h1, h4]
    rw [List.map_cons, this, total_cons_some, ask_total R T e parts replies schedule more h3, h5, List.length_append]

/-- C105, from the catalog to the client: the number that counting ends with is the number of stored events that satisfy the
    query. Partial: as in `C103_answer_partial`, and the index has to hand out at least one partition at a time. -/
theorem C105_events_partial (R : Regex) (T : TypeSys τ) (I : TypeInfo τ) (hI : I.Valid)
    (answer : τ → List (Nat × Data) → RelOp → Data → Option Ids) (parts : List (Nat × List (Slice τ)))
    (hsorted : SetOps.SortedSet (parts.map (·.1))) (e : Expr τ) (hq : Query e) (hm : e.metaConjunctive)
    (hts : ∀ p ∈ e.preds, p.noTimestamp) (hdist : stringsDistinct e) (hplain : ∀ p ∈ e.preds, MetaIndex.Pred.plain T p)
    (hsup : ∀ p ∈ e.preds, ∀ d, p.rhs = .data d → Supported p.op d ∧ Data.evaluate R .none p.op d = false)
    (replies : Nat → List (Position × Option Ids))
    (hparts : ∀ x ∈ parts, (∀ s ∈ x.2, WellTyped I s ∧ s.layout.columns ≠ []) ∧ ∃ part, build I.skip x.2 = some part ∧
      Indexed R T answer I.skip x.2 part e ∧ (replies x.1).Perm (requests R T answer part e))
    (fuel : Nat) (candidates : List Nat)
    (hlookup : MetaIndex.lookup R T (synOps I) (parts.map fun x => (x.1, MetaIndex.build I x.2)) fuel e = some candidates)
    (schedule : List Nat) (honce : schedule.Nodup) (hthere : ∀ id ∈ schedule, id ∈ parts.map (·.1))
    (hall : ∀ id ∈ candidates, id ∈ schedule) (taste : Nat) (htaste : taste ≠ 0) (k : Nat) (s : System)
    (hrun : Steps taste (schedule.map (exactCounts R T e parts replies)) k initial s) (hfin : s.finished = true) :
    s.result = (parts.flatMap fun x => matching R T e x.2).length := by
  obtain ⟨out, h1, h2⟩ := C103_answer_partial R T I hI answer parts hsorted e hq hm hts hdist hplain hsup replies hparts fuel
    candidates hlookup schedule honce hthere hall
  rw [((C105_total_partial taste htaste _ k s hrun).2.2 hfin).1, ask_total R T e parts replies schedule out h1, h2.length_eq]

/-- The example of C103: one partition is a candidate, and the count is 1. -/
example : exactCounts MetaIndex.noRegex MetaIndex.types demoQuery demoParts
    (fun id => if id = 2 then (requests MetaIndex.noRegex MetaIndex.types (fun _ v o x => some (scan MetaIndex.noRegex v o x))
      ((build MetaIndex.info.skip [MetaIndex.stringSlice "u" "b" "foo"]).getD Part.empty) demoQuery) else []) 2 = some [1] ∧
    (demoParts.flatMap fun x => matching MetaIndex.noRegex MetaIndex.types demoQuery x.2).length = 1 := by
  constructor <;> decide +kernel

/-! ### Estimates -/

theorem length_le_count (h : Ids) (ids : List Nat) (hn : ids.Nodup) (hh : ∀ i ∈ ids, Has h i) : ids.length ≤ h.count true := by
  have h1 : h.count true = ((List.range h.length).filter fun i => h[i]? == some true).length := by
    rw [← List.countP_eq_length_filter]
    have : h = (List.range h.length).map fun i => h.getD i false := by
      apply List.ext_getElem (by simp)
      intro i h1 h2
      simp [h1]
    conv => lhs; rw [this, List.count, List.countP_map]
    apply List.countP_congr
    intro i hi
    rw [List.mem_range] at hi
    simp [hi]
  rw [h1]
  apply (List.subperm_of_subset hn _).length_le
  intro i hi
  have := hh i hi
  rw [List.mem_filter, List.mem_range]
  simp only [Has] at this
  exact ⟨(List.getElem?_eq_some_iff.1 this).1, by simp [this]⟩

/-- The IDs of the events that satisfy the query. -/
theorem matching_ids (R : Regex) (T : TypeSys τ) (e : Expr τ) : ∀ (slices : List (Slice τ)),
    (matching R T e slices).length = (slices.flatMap fun s => (s.events.filter fun ev => sat R T s.layout ev.2 e).map (·.1)).length
  | [] => rfl
  | s :: rest => by
    have h1 : matching R T e (s :: rest) =
        (s.rows.filter fun row => sat R T s.layout row e).map (s.layout, ·) ++ matching R T e rest := rfl
    rw [h1, List.length_append, matching_ids R T e rest, List.flatMap_cons, List.length_append, ← map_filter_events]
    simp

/-- C105: the estimate of a partition is never below the number of its events that satisfy the query. Partial: see `Suited`. -/
theorem C105_estimate_partial (R : Regex) (T : TypeSys τ) (kind : τ → Kind) (skip : τ → Bool) (slices : List (Slice τ))
    (part : Part τ) (hb : build skip slices = some part) (e : Expr τ) (hq : Query e) (hs : Suited R T kind skip slices e)
    (hids : (slices.flatMap fun s => s.events.map (·.1)).Nodup)
    (order : List (Position × Option Ids)) (horder : order.Perm (requests R T (fun t => indexAnswer (kind t)) part e)) :
    (matching R T e slices).length ≤ estimate (hits e order) := by
  rw [matching_ids]
  refine length_le_count _ _ (hids.sublist ?_) ?_
  · clear hids hs hb
    induction slices with
    | nil => exact List.Sublist.refl _
    | cons s rest ih => exact (List.filter_sublist.map _).append ih
  · intro i hi
    obtain ⟨s, hs1, hi⟩ := List.mem_flatMap.1 hi
    obtain ⟨⟨j, row⟩, hev, rfl⟩ := List.mem_map.1 hi
    rw [List.mem_filter] at hev
    exact C102_indexes_found_partial R T kind skip slices part hb e hq hs order horder s hs1 j row hev.1 hev.2

/-- Estimates can be too high: `ts < 1.5s` is true of one of the two connections, and the estimate is 2. -/
theorem C105_estimate_refuted : ∃ part, build (fun _ => false) conns = some part ∧
    (let e : Expr Kind := .pred ⟨.field (str "ts"), .less, .data (.time 1500000000)⟩
     estimate (hits e (requests Partition.noRegex kinds indexAnswer part e)) = 2 ∧ (matching Partition.noRegex kinds e conns).length = 1) :=
  ⟨_, rfl, by decide +kernel, by decide +kernel⟩

/-- The connections have IDs of their own (the other hypotheses are shown for C102). -/
example : (conns.flatMap fun s => s.events.map (·.1)).Nodup := by decide +kernel

end Verif.Processor
