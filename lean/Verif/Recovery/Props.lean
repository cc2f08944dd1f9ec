import Verif.Recovery.Books

/-! # C67: the index after a restart -/

namespace Verif.Recovery

open Spec

instance (s : State) (e : Ev) : Decidable (Regular s e) := by
  cases e <;> simp only [Regular] <;> infer_instance

instance decRegularRun (s : State) : (es : List Ev) → Decidable (RegularRun s es)
  | [] => .isTrue trivial
  | e :: es => @instDecidableAnd _ _ _ (decRegularRun (step s e) es)

/-- A partition whose file is written and which the saved state lists stays so, and every start from then on finds it, whatever happens
    (crashes and failing writes included), unless its erasure is requested. -/
theorem C67_kept (es1 es2 : List Ev) (id : Nat) (x : Image) (he : Ev.erase id ∉ es1 ++ es2)
    (hf : id ∈ (run start es1).files) (hi : (run start es1).image = some x) (hx : id ∈ x.ids) :
    id ∈ (run start (es1 ++ es2)).files ∧ id ∈ (run start (es1 ++ es2 ++ [.restart])).persisted := by
  have he1 : Ev.erase id ∉ es1 := fun h => he (List.mem_append_left _ h)
  have he2 : Ev.erase id ∉ es2 := fun h => he (List.mem_append_right _ h)
  have hl := listed_run es2 (fresh_run es1 fresh_start) he2 (kept_run es1 fresh_start he1 (kept_start id)) ⟨hf, x, hi, hx⟩
  have hr : run start (es1 ++ es2) = run (run start es1) es2 := by simp [run]
  have hr2 : run start (es1 ++ es2 ++ [.restart]) = restart (run start (es1 ++ es2)) := by simp [run, step]
  rw [hr2, hr]
  refine ⟨hl.file, ?_⟩
  obtain ⟨y, hy, hid⟩ := hl.image
  simp only [restart, hy, mem_load, List.mem_filter]
  exact ⟨hid, by simpa using hl.file⟩

example : let es := [Ev.slice 0 5 false 1, .slice 0 1 true 2, .write 0 true, .save true]
    1 ∈ (run start es).files ∧ ((run start es).image.map (·.ids)) = some [1] := by decide +kernel

/-- If no write of the saved state failed and none is under way, a crash loses no partition that is written. -/
theorem C67_crash_partial (es : List Ev) (id : Nat) (he : Ev.save false ∉ es) (hr : (run start es).running = true)
    (hs : (run start es).saves = []) (hk : id ∈ (run start es).persisted ∨ id ∈ (run start es).unpersisted)
    (hf : id ∈ (run start es).files) : id ∈ (run start (es ++ [.restart])).persisted := by
  have h1 : Saved start := by intro _ id h; simp [start] at h
  obtain ⟨x, hx, hid⟩ := saved_run es fresh_start disk_start held_start he h1 hr id hk
  have hr2 : run start (es ++ [.restart]) = restart (run start es) := by simp [run, step]
  rw [hr2]
  rw [old, hs] at hx
  cases hi : (run start es).image with
  | none => simp [hi] at hx
  | some y =>
    have : y.ids = x := by simpa [hi] using hx
    subst this
    simp only [restart, hi, mem_load, List.mem_filter]
    exact ⟨hid, by simpa using hf⟩

example : let es := [Ev.slice 0 5 false 1, .slice 0 1 true 2, .save true, .write 0 true]
    Ev.save false ∉ es ∧ (run start es).running = true ∧ (run start es).saves = [] ∧ 1 ∈ (run start es).unpersisted ∧
    1 ∈ (run start es).files := by decide +kernel

/-- Every partition the index knows as written has its file, after every history, provided that partitions are erased only once their
    writing was confirmed to the index. So no query waits for a partition that does not exist. -/
theorem C67_on_disk_partial (es : List Ev) (h : Confirmed start es) (id : Nat) (hid : id ∈ (run start es).persisted) :
    id ∈ (run start es).files :=
  (onDisk_run es fresh_start disk_start held_start h onDisk_start).files id (.inr hid)

/-- The file of a partition whose erasure was acknowledged never comes back, and the index never knows the partition again after a
    start, provided that the removal of files does not fail. -/
theorem C67_erased_partial (es : List Ev) (he : ∀ i, Ev.unlink i false ∉ es) (id : Nat) (hid : id ∈ (run start es).erased) :
    id ∉ (run start es).files ∧ id ∉ (run start (es ++ [.restart])).persisted := by
  have h := gone_run es fresh_start disk_start he (by simp [start]) id hid
  refine ⟨h, ?_⟩
  have hr2 : run start (es ++ [.restart]) = restart (run start es) := by simp [run, step]
  rw [hr2]
  intro hm
  simp only [restart] at hm
  cases hi : (run start es).image with
  | none => simp [hi] at hm
  | some y =>
    simp only [hi, mem_load, List.mem_filter] at hm
    exact h (by simpa using hm.2)

/-- Nor does it know it between, if only confirmed partitions are erased. -/
theorem C67_erased_unknown_partial (es : List Ev) (he : ∀ i, Ev.unlink i false ∉ es) (hc : Confirmed start es) (id : Nat)
    (hid : id ∈ (run start es).erased) : id ∉ (run start es).persisted := fun hm =>
  gone_run es fresh_start disk_start he (by simp [start]) id hid (C67_on_disk_partial es hc id hm)

def eraseOne : List Ev :=
  [.slice 0 5 false 1, .slice 0 1 true 2, .save true, .write 0 true, .ack 0, .erase 1, .metaErased 0, .map 0, .mapped 0, .unlink 0 true]

example : Confirmed start eraseOne ∧ (∀ i, Ev.unlink i false ∉ eraseOne) ∧ (run start eraseOne).erased = [1] := by
  refine ⟨?_, by simp [eraseOne], by decide +kernel⟩
  simp only [eraseOne, Confirmed, reduceCtorEq, false_implies, implies_true, true_and, and_true, Ev.erase.injEq]
  rintro id rfl
  decide +kernel

/-- When all is regular, over any number of shutdowns and starts: the events ingested are those of the partitions the index knows
    and of the partitions erased, each counted once; the index reports for each layout the number of events of the partitions it knows;
    every partition written has its file; and no null pointer is dereferenced. -/
theorem C67_counts_partial (es : List Ev) (h : RegularRun start es) (hr : (run start es).running = true)
    (h1 : (run start es).mapping = []) (h2 : (run start es).mapped = []) (h3 : (run start es).unlinking = []) :
    (known (run start es) ++ (run start es).erased).Nodup ∧
    (∀ l, ingested es l = total (run start es).contents (known (run start es)) l +
      total (run start es).contents (run start es).erased l) ∧
    (∀ l, (run start es).stats l = total (run start es).contents (known (run start es)) l) ∧
    (∀ id ∈ (run start es).persisted, id ∈ (run start es).files) ∧
    (run start es).bad = false := by
  obtain ⟨⟨K, S, v, c⟩, o⟩ := good_run es fresh_start disk_start held_start onDisk_start h good_start
  obtain ⟨rfl, rfl⟩ := v.1 hr
  have hc : counted (run start es) = [] := by simp [counted, h1, h2]
  refine ⟨?_, ?_, ?_, fun id hid => o.files id (.inr hid), c.good⟩
  · have := c.nodup
    rw [hc, h3] at this
    simpa using this
  · intro l
    have := c.cons l
    rw [hc, h3] at this
    simp only [List.append_nil, total_append] at this
    omega
  · intro l
    have := c.books l
    rw [hc] at this
    simpa using this

/-- Two runs, with an erasure in each and a shutdown between them. -/
def twoRuns : List Ev := eraseOne ++ [.slice 3 7 true 4, .exit, .write 0 true, .write 0 true, .save true, .save true, .restart,
  .slice 3 2 false 5, .erase 2, .metaErased 0, .map 0, .mapped 0, .unlink 0 true]

example : RegularRun start twoRuns ∧ (run start twoRuns).running = true ∧ (run start twoRuns).mapping = [] ∧
    (run start twoRuns).mapped = [] ∧ (run start twoRuns).unlinking = [] ∧ known (run start twoRuns) = [5, 4] ∧
    (run start twoRuns).stats 3 = 9 ∧ ingested twoRuns 3 = 9 ∧ ingested twoRuns 0 = 6 ∧ (run start twoRuns).stats 0 = 0 := by
  decide +kernel

/-! ## What does not hold -/

/-- Events of the partition being filled are in no partition after a crash. -/
theorem C67_active_refuted : ∃ es, (∀ e ∈ es, ∀ i, e ≠ Ev.erase i) ∧ ingested es 0 = 5 ∧
    total (run start es).contents (known (run start es)) 0 = 0 ∧ (run start es).running = true :=
  ⟨[.slice 0 5 false 1, .restart], by simp, by decide +kernel, by decide +kernel, by decide +kernel⟩

/-- A partition may be written completely and still not be known after a crash, as the saved state is written independently; that
    it is not known does not change with further starts. -/
theorem C67_orphan_refuted : ∃ es, Ev.save false ∉ es ∧ (∀ i, Ev.erase i ∉ es) ∧ 1 ∈ (run start es).files ∧
    1 ∉ (run start (es ++ [.restart])).persisted ∧ 1 ∉ (run start (es ++ [.restart, .exit, .save true, .restart])).persisted :=
  ⟨[.slice 0 5 false 1, .slice 0 1 true 2, .write 0 true], by decide +kernel, by simp, by decide +kernel, by decide +kernel,
    by decide +kernel⟩

/-- The same if the saved state could not be written, which is only logged, even after the partition's writing was confirmed. -/
theorem C67_failed_save_refuted : ∃ es, (∀ i, Ev.erase i ∉ es) ∧ 1 ∈ (run start es).persisted ∧ 1 ∈ (run start es).files ∧
    (run start es).saves = [] ∧ 1 ∉ (run start (es ++ [.restart])).persisted :=
  ⟨[.slice 0 5 false 1, .slice 0 1 true 2, .write 0 true, .ack 0, .save false], by simp, by decide +kernel, by decide +kernel,
    by decide +kernel, by decide +kernel⟩

/-- After a crash the index reports more events than its partitions have: those of the partition that was being filled, and those of
    partitions erased since the state was saved. -/
theorem C67_counts_refuted :
    (∃ es, (run start es).stats 0 = 6 ∧ total (run start es).contents (known (run start es)) 0 = 5) ∧
    (∃ es, (run start es).erased = [1] ∧ (run start es).stats 0 = 6 ∧ known (run start es) = []) :=
  ⟨⟨[.slice 0 5 false 1, .slice 0 1 true 2, .save true, .write 0 true, .ack 0, .restart], by decide +kernel, by decide +kernel⟩,
   ⟨eraseOne ++ [.restart], by decide +kernel, by decide +kernel, by decide +kernel⟩⟩

/-- If a partition is erased after its file is written but before that is confirmed to the index, the index ends up knowing a
    partition that has no file, and keeps counting its events. -/
theorem C67_unconfirmed_refuted : ∃ es, (run start es).erased = [1] ∧ 1 ∈ (run start es).persisted ∧ 1 ∉ (run start es).files ∧
    (run start es).stats 0 = 6 ∧ (run start es).asked = [] :=
  ⟨[.slice 0 5 false 1, .slice 0 1 true 2, .write 0 true, .erase 1, .metaErased 0, .map 0, .mapped 0, .unlink 0 true, .ack 0],
    by decide +kernel, by decide +kernel, by decide +kernel, by decide +kernel, by decide +kernel⟩

/-- Two requests to erase the same partition make the index dereference a null pointer. -/
theorem C67_twice_refuted : ∃ es, Confirmed start es ∧ (run start es).bad = true := by
  refine ⟨[.slice 0 5 false 1, .slice 0 1 true 2, .write 0 true, .ack 0, .erase 1, .erase 1, .metaErased 0, .metaErased 0, .map 0,
    .mapped 0, .unlink 0 true, .map 0, .mapped 0], ?_, by decide +kernel⟩
  simp only [Confirmed, reduceCtorEq, false_implies, implies_true, true_and, and_true, Ev.erase.injEq]
  exact ⟨by rintro id rfl; decide +kernel, by rintro id rfl; decide +kernel⟩

/-- If the file cannot be removed the erasure is acknowledged nevertheless, and the partition is back after a start. -/
theorem C67_unlink_refuted : ∃ es, (run start es).erased = [1] ∧ 1 ∈ (run start es).persisted :=
  ⟨[.slice 0 5 false 1, .slice 0 1 true 2, .save true, .write 0 true, .ack 0, .erase 1, .metaErased 0, .map 0, .mapped 0,
    .unlink 0 false, .restart], by decide +kernel, by decide +kernel⟩

end Verif.Recovery
