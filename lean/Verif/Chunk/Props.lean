import Verif.Chunk.Life
/-!
# C146–C149
-/
namespace Verif.Chunk
open Spec

/-! ## C146: the life of chunks -/

/-- A handle that was not dropped gives access to its bytes, whatever else happened. -/
theorem C146_read (ops : List Op) (s : State) (h : Nat) (c : List Nat) (bs : Bytes) (hs : exec ops = some s)
    (hh : (world ops).handles[h]? = some (c, bs)) (hd : Op.drop h ∉ ops) : s.read h = some bs := by
  have hi := inv_exec hs
  obtain ⟨o, t, x, e1, e2, e3, ⟨e4, r, e5, e6, e7⟩, e8⟩ := kept hi hh hd
  have hx : (s.objs.map Obj.frame)[o]? = some x.frame := by rw [List.getElem?_map, (held_some e2).2]; rfl
  have hm := chain_root e3 o t x.frame e1 hx
  obtain ⟨y, hy, hr⟩ := e8 _ hm
  have hf : Act.free x.root ∉ s.log := fun hf => free_owned hf (not_begun hi hy hr)
  obtain ⟨z, hz, rfl⟩ := frame_get e5
  have hz' : s.objs[x.root]? = some z := hz
  rw [State.read, e2]
  simp only []
  rw [if_neg hf, hz']
  exact congrArg some e7

/-- What is done to delete a chunk is the beginning of what has to be done, so it is done in this order and never twice. -/
theorem C146_order (ops : List Op) (s : State) (o : Nat) (d : List (Option Nat)) (hs : exec ops = some s) (hd : Deletion ops o d) :
    deletions o s.log <+: d := by
  have hi := inv_exec hs
  obtain ⟨x, hx⟩ := deletion_obj hi hd
  rw [deletion_acts hi hx hd, deletions_owned]
  have h := hi.done o x hx
  split at h
  · rw [← h]
    exact ⟨deletions o (owned o s.tasks.flatten), by simp [deletions]⟩
  · rw [(List.append_eq_nil_iff.mp h).1]
    exact List.nil_prefix

/-- It does not begin before all handles that keep the chunk were dropped. -/
theorem C146_not_early (ops : List Op) (s : State) (o h : Nat) (hs : exec ops = some s) (hn : deletions o s.log ≠ [])
    (hk : Keeps ops h o) : Op.drop h ∈ ops := by
  have hi := inv_exec hs
  obtain ⟨c, bs, hh, hm⟩ := hk
  by_cases hd : Op.drop h ∈ ops
  · exact hd
  · obtain ⟨_, _, _, _, _, _, _, e8⟩ := kept hi hh hd
    obtain ⟨y, hy, hr⟩ := e8 o hm
    exact absurd (by rw [deletions_owned, not_begun hi hy hr]; rfl) hn

/-- When they were, and the threads have nothing left to do, then all of it was done: no leak. -/
theorem C146_complete (ops : List Op) (s : State) (o : Nat) (d : List (Option Nat)) (hs : exec ops = some s) (hd : Deletion ops o d)
    (hk : ∀ h, Keeps ops h o → Op.drop h ∈ ops) (hid : Idle s) : deletions o s.log = d := by
  have hi := inv_exec hs
  obtain ⟨x, hx⟩ := deletion_obj hi hd
  have h := hi.done o x hx
  rw [if_pos (idle_dead hi hid _ o x (Nat.le_refl _) hx hk), idle_flatten hid] at h
  rw [deletion_acts hi hx hd, deletions_owned, ← h]
  simp [owned]

/-- Every chunk has something that has to be done. -/
theorem C146_deletion (ops : List Op) (o : Nat) (h : o < (world ops).steps.length) : ∃ d, Deletion ops o d := by
  by_cases hr : Root ops o
  · exact ⟨_, .root _ hr (List.getElem?_eq_getElem h)⟩
  · exact ⟨_, .slice _ hr (List.getElem?_eq_getElem h)⟩

/-- A handle that was not dropped can be used, and a thread that has something to do can do it: there is no undefined behaviour. -/
theorem C146_enabled (ops : List Op) (s : State) (hs : exec ops = some s) :
    (∀ (h : Nat) (c : List Nat) (bs : Bytes), (world ops).handles[h]? = some (c, bs) → Op.drop h ∉ ops →
      (∃ s', step s (.copy h) = some s') ∧ (∃ s', step s (.drop h) = some s') ∧ (∀ k, ∃ s', step s (.addStep h k) = some s') ∧
      ∀ start length, (∃ s', step s (.slice h start length) = some s') ↔ start < bs.length) ∧
    ∀ (i : Nat) (a : Act) (as : List Act), s.tasks[i]? = some (a :: as) → ∃ s', step s (.run i) = some s' := by
  have hi := inv_exec hs
  refine ⟨fun h c bs hh hd => ?_, fun i a as ht => run_enabled hi ht⟩
  obtain ⟨o, t, x, e1, e2, e3, ⟨e4, _⟩, e8⟩ := kept hi hh hd
  have e4' : x.len = bs.length := e4
  refine ⟨⟨_, by simp only [step, e2]; rfl⟩, ⟨_, by simp only [step, e2]; rfl⟩, fun k => ⟨_, by simp only [step, e2]; rfl⟩, fun start length => ?_⟩
  simp only [step, e2, e4']
  split
  · rename_i hl
    exact ⟨fun _ => hl, fun _ => ⟨_, rfl⟩⟩
  · rename_i hl
    exact ⟨fun ⟨_, h⟩ => (by cases h), fun h => absurd h hl⟩

/-- The threads come to an end by themselves. -/
theorem C146_ends (ops : List Op) (s : State) (hs : exec ops = some s) :
    ∃ n, ∀ (is : List Nat) (s' : State), (is.map Op.run).foldlM step s = some s' → is.length ≤ n := by
  refine ⟨left s, fun is s' h => ?_⟩
  have := runs_left is ops s s' (inv_exec hs) h
  omega

/-- Two threads release a chunk, and a slice of a slice of it; steps of both. -/
def c146 : List Op :=
  [.make [1, 2, 3, 4, 5, 6], .slice 0 1 4, .addStep 0 7, .slice 1 2 9, .copy 2, .addStep 2 8, .drop 0, .drop 1, .drop 2, .run 2, .run 0, .run 1]

example : world c146 = ⟨[([0], [1, 2, 3, 4, 5, 6]), ([1, 0], [2, 3, 4, 5]), ([2, 1, 0], [4, 5]), ([2, 1, 0], [4, 5])], [[7], [], [8]]⟩ := rfl

example : (exec c146).bind (fun s => s.read 3) = some [4, 5] := by decide

example : ((exec (c146 ++ [.drop 3, .run 3, .run 3, .run 3, .run 3, .run 3, .run 3])).map fun s => (s.log, s.tasks)) =
    some ([.deref none 2, .deref none 0, .deref none 1, .deref none 2, .deref (some 2) 1, .deref (some 1) 0, .free 0, .step 0 7, .step 2 8], [[], [], [], []]) := by
  decide

/-- The memory of the chunk is freed once, and the step is run after that. -/
example : Deletion c146 0 [none, some 7] := .root [7] ⟨0, [1, 2, 3, 4, 5, 6], by decide⟩ (by decide)

/-! ## C147: sending chunks -/

theorem word_length (n : Nat) : (word n).length = 4 := rfl

theorem deserialize_word (n : Nat) (h : n < 2 ^ 32) (r : Bytes) :
    deserialize (word n ++ r) = if n = 0 then .ok (none, r) else if r.length < n then .ok (none, r) else .ok (some (r.take n), r.drop n) := by
  have e : (n / 2 ^ 24).toUInt8.toNat * 2 ^ 24 + (n / 2 ^ 16).toUInt8.toNat * 2 ^ 16 + (n / 2 ^ 8).toUInt8.toNat * 2 ^ 8 + n.toUInt8.toNat = n := by
    simp only [Nat.toUInt8_eq, UInt8.toNat_ofNat']
    omega
  rw [word]
  simp only [List.cons_append, List.nil_append, deserialize, e]

/-- A chunk that is not empty and has less than 4 GB arrives as it was sent, and the receiver goes on with what follows. -/
theorem C147_roundtrip_partial (bs : Bytes) (h0 : bs ≠ []) (h1 : bs.length < 2 ^ 32) :
    ∃ out, serialize (some bs) = .ok out ∧ ∀ rest, deserialize (out ++ rest) = .ok (some bs, rest) := by
  refine ⟨word bs.length ++ bs, by rw [serialize, if_pos h1], fun rest => ?_⟩
  have : bs.length ≠ 0 := fun h => h0 (List.eq_nil_of_length_eq_zero h)
  rw [List.append_assoc, deserialize_word _ h1, if_neg this, if_neg (by simp), List.take_left, List.drop_left]

/-- No chunk arrives as no chunk. -/
theorem C147_null (out rest : Bytes) (h : serialize none = .ok out) : deserialize (out ++ rest) = .ok (none, rest) := by
  cases h
  rw [deserialize_word 0 (by decide)]; rfl

/-- Two chunks that are not empty are never taken for each other, nor for the absence of a chunk. -/
theorem C147_injective (a b : Bytes) (out : Bytes) (h0 : a ≠ []) (ha : serialize (some a) = .ok out) :
    (serialize (some b) = .ok out → a = b) ∧ serialize none ≠ .ok out := by
  have la : a.length ≠ 0 := fun h => h0 (List.eq_nil_of_length_eq_zero h)
  rw [serialize] at ha
  split at ha
  · rename_i h1
    cases ha
    refine ⟨fun hb => ?_, fun hb => ?_⟩
    · rw [serialize] at hb
      split at hb
      · rename_i h2
        have e : word b.length ++ b = word a.length ++ a := Out.ok.inj hb
        exact (List.append_inj e (by rw [word_length, word_length])).2.symm
      · cases hb
    · rw [serialize] at hb
      have e : word 0 = word a.length ++ a := Out.ok.inj hb
      have := congrArg List.length e
      simp only [List.length_append, word_length] at this
      omega
  · cases ha

/-- Whatever arrives, the chunk and the rest were in the input. -/
theorem C147_sound (inp bs rest : Bytes) (h : deserialize inp = .ok (some bs, rest)) : ∃ pre, pre.length = 4 ∧ inp = pre ++ bs ++ rest ∧ bs ≠ [] := by
  rcases inp with _ | ⟨a, _ | ⟨b, _ | ⟨c, _ | ⟨d, r⟩⟩⟩⟩
  · simp [deserialize] at h
  · simp [deserialize] at h
  · simp [deserialize] at h
  · simp [deserialize] at h
  · rw [deserialize] at h
    generalize a.toNat * 2 ^ 24 + b.toNat * 2 ^ 16 + c.toNat * 2 ^ 8 + d.toNat = size at h
    split at h
    · simp at h
    · rename_i h0
      split at h
      · simp at h
      · rename_i h1
        simp only [Out.ok.injEq, Prod.mk.injEq, Option.some.injEq] at h
        obtain ⟨rfl, rfl⟩ := h
        refine ⟨[a, b, c, d], rfl, by rw [List.append_assoc, List.take_append_drop]; rfl, ?_⟩
        intro hn
        have := congrArg List.length hn
        rw [List.length_take] at this
        simp only [List.length_nil] at this
        omega

/-- An empty chunk arrives as no chunk. -/
theorem C147_empty_refuted : ∃ out, serialize (some []) = .ok out ∧ deserialize out = .ok (none, []) := ⟨[0, 0, 0, 0], by decide, by decide⟩

/-- Bytes that are missing are not an error: every truncated message with a complete length arrives as no chunk. -/
theorem C147_truncated_refuted (bs : Bytes) (h1 : bs.length < 2 ^ 32) (n : Nat) (hn : n < bs.length) :
    ∃ out, serialize (some bs) = .ok out ∧ deserialize (out.take (4 + n)) = .ok (none, bs.take n) := by
  refine ⟨word bs.length ++ bs, by rw [serialize, if_pos h1], ?_⟩
  rw [List.take_append, List.take_of_length_le (by rw [word_length]; omega), word_length, Nat.add_sub_cancel_left, deserialize_word _ h1,
    if_neg (by omega), if_pos (by rw [List.length_take]; omega)]

/-- A chunk of 4 GB or more is not sent at all. -/
theorem C147_large_refuted (bs : Bytes) (h : 2 ^ 32 ≤ bs.length) : serialize (some bs) = .thrown := by
  rw [serialize, if_neg (Nat.not_lt.mpr h)]

example : serialize (some [1, 2, 3]) = .ok [0, 0, 0, 3, 1, 2, 3] := by decide
example (n : Nat) : ∃ bs : Bytes, n ≤ bs.length := ⟨List.replicate n 0, by simp⟩
example : deserialize [0, 0, 0, 3, 1, 2, 3, 9] = .ok (some [1, 2, 3], [9]) := by decide

/-! ## C148: reading files -/

theorem readLoop_whole (content : Bytes) : ∀ (cs : List Call) (got : Bytes), got = content.take got.length →
    (∀ c ∈ cs, c.content = content ∧ c.returns ≠ none) → content.length ≤ got.length + cs.length →
    readLoop content.length got cs = .ok content := by
  intro cs
  induction cs with
  | nil =>
    intro got hg _ hl
    have hl' : content.length ≤ got.length := by simpa using hl
    rw [readLoop.eq_def]
    simp only []
    rw [if_pos hl']
    rw [List.take_of_length_le hl'] at hg
    rw [hg]
  | cons c cs ih =>
    intro got hg hc hl
    rw [readLoop.eq_def]
    simp only []
    split
    · rename_i h
      rw [List.take_of_length_le h] at hg
      rw [hg]
    · rename_i h
      obtain ⟨h1, h2⟩ := hc c (by simp)
      cases hr : c.returns with
      | none => exact absurd hr h2
      | some n =>
        simp only [h1]
        rw [if_neg]
        · refine ih _ ?_ (fun c' h' => hc c' (List.mem_cons_of_mem _ h')) ?_
          · generalize hm : min (min readMax (content.length - got.length)) (n + 1) = m
            have hm' : m ≤ content.length - got.length := by rw [← hm]; omega
            have hlen : ((content.drop got.length).take m).length = m := by simp; omega
            rw [List.length_append, hlen]
            rw [List.take_add, ← hg]
          · simp only [List.length_append, List.length_take, List.length_drop, List.length_cons] at hl ⊢
            have : 0 < readMax := by decide
            omega
        · intro hn
          have := congrArg List.length hn
          simp only [List.length_take, List.length_drop, List.length_nil] at this
          have : 0 < readMax := by decide
          omega

/-- A file that does not change is read completely, however few bytes each call returns. -/
theorem C148_whole (env : Env) (content : Bytes) (hs : env.size = some content.length) (ho : env.opens = true)
    (hc : ∀ c ∈ env.calls, c.content = content ∧ c.returns ≠ none) (hl : content.length ≤ env.calls.length) : readFile env = .ok content := by
  rw [readFile, hs]
  simp only [ho, Bool.not_true, Bool.false_eq_true, if_false]
  rw [readLoop_whole content env.calls [] (by simp) hc (by simpa using hl)]
  simp

theorem readLoop_from (bytes : Nat) (P : Nat → UInt8 → Prop) : ∀ (cs : List Call) (got out : Bytes), (∀ (i : Nat) (b : UInt8), got[i]? = some b → P i b) →
    (∀ c ∈ cs, ∀ (i : Nat) (b : UInt8), c.content[i]? = some b → P i b) → readLoop bytes got cs = .ok out → ∀ (i : Nat) (b : UInt8), out[i]? = some b → P i b := by
  intro cs
  induction cs with
  | nil =>
    intro got out hg _ h
    rw [readLoop.eq_def] at h
    simp only [] at h
    split at h
    · cases h; exact hg
    · cases h
  | cons c cs ih =>
    intro got out hg hc h
    rw [readLoop.eq_def] at h
    simp only [] at h
    split at h
    · cases h; exact hg
    · split at h
      · cases h
      · split at h
        · cases h; exact hg
        · refine ih _ out ?_ (fun c' h' => hc c' (List.mem_cons_of_mem _ h')) h
          intro i b hb
          rw [List.getElem?_append] at hb
          split at hb
          · exact hg i b hb
          · rename_i hlt
            rw [List.getElem?_take] at hb
            split at hb
            · rw [List.getElem?_drop, show got.length + (i - got.length) = i by omega] at hb
              exact hc c (by simp) i b hb
            · cases hb

/-- What is read has the size that was asked for, and every byte was in the file, at its place, when one of the calls was made. -/
theorem C148_sound (env : Env) (out : Bytes) (h : readFile env = .ok out) :
    env.size = some out.length ∧ ∀ (i : Nat) (b : UInt8), out[i]? = some b → ∃ c ∈ env.calls, c.content[i]? = some b := by
  rw [readFile] at h
  split at h
  · cases h
  · rename_i size hsz
    split at h
    · cases h
    · split at h
      · rename_i got hg
        split at h
        · rename_i hl
          cases h
          refine ⟨by rw [hsz, hl], ?_⟩
          exact readLoop_from size (fun i b => ∃ c ∈ env.calls, c.content[i]? = some b) env.calls [] out (fun i b hb => by simp at hb)
            (fun c hc i b hb => ⟨c, hc, hb⟩) hg
        · cases h
      · cases h

/-- A file that does not change gives its content or an error, never a part of it. -/
theorem C148_all_or_nothing (env : Env) (content out : Bytes) (hs : env.size = some content.length)
    (hc : ∀ c ∈ env.calls, c.content = content) (h : readFile env = .ok out) : out = content := by
  obtain ⟨h1, h2⟩ := C148_sound env out h
  rw [hs, Option.some.injEq] at h1
  apply List.ext_getElem?
  intro i
  cases hb : out[i]? with
  | none =>
    rw [List.getElem?_eq_none_iff] at hb
    exact (List.getElem?_eq_none (by omega)).symm
  | some b =>
    obtain ⟨c, hm, hcb⟩ := h2 i b hb
    rw [hc c hm] at hcb
    exact hcb.symm

/-- A file that was shorter at each call than it was said to be is an error. -/
theorem C148_shrunk (env : Env) (size : Nat) (hs : env.size = some size) (hc : ∀ c ∈ env.calls, c.content.length < size) (h0 : size ≠ 0) :
    readFile env = .error := by
  cases h : readFile env with
  | error => rfl
  | thrown =>
    rw [readFile] at h
    split at h
    · cases h
    · split at h
      · cases h
      · split at h
        · split at h <;> cases h
        · cases h
  | ok out =>
    obtain ⟨h1, h2⟩ := C148_sound env out h
    rw [hs, Option.some.injEq] at h1
    obtain ⟨c, hm, hb⟩ := h2 (size - 1) (out[size - 1]'(by omega)) (List.getElem?_eq_getElem (by omega))
    have := (List.getElem?_eq_some_iff.mp hb).1
    have := hc c hm
    omega

/-- A file that can be mapped gives the same bytes that reading it gives, unless it is empty. -/
theorem C148_mmap_partial (env : Env) (content : Bytes) (h0 : content ≠ []) (hs : env.size = some content.length) (ho : env.opens = true) :
    mmap env content true = .ok content := by
  have : content.length ≠ 0 := fun h => h0 (List.eq_nil_of_length_eq_zero h)
  rw [mmap, hs]
  simp [ho, this, h0]

/-- An empty file can be read, but not mapped. -/
theorem C148_empty_refuted : ∃ env : Env, readFile env = .ok [] ∧ mmap env [] true = .error := ⟨⟨some 0, true, []⟩, rfl, rfl⟩

/-- A file that is replaced by another of the same size gives a mixture of both. -/
theorem C148_mixed_refuted : ∃ env : Env, (∀ c ∈ env.calls, c.content = [1, 1] ∨ c.content = [2, 2]) ∧ readFile env = .ok [1, 2] :=
  ⟨⟨some 2, true, [⟨[1, 1], some 0⟩, ⟨[2, 2], some 0⟩]⟩, by simp, by decide⟩

/-- One byte, then two bytes, then more than there are. -/
example : readFile ⟨some 5, true, [⟨[1, 2, 3, 4, 5], some 0⟩, ⟨[1, 2, 3, 4, 5], some 1⟩, ⟨[1, 2, 3, 4, 5], some 9⟩]⟩ = .ok [1, 2, 3, 4, 5] := by decide
example : readFile ⟨some 5, true, [⟨[1, 2, 3, 4, 5], some 0⟩, ⟨[1, 2], some 9⟩, ⟨[1, 2], some 9⟩]⟩ = .error := by decide

/-! ## C149: the statistics of the filesystem -/

theorem stats_sum (rs : List (Option Nat)) (s : Stats) : rs.foldl Stats.update s =
    ⟨s.successful + rs.countP Option.isSome, s.failed + rs.countP Option.isNone, s.bytes + ((rs.filterMap id).map (· + 1)).sum⟩ := by
  induction rs generalizing s with
  | nil => rfl
  | cons r rs ih =>
    rw [List.foldl_cons, ih]
    cases r with
    | none => simp [Stats.update]; omega
    | some n => simp [Stats.update]; omega

/-- Each request is counted once, as successful or as failed. -/
theorem C149_counts (rs : List (Option Nat)) : (stats rs).successful = rs.countP Option.isSome ∧ (stats rs).failed = rs.countP Option.isNone ∧
    (stats rs).successful + (stats rs).failed = rs.length := by
  rw [stats, stats_sum]
  have h : rs.countP Option.isSome + rs.countP Option.isNone = rs.length := by
    induction rs with
    | nil => rfl
    | cons r rs ih => cases r <;> simp <;> omega
  simp only [Nat.zero_add]
  exact ⟨trivial, trivial, h⟩

/-- The number of bytes is too high by the number of successful requests. -/
theorem C149_bytes_partial (rs : List (Option Nat)) : (stats rs).bytes = (rs.filterMap id).sum + rs.countP Option.isSome := by
  rw [stats, stats_sum]
  induction rs with
  | nil => rfl
  | cons r rs ih =>
    cases r with
    | none => simpa using ih
    | some n => simp at ih ⊢; omega

/-- So it is never the number of the bytes that were read, except if no request was successful. -/
theorem C149_bytes_refuted (rs : List (Option Nat)) (n : Nat) (h : some n ∈ rs) : (stats rs).bytes ≠ (rs.filterMap id).sum := by
  rw [C149_bytes_partial]
  have : 0 < rs.countP Option.isSome := List.countP_pos_iff.mpr ⟨_, h, rfl⟩
  omega

example : stats [some 10, none, some 5] = ⟨2, 1, 17⟩ := by decide

end Verif.Chunk
