import Verif.Save.Model

/-!
# C33: saving a file is atomic

`C33_atomic_partial` holds if no temporary file that is longer than the new contents is left over from an earlier crash;
`C33_stale_tmp_refuted` shows that a crash and a later save lead to a target that has neither contents.
-/

namespace Verif.Save

theorem set_same (fs : Fs) (n : Bytes) (c : Option Bytes) : fs.set n c n = c := by simp [Fs.set]

theorem set_other (fs : Fs) {n m : Bytes} (c : Option Bytes) (h : m ≠ n) : fs.set n c m = fs m := by simp [Fs.set, h]

theorem tmp_ne (name : Bytes) : name ++ suffix ≠ name := by
  intro h
  have := congrArg List.length h
  simp [suffix] at this

theorem overwrite_prefix {xs old : Bytes} {total count : Nat} (hc : total + count ≤ xs.length) (ho : old.length ≤ xs.length)
    (h : old.take total = xs.take total) (hlen : total ≤ old.length) :
    (overwrite old total ((xs.drop total).take count)).take (total + count) = xs.take (total + count) ∧
    (overwrite old total ((xs.drop total).take count)).length ≤ xs.length ∧ total + count ≤ (overwrite old total ((xs.drop total).take count)).length := by
  have h1 : ((xs.drop total).take count).length = count := by simp; omega
  have h2 : (old.take total).length = total := by simp; omega
  refine ⟨?_, ?_, ?_⟩
  · rw [overwrite, List.take_append_of_le_length (by simp only [List.length_append, h1, h2]; omega)]
    rw [List.take_of_length_le (by simp only [List.length_append, h1, h2]; omega), h, ← List.take_add]
  · simp only [overwrite, List.length_append, h1, h2, List.length_drop]; omega
  · simp only [overwrite, List.length_append, h1, h2, List.length_drop]; omega

/-- The loop only changes the file, and if it succeeds then the file has the contents. -/
theorem writeLoop_spec (name xs : Bytes) : ∀ (ws : List (Option Nat)) (fs : Fs) (total : Nat),
    (∀ old, fs name = some old → old.length ≤ xs.length ∧ old.take total = xs.take total ∧ total ≤ old.length) →
    total ≤ xs.length → (fs name).isSome →
    (∀ f ∈ (writeLoop name xs fs total ws).1, ∀ m, m ≠ name → f m = fs m) ∧
    ((writeLoop name xs fs total ws).2 = true → lastOr fs (writeLoop name xs fs total ws).1 name = some xs) := by
  intro ws
  induction ws with
  | nil =>
    intro fs total h ht hs
    unfold writeLoop
    split
    · next hle =>
      refine ⟨by simp, fun _ => ?_⟩
      obtain ⟨old, ho⟩ := Option.isSome_iff_exists.1 hs
      obtain ⟨h1, h2, h3⟩ := h old ho
      simp only [lastOr, List.getLast?_nil, Option.getD_none, ho]
      rw [List.take_of_length_le (by omega), List.take_of_length_le (by omega)] at h2
      rw [h2]
    · simp
  | cons w ws ih =>
    intro fs total h ht hs
    obtain ⟨old, ho⟩ := Option.isSome_iff_exists.1 hs
    obtain ⟨h1, h2, h3⟩ := h old ho
    unfold writeLoop
    split
    · next hle =>
      refine ⟨by simp, fun _ => ?_⟩
      simp only [lastOr, List.getLast?_nil, Option.getD_none, ho]
      rw [List.take_of_length_le (by omega), List.take_of_length_le (by omega)] at h2
      rw [h2]
    · next hle =>
      match w with
      | none => simp
      | some 0 => simp
      | some (n + 1) =>
        simp only [ho, Option.getD_some]
        have hm : min (n + 1) (min writeMax (xs.length - total)) ≤ xs.length - total := by omega
        generalize min (n + 1) (min writeMax (xs.length - total)) = count at hm
        obtain ⟨k1, k2, k3⟩ := overwrite_prefix (count := count) (by omega) h1 h2 h3
        obtain ⟨g1, g2⟩ := ih (fs.set name (some (overwrite old total ((xs.drop total).take count)))) (total + count) (by
          intro o' ho'
          rw [set_same] at ho'
          injection ho' with ho'
          subst ho'
          exact ⟨k2, k1, k3⟩) (by omega) (by simp [set_same])
        refine ⟨?_, ?_⟩
        · intro f hf m hm'
          rcases List.mem_cons.1 hf with rfl | hf
          · exact set_other _ _ hm'
          · rw [g1 f hf m hm', set_other _ _ hm']
        · intro hr
          have := g2 hr
          simp only [lastOr] at this ⊢
          rw [List.getLast?_cons]
          simpa using this

/-- `write` only changes the file, and if it succeeds then the file has the contents. -/
theorem write_spec (env : Env) (fs : Fs) (name xs : Bytes) (h : ∀ old, fs name = some old → old.length ≤ xs.length) :
    (∀ f ∈ (write env fs name xs).1, ∀ m, m ≠ name → f m = fs m) ∧
    ((write env fs name xs).2 = true → lastOr fs (write env fs name xs).1 name = some xs) := by
  unfold write
  split
  · have hold : ((fs name).getD []).length ≤ xs.length := by
      cases hn : fs name with
      | none => simp
      | some old => exact h old hn
    obtain ⟨g1, g2⟩ := writeLoop_spec name xs env.writes (openFile fs name) 0 (by
      intro old ho
      rw [openFile, set_same] at ho
      injection ho with ho
      subst ho
      exact ⟨hold, by simp, by omega⟩) (by omega) (by simp [openFile, set_same])
    refine ⟨?_, ?_⟩
    · intro f hf m hm
      rcases List.mem_cons.1 hf with rfl | hf
      · exact set_other _ _ hm
      · rw [g1 f hf m hm, openFile, set_other _ _ hm]
    · intro hr
      have := g2 hr
      simp only [lastOr] at this ⊢
      rw [List.getLast?_cons]
      simpa using this
  · simp

theorem lastOr_other {fs : Fs} {trace : List Fs} {n : Bytes} (h : ∀ f ∈ trace, ∀ m, m ≠ n → f m = fs m) {m : Bytes} (hm : m ≠ n) :
    lastOr fs trace m = fs m := by
  rw [lastOr]
  cases hl : trace.getLast? with
  | none => rfl
  | some f => exact h f (List.mem_of_getLast? hl) m hm

/-- **C33, partial.** Whatever the system calls return, and wherever a crash hits: the target has its old contents or all of the new ones, and no other file but the
temporary one changes. If `save` succeeds then the target has the new contents and the temporary file is gone; if it fails then the
target has the old contents, and the temporary file is gone if it could be removed.

Missing for the full property: a temporary file that an earlier crash left, and that is longer than the new contents (refuted below). -/
theorem C33_atomic_partial (env : Env) (fs : Fs) (name xs : Bytes) (h : ∀ old, fs (name ++ suffix) = some old → old.length ≤ xs.length) :
    (∀ f ∈ (save env fs name xs).1, (f name = fs name ∨ f name = some xs) ∧ ∀ m, m ≠ name → m ≠ name ++ suffix → f m = fs m) ∧
    ((save env fs name xs).2 = true → lastOr fs (save env fs name xs).1 name = some xs ∧ lastOr fs (save env fs name xs).1 (name ++ suffix) = none) ∧
    ((save env fs name xs).2 = false → lastOr fs (save env fs name xs).1 name = fs name ∧
      (env.removes = true → lastOr fs (save env fs name xs).1 (name ++ suffix) = none)) := by
  obtain ⟨g1, g2⟩ := write_spec env fs (name ++ suffix) xs h
  have hne := tmp_ne name
  -- a failed save: perhaps the temporary file is removed
  have hfail : ∀ f ∈ remove env (lastOr fs (write env fs (name ++ suffix) xs).1) (name ++ suffix), ∀ m, m ≠ name ++ suffix → f m = fs m := by
    intro f hf m hm
    unfold remove at hf
    split at hf
    · simp only [List.mem_singleton] at hf
      subst hf
      rw [set_other _ _ hm, lastOr_other g1 hm]
    · simp at hf
  have hfail' : ∀ f ∈ (write env fs (name ++ suffix) xs).1 ++ remove env (lastOr fs (write env fs (name ++ suffix) xs).1) (name ++ suffix), ∀ m, m ≠ name ++ suffix → f m = fs m := by
    intro f hf m hm
    rcases List.mem_append.1 hf with hf | hf
    · exact g1 f hf m hm
    · exact hfail f hf m hm
  have hlast : env.removes = true →
      lastOr fs ((write env fs (name ++ suffix) xs).1 ++ remove env (lastOr fs (write env fs (name ++ suffix) xs).1) (name ++ suffix)) (name ++ suffix) = none := by
    intro hr
    rw [remove, if_pos hr, lastOr, List.getLast?_append]
    simp [set_same]
  simp only [save]
  by_cases hw : (write env fs (name ++ suffix) xs).2 = true
  · simp only [if_pos hw]
    by_cases hr : env.renames = true
    · simp only [if_pos hr]
      refine ⟨?_, ?_, by simp⟩
      · intro f hf
        rcases List.mem_append.1 hf with hf | hf
        · exact ⟨Or.inl (g1 f hf name hne.symm), fun m _ hm => g1 f hf m hm⟩
        · simp only [List.mem_singleton] at hf
          subst hf
          refine ⟨Or.inr ?_, ?_⟩
          · rw [rename, set_other _ _ hne.symm, set_same]; exact g2 hw
          · intro m hm1 hm2
            rw [rename, set_other _ _ hm2, set_other _ _ hm1, lastOr_other g1 hm2]
      · intro _
        simp only [lastOr, List.getLast?_append, List.getLast?_singleton, Option.some_or, Option.getD_some]
        refine ⟨?_, by rw [rename, set_same]⟩
        rw [rename, set_other _ _ hne.symm, set_same]; exact g2 hw
    · simp only [if_neg hr]
      exact ⟨fun f hf => ⟨Or.inl (hfail' f hf name hne.symm), fun m _ hm => hfail' f hf m hm⟩, by simp,
        fun _ => ⟨lastOr_other hfail' hne.symm, hlast⟩⟩
  · simp only [if_neg hw]
    exact ⟨fun f hf => ⟨Or.inl (hfail' f hf name hne.symm), fun m _ hm => hfail' f hf m hm⟩, by simp,
      fun _ => ⟨lastOr_other hfail' hne.symm, hlast⟩⟩

/-- A new file is written in two calls, over a shorter temporary file: the states of the temporary file and the target. -/
example : let fs : Fs := fun n => if n = [1] then some [9, 9] else if n = [1] ++ suffix then some [8] else none
    let r := save ⟨true, [some 2, some 100], true, true⟩ fs [1] [5, 6, 7]
    (∀ old, fs ([1] ++ suffix) = some old → old.length ≤ [5, 6, (7 : UInt8)].length) ∧
    r.1.map (fun f => (f ([1] ++ suffix), f [1])) = [(some [8], some [9, 9]), (some [5, 6], some [9, 9]), (some [5, 6, 7], some [9, 9]), (none, some [5, 6, 7])] ∧
    r.2 = true := by
  refine ⟨?_, by decide +kernel, by decide +kernel⟩
  intro old h
  simp [suffix] at h
  subst h
  decide

/-- The second write fails: the target is untouched and the temporary file is removed. -/
example : let fs : Fs := fun n => if n = [1] then some [9, 9] else none
    let r := save ⟨true, [some 2, none], true, true⟩ fs [1] [5, 6, 7]
    r.1.map (fun f => (f ([1] ++ suffix), f [1])) = [(some [], some [9, 9]), (some [5, 6], some [9, 9]), (none, some [9, 9])] ∧ r.2 = false := by
  decide +kernel

/-- A crash before `rename` leaves the temporary file. Saving shorter contents then succeeds, but as the file is opened without O_TRUNC
(file.cpp:63), the target has the new contents followed by the rest of the old temporary file. -/
theorem C33_stale_tmp_refuted : ∃ (env : Env) (name xs ys : Bytes) (crashed : Fs),
    crashed ∈ (save env (fun _ => none) name xs).1 ∧ (save env crashed name ys).2 = true ∧
    lastOr crashed (save env crashed name ys).1 name = some [4, 2, 3] ∧ some [4, 2, 3] ≠ crashed name ∧ some [4, 2, 3] ≠ some ys := by
  refine ⟨⟨true, [some 10], true, true⟩, [7], [1, 2, 3], [4],
    ((save ⟨true, [some 10], true, true⟩ (fun _ => none) [7] [1, 2, 3]).1.getD 1 (fun _ => none)), ?_, by decide +kernel, by decide +kernel, by decide +kernel, by decide⟩
  rw [List.getD_eq_getElem?_getD, List.getElem?_eq_getElem (by decide +kernel), Option.getD_some]
  exact List.getElem_mem _

end Verif.Save
