import Verif.NodeStart.PidLemmas
/-!
# C116: there is one node per directory
-/
namespace Verif.NodeStart
open Spec (Runs Acquiring Apart SameDigits)

/-- **C116.** However many processes start and end, whenever they crash and whichever system calls fail, there is never more than one
node for the directory.  What is missing: starts that overlap, see `C116_race_refuted`, and numbers of processes with different
numbers of digits, see `C116_stale_refuted`. -/
theorem C116_one_partial (k : Nat) (as : List Action) (hd : SameDigits k as) (ha : Apart World.empty as) (p q : Nat)
    (hp : Runs (run World.empty as) p) (hq : Runs (run World.empty as) q) : p = q := by
  have h := run_inv as _ (Inv.empty k) ha hd
  obtain ⟨i, hi, hc⟩ := h.owner p hp
  obtain ⟨j, hj, hd⟩ := h.owner q hq
  rw [hi] at hj
  cases hj
  rw [hc] at hd
  exact digits_inj (h.range p (by rw [show (run World.empty as).procs p = _ from hp]; simp))
    (h.range q (by rw [show (run World.empty as).procs q = _ from hq]; simp)) hd

/-- **C116.** While a node runs, no other process gets past its look at the file. -/
theorem C116_refused_partial (k : Nat) (as : List Action) (hd : SameDigits k as) (ha : Apart World.empty as) (p q : Nat)
    (hp : Runs (run World.empty as) p) (hq : (run World.empty as).procs q = some .starting) :
    (step (run World.empty as) (.check q)).procs q = some .done := by
  have h := run_inv as _ (Inv.empty k) ha hd
  obtain ⟨i, hi, hc⟩ := h.owner p hp
  have hr := h.range p (by rw [show (run World.empty as).procs p = _ from hp]; simp)
  have hne : p ≠ q := by intro e; subst e; rw [show (run World.empty as).procs p = _ from hp] at hq; cases hq
  simp only [step, hq, World.check, hi, hc, readPid_digits hr, if_neg hne]
  rw [if_neg (by rw [show (run World.empty as).procs p = _ from hp]; simp)]
  simp

/-- The calls of one process, without a failure. -/
def acquire (p : Nat) : List Action := [.check p, .openFile p, .lockFile p, .write p]

/-- **C116.** If nobody is acquiring the file, and there is none, or it has the number of a process that is gone, a process that
starts a node succeeds.  What is missing: a file that is empty, see `C116_empty_refuted`, and a number that another process has now,
see `C116_reused_refuted`. -/
theorem C116_start_partial (as : List Action) (p : Nat) (hp : (run World.empty as).procs p = some .starting)
    (hno : ∀ q, ¬ Acquiring (run World.empty as) q)
    (hfile : ∀ i, (run World.empty as).link = some i →
      ∃ q, readPid ((run World.empty as).content i) = some q ∧ q ≠ p ∧ (run World.empty as).procs q = none) :
    Runs (run World.empty (as ++ acquire p)) p := by
  have hlock : LockInv (run World.empty as) := run_lock as _ (by intro i q h; simp [World.empty] at h)
  have hfree : ∀ i, (run World.empty as).lock i = none := by
    intro i
    cases hl : (run World.empty as).lock i with
    | none => rfl
    | some q => exact absurd (.inr (.inr ⟨i, hlock i q hl⟩)) (hno q)
  have e : run World.empty (as ++ acquire p) = run (run World.empty as) (acquire p) := by rw [run, List.foldl_append]; rfl
  rw [e]
  generalize run World.empty as = w at *
  have h1 : step w (.check p) = w.set p (some .checked) := by
    simp only [step, hp, World.check]
    cases hl : w.link with
    | none => rfl
    | some i =>
      obtain ⟨q, h1, h2, h3⟩ := hfile i hl
      simp only [h1, if_neg h2, if_pos h3]
  show Runs (step (step (step (step w (.check p)) (.openFile p)) (.lockFile p)) (.write p)) p
  rw [h1]
  have h2 : ∃ i w', step (w.set p (some .checked)) (.openFile p) = w' ∧ w'.procs p = some (.opened i) ∧ ∀ j, w'.lock j = none := by
    simp only [step, set_procs, if_true, World.openFile, set_link]
    cases hl : w.link with
    | none => exact ⟨w.next, _, rfl, by simp; rfl, hfree⟩
    | some i => exact ⟨i, _, rfl, by simp, hfree⟩
  obtain ⟨i, w2, e2, hp2, hl2⟩ := h2
  rw [e2]
  have h3 : ∃ w', step w2 (.lockFile p) = w' ∧ w'.procs p = some (.locked i) := by
    simp only [step, hp2, World.lockFile, hl2 i]
    exact ⟨_, rfl, by simp⟩
  obtain ⟨w3, e3, hp3⟩ := h3
  rw [e3]
  simp only [step, hp3, World.write, Runs, set_procs, if_true]

/-! ## Examples -/

/-- A node is refused while another one runs, one crashes, and the next one starts. -/
def exActions : List Action :=
  [.spawn 11 true] ++ acquire 11 ++ [.spawn 12 true, .check 12, .exit 12, .exit 11, .spawn 13 true] ++ acquire 13

private theorem procs_none (w : World) (a : Action) (q : Nat) (hq : w.procs q = none) (ha : ∀ v, a ≠ .spawn q v) :
    (step w a).procs q = none := by
  have key : ∀ (p : Nat) (ph : Phase) (x : Option Phase), w.procs p = some ph → (if q = p then x else w.procs q) = none := by
    intro p ph x h
    rw [if_neg, hq]
    intro e; rw [← e, hq] at h; cases h
  cases a with
  | spawn p v =>
    rw [step]
    split
    · rw [set_procs, if_neg (by intro e; exact ha v (by rw [e]))]; exact hq
    · exact hq
  | exit p => rw [step, set_procs]; split <;> [rfl; exact hq]
  | check p =>
    rw [step]
    split
    · rename_i h
      rw [World.check]
      split
      · exact key p _ _ h
      · split
        · exact key p _ _ h
        · split
          · exact key p _ _ h
          · split <;> exact key p _ _ h
    · exact hq
  | openFile p =>
    rw [step]
    split
    · rename_i h
      rw [World.openFile]
      split <;> exact key p _ _ h
    · exact hq
  | lockFile p =>
    rw [step]
    split
    · rename_i h
      rw [World.lockFile]
      split <;> exact key p _ _ h
    · exact hq
  | write p =>
    rw [step]
    split
    · rename_i h; exact key p _ _ h
    · exact hq
  | fail p =>
    rw [step]
    split
    · rename_i h; exact key p _ _ h
    · rename_i h; exact key p _ _ h
    · rename_i h; exact key p _ _ h
    · exact hq
  | stop p =>
    rw [step]
    split
    · rename_i h; exact key p _ _ h
    · exact hq

/-- `Acquiring`, as a function. -/
def acquiring (w : World) (q : Nat) : Bool :=
  match w.procs q with
  | some .checked => true
  | some (.opened _) => true
  | some (.locked _) => true
  | _ => false

/-- Nobody is acquiring the file at a look at it. -/
def allowed (pids : List Nat) (w : World) : Action → Bool
  | .check _ => pids.all fun q => !acquiring w q
  | .spawn q _ => pids.contains q
  | _ => true

/-- `Apart`, as a function, if all processes are known. -/
def apart (pids : List Nat) : World → List Action → Bool
  | _, [] => true
  | w, a :: as => allowed pids w a && apart pids (step w a) as

private theorem apart_of (pids : List Nat) : ∀ (as : List Action) (w : World), (∀ q, q ∉ pids → w.procs q = none) →
    apart pids w as = true → Apart w as
  | [], _, _, _ => trivial
  | a :: as, w, hw, h => by
    rw [apart, Bool.and_eq_true] at h
    refine ⟨?_, apart_of pids as _ (fun q hq => procs_none w a q (hw q hq) ?_) h.2⟩
    · rintro p rfl q hq
      have h1 := h.1
      simp only [allowed, List.all_eq_true] at h1
      by_cases hm : q ∈ pids
      · have := h1 q hm
        rcases hq with hq | ⟨i, hq⟩ | ⟨i, hq⟩ <;> simp [acquiring, hq] at this
      · rcases hq with hq | ⟨i, hq⟩ | ⟨i, hq⟩ <;> rw [hw q hm] at hq <;> cases hq
    · rintro v rfl
      have h1 := h.1
      simp [allowed] at h1
      exact hq h1

example : SameDigits 1 exActions := by
  intro p v h
  simp [exActions, acquire] at h
  rcases h with ⟨rfl, _⟩ | ⟨rfl, _⟩ | ⟨rfl, _⟩ <;> decide

example : Apart World.empty exActions := apart_of [11, 12, 13] _ _ (fun _ _ => rfl) (by decide +kernel)

example : Runs (run World.empty exActions) 13 ∧ (run World.empty exActions).procs 11 = none := by
  unfold Runs; decide +kernel

/-! ## What is missing -/

/-- **C116, what is missing.** The file is not truncated when it is opened (pid_file.cpp:57).  Node 12345 crashes, and node 99 writes
its number over the first two digits: the file has the number 99345.  There is no such process, so that node 100 starts while node 99
is still running.  The starts do not overlap. -/
theorem C116_stale_refuted :
    let as : List Action := [.spawn 12345 true] ++ acquire 12345 ++ [.exit 12345, .spawn 99 true] ++ acquire 99 ++ [.spawn 100 true]
      ++ acquire 100
    Apart World.empty as ∧ Runs (run World.empty as) 99 ∧ Runs (run World.empty as) 100 := by
  refine ⟨apart_of [12345, 99, 100] _ _ (fun _ _ => rfl) (by decide +kernel), ?_, ?_⟩ <;> unfold Runs <;> decide +kernel

/-- **C116, what is missing.** The lock is taken after the look at the file, and given back before the node runs, so it does not
prevent two processes that start at the same time from both going on. -/
theorem C116_race_refuted :
    let as : List Action := [.spawn 11 true, .spawn 12 true, .check 11, .check 12, .openFile 11, .openFile 12, .lockFile 11, .write 11,
      .lockFile 12, .write 12]
    SameDigits 1 as ∧ Runs (run World.empty as) 11 ∧ Runs (run World.empty as) 12 := by
  refine ⟨?_, ?_, ?_⟩
  · intro p v h
    simp at h
    rcases h with ⟨rfl, _⟩ | ⟨rfl, _⟩ <;> decide
  · unfold Runs; decide +kernel
  · unfold Runs; decide +kernel

/-- **C116, what is missing.** After a crash between opening and writing the file is empty, and then no process can start a node, no
matter how often one tries. -/
theorem C116_empty_refuted (ps : List Nat) :
    let w := run World.empty [.spawn 11 true, .check 11, .openFile 11, .exit 11]
    ∀ p, ¬ Runs (run w (ps.flatMap fun p => .spawn p true :: acquire p ++ [.exit p])) p := by
  intro w
  have key : ∀ (ps : List Nat) (w : World) (i : Nat), w.link = some i → w.content i = [] → (∀ p, w.procs p = none) →
      ∀ p, (run w (ps.flatMap fun p => .spawn p true :: acquire p ++ [.exit p])).procs p = none := by
    intro ps
    induction ps with
    | nil => intro w i _ _ h p; exact h p
    | cons q ps ih =>
      intro w i h1 h2 h3 p
      have hc : ∃ w', run w (.spawn q true :: acquire q ++ [.exit q]) = w' ∧ w'.link = some i ∧ w'.content i = [] ∧ ∀ p, w'.procs p = none := by
        refine ⟨_, rfl, ?_⟩
        have e1 : step w (.spawn q true) = w.set q (some .starting) := by simp [step, h3 q]
        have e2 : step (w.set q (some .starting)) (.check q) = (w.set q (some .starting)).set q (some .done) := by
          simp [step, World.check, h1, h2, readPid]
        have e3 : ∀ (a : Action), a ∈ [Action.openFile q, .lockFile q, .write q] →
            step ((w.set q (some .starting)).set q (some .done)) a = (w.set q (some .starting)).set q (some .done) := by
          intro a ha
          simp at ha
          rcases ha with rfl | rfl | rfl <;> simp [step]
        have : run w (.spawn q true :: acquire q ++ [.exit q]) =
            ((((w.set q (some .starting)).set q (some .done)).unlock q).set q none) := by
          show step (step (step (step (step (step w (.spawn q true)) (.check q)) (.openFile q)) (.lockFile q)) (.write q)) (.exit q) = _
          rw [e1, e2, e3 _ (by simp), e3 _ (by simp), e3 _ (by simp)]
          rfl
        rw [this]
        refine ⟨h1, h2, fun p => ?_⟩
        simp only [set_procs, unlock_procs]
        by_cases e : p = q
        · rw [if_pos e]
        · rw [if_neg e, if_neg e, if_neg e]; exact h3 p
      obtain ⟨w', e, h1', h2', h3'⟩ := hc
      have : run w ((q :: ps).flatMap fun p => .spawn p true :: acquire p ++ [.exit p]) =
          run w' (ps.flatMap fun p => .spawn p true :: acquire p ++ [.exit p]) := by
        rw [List.flatMap_cons, run, List.foldl_append, ← e]; rfl
      rw [this]
      exact ih w' i h1' h2' h3' p
  intro p hp
  have hw : ∀ p, w.procs p = none := by
    intro p
    by_cases e : p = 11
    · subst e; decide +kernel
    · refine procs_none _ (.exit 11) p (procs_none _ (.openFile 11) p (procs_none _ (.check 11) p
        (procs_none _ (.spawn 11 true) p rfl ?_) ?_) ?_) ?_ <;> intro v h <;> cases h
      exact e rfl
  have := key ps w 0 (by decide +kernel) (by decide +kernel) hw p
  rw [Runs, this] at hp
  cases hp

/-- **C116, what is missing.** After a crash, another process that has the same number by chance keeps nodes from starting. -/
theorem C116_reused_refuted :
    let as : List Action := [.spawn 11 true] ++ acquire 11 ++ [.exit 11, .spawn 11 false, .spawn 12 true] ++ acquire 12
    (run World.empty as).procs 11 = some .other ∧ (run World.empty as).procs 12 = some .done := by
  decide +kernel

end Verif.NodeStart
