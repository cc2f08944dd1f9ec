import Verif.NodeStart.PidSpec
import Mathlib.Data.Nat.Digits.Lemmas
/-! Helper lemmas about the PID file. -/
namespace Verif.NodeStart
open Spec (Runs Acquiring Apart)

/-- Numbers with `k + 1` digits. -/
def InRange (k p : Nat) : Prop := 10 ^ k ≤ p ∧ p < 10 ^ (k + 1)

theorem digits_length {k p : Nat} (h : InRange k p) : (digits p).length = k + 1 := by
  rw [digits, List.length_reverse]
  have h0 : p ≠ 0 := by have := Nat.pow_pos (n := k) (show 0 < 10 by decide); have := h.1; omega
  rw [Nat.digits_len 10 p (by decide) h0, Nat.log_eq_of_pow_le_of_lt_pow h.1 h.2]

theorem readPid_digits {k p : Nat} (h : InRange k p) : readPid (digits p) = some p := by
  rw [readPid, if_neg, digits, List.reverse_reverse, Nat.ofDigits_digits]
  intro he
  have := digits_length h
  rw [he] at this
  simp at this

theorem digits_inj {k p q : Nat} (hp : InRange k p) (hq : InRange k q) (h : digits p = digits q) : p = q := by
  have := readPid_digits hp
  rw [h, readPid_digits hq] at this
  exact (Option.some.inj this).symm

@[simp] theorem set_procs (w : World) (p q : Nat) (ph : Option Phase) :
    (w.set p ph).procs q = if q = p then ph else w.procs q := rfl
@[simp] theorem set_link (w : World) (p : Nat) (ph : Option Phase) : (w.set p ph).link = w.link := rfl
@[simp] theorem set_content (w : World) (p : Nat) (ph : Option Phase) : (w.set p ph).content = w.content := rfl
@[simp] theorem set_lock (w : World) (p : Nat) (ph : Option Phase) : (w.set p ph).lock = w.lock := rfl
@[simp] theorem unlock_procs (w : World) (p : Nat) : (w.unlock p).procs = w.procs := rfl
@[simp] theorem unlock_link (w : World) (p : Nat) : (w.unlock p).link = w.link := rfl
@[simp] theorem unlock_content (w : World) (p : Nat) : (w.unlock p).content = w.content := rfl

/-- What is true at any time if starts do not overlap. -/
structure Inv (k : Nat) (w : World) : Prop where
  range : ∀ p, w.procs p ≠ none → InRange k p
  text : ∀ i, w.link = some i → w.content i = [] ∨ ∃ r, InRange k r ∧ w.content i = digits r
  owner : ∀ p, w.procs p = some .node → ∃ i, w.link = some i ∧ w.content i = digits p
  alone : ∀ p, Acquiring w p → ∀ q, w.procs q ≠ some .node
  one : ∀ p q, Acquiring w p → Acquiring w q → p = q
  opened : ∀ p i, (w.procs p = some (.opened i) ∨ w.procs p = some (.locked i)) → w.link = some i

theorem Inv.empty (k : Nat) : Inv k World.empty := by
  constructor <;> simp [World.empty, Acquiring]

/-- A change of a process to something harmless. -/
theorem Inv.set {k : Nat} {w w' : World} (h : Inv k w) (p : Nat) (ph : Option Phase) (hl : w'.link = w.link)
    (hc : w'.content = w.content) (hp : ∀ q, w'.procs q = if q = p then ph else w.procs q)
    (h1 : ph = none ∨ ph = some .other ∨ ph = some .starting ∨ ph = some .done) (hr : ph = none ∨ InRange k p) : Inv k w' := by
  have hacq : ∀ q, Acquiring w' q → Acquiring w q := by
    intro q hq
    unfold Acquiring at hq ⊢
    rw [hp q] at hq
    by_cases e : q = p
    · rw [if_pos e] at hq
      rcases h1 with rfl | rfl | rfl | rfl <;> simp at hq
    · rwa [if_neg e] at hq
  have hnode : ∀ q, w'.procs q = some .node → w.procs q = some .node := by
    intro q hq
    rw [hp q] at hq
    by_cases e : q = p
    · rw [if_pos e] at hq
      rcases h1 with rfl | rfl | rfl | rfl <;> simp at hq
    · rwa [if_neg e] at hq
  refine ⟨?_, by rw [hl, hc]; exact h.text, fun q hq => by rw [hl, hc]; exact h.owner q (hnode q hq),
    fun q hq r hr => h.alone q (hacq q hq) r (hnode r hr), fun q r hq hr => h.one q r (hacq q hq) (hacq r hr), ?_⟩
  · intro q hq
    rw [hp q] at hq
    by_cases e : q = p
    · rw [if_pos e] at hq
      rcases hr with rfl | hr
      · exact absurd rfl hq
      · rw [e]; exact hr
    · rw [if_neg e] at hq; exact h.range q hq
  · intro q i hq
    rw [hl]
    rw [hp q] at hq
    by_cases e : q = p
    · rw [if_pos e] at hq
      rcases h1 with rfl | rfl | rfl | rfl <;> simp at hq
    · rw [if_neg e] at hq; exact h.opened q i hq

/-- A process goes on acquiring, or begins to while nobody else does. -/
theorem Inv.acquire {k : Nat} {w w' : World} (h : Inv k w) (p : Nat) (ph : Phase)
    (hp : ∀ q, w'.procs q = if q = p then some ph else w.procs q) (hr : InRange k p) (hne : ph ≠ .node)
    (hfree : ∀ q, Acquiring w q → q = p) (hnone : ∀ q, w.procs q ≠ some .node)
    (htext : ∀ i, w'.link = some i → w'.content i = [] ∨ ∃ r, InRange k r ∧ w'.content i = digits r)
    (hopen : ∀ i, (ph = .opened i ∨ ph = .locked i) → w'.link = some i) : Inv k w' := by
  have hacq : ∀ q, Acquiring w' q → q = p := by
    intro q hq
    by_cases e : q = p
    · exact e
    · unfold Acquiring at hq
      rw [hp q, if_neg e] at hq
      exact hfree q hq
  have hnode : ∀ q, w'.procs q ≠ some .node := by
    intro q hq
    rw [hp q] at hq
    by_cases e : q = p
    · rw [if_pos e] at hq; exact hne (Option.some.inj hq)
    · rw [if_neg e] at hq; exact hnone q hq
  refine ⟨?_, htext, fun q hq => absurd hq (hnode q), fun _ _ q => hnode q,
    fun q r hq hr => (hacq q hq).trans (hacq r hr).symm, ?_⟩
  · intro q hq
    rw [hp q] at hq
    by_cases e : q = p
    · rw [e]; exact hr
    · rw [if_neg e] at hq; exact h.range q hq
  · intro q i hq
    rw [hp q] at hq
    by_cases e : q = p
    · rw [if_pos e] at hq
      exact hopen i (hq.imp Option.some.inj Option.some.inj)
    · rw [if_neg e] at hq
      exact absurd (hfree q (hq.elim (fun h => .inr (.inl ⟨i, h⟩)) fun h => .inr (.inr ⟨i, h⟩))) e

/-- A process becomes the only node. -/
theorem Inv.become {k : Nat} {w w' : World} (h : Inv k w) (p : Nat) (hp : ∀ q, w'.procs q = if q = p then some .node else w.procs q)
    (hr : InRange k p) (hfree : ∀ q, Acquiring w q → q = p) (i : Nat) (hl : w'.link = some i) (hc : w'.content i = digits p)
    (hnone : ∀ q, w.procs q ≠ some .node) : Inv k w' := by
  have hacq : ∀ q, ¬ Acquiring w' q := by
    intro q hq
    by_cases e : q = p
    · unfold Acquiring at hq
      rw [hp q, if_pos e] at hq
      simp at hq
    · unfold Acquiring at hq
      rw [hp q, if_neg e] at hq
      exact e (hfree q hq)
  refine ⟨?_, ?_, ?_, fun q hq => absurd hq (hacq q), fun q _ hq => absurd hq (hacq q), ?_⟩
  · intro q hq
    rw [hp q] at hq
    by_cases e : q = p
    · rw [e]; exact hr
    · rw [if_neg e] at hq; exact h.range q hq
  · intro j hj
    rw [hl] at hj
    cases hj
    exact .inr ⟨p, hr, hc⟩
  · intro q hq
    rw [hp q] at hq
    by_cases e : q = p
    · rw [e]; exact ⟨i, hl, hc⟩
    · rw [if_neg e] at hq; exact absurd hq (hnone q)
  · intro q j hq
    refine absurd (?_ : Acquiring w' q) (hacq q)
    exact hq.elim (fun h => .inr (.inl ⟨j, h⟩)) fun h => .inr (.inr ⟨j, h⟩)

theorem Inv.step {k : Nat} {w : World} (h : Inv k w) (a : Action) (ha : ∀ p, a = .check p → ∀ q, ¬ Acquiring w q)
    (hs : ∀ p vast, a = .spawn p vast → InRange k p) : Inv k (step w a) := by
  cases a with
  | spawn p vast =>
    rw [NodeStart.step]
    cases hp : w.procs p with
    | some _ => exact h
    | none =>
      refine h.set p (some (if vast then .starting else .other)) rfl rfl (fun q => rfl) ?_ (.inr (hs p vast rfl))
      cases vast <;> simp
  | exit p => exact h.set p none rfl rfl (fun q => rfl) (.inl rfl) (.inl rfl)
  | check p =>
    rw [NodeStart.step]
    have hfree : ∀ q, Acquiring w q → q = p := fun q hq => absurd hq (ha p rfl q)
    split
    · rename_i hp
      have hr : InRange k p := h.range p (by rw [hp]; simp)
      rw [World.check]
      split
      · rename_i hl
        refine h.acquire p .checked (fun q => rfl) hr (by simp) hfree (fun q hq => ?_) h.text (by simp)
        obtain ⟨i, hi, _⟩ := h.owner q hq
        rw [hl] at hi; cases hi
      · rename_i i hl
        split
        · exact h.set p (some .done) rfl rfl (fun q => rfl) (by simp) (.inr hr)
        · rename_i r hrd
          have hcont : InRange k r ∧ w.content i = digits r := by
            rcases h.text i hl with he | ⟨r', hr', he⟩
            · rw [he] at hrd; simp [readPid] at hrd
            · rw [he, readPid_digits hr'] at hrd
              cases hrd
              exact ⟨hr', he⟩
          have howner : ∀ q, w.procs q = some .node → q = r := by
            intro q hq
            obtain ⟨j, hj, hc⟩ := h.owner q hq
            rw [hl] at hj
            cases hj
            rw [hcont.2] at hc
            exact (digits_inj hcont.1 (h.range q (by rw [hq]; simp)) hc).symm
          split
          · rename_i e
            subst e
            refine h.become r (fun q => rfl) hr hfree i hl hcont.2 fun q hq => ?_
            have := howner q hq
            subst this
            rw [hp] at hq; cases hq
          · split
            · rename_i hdead
              refine h.acquire p .checked (fun q => rfl) hr (by simp) hfree (fun q hq => ?_) h.text (by simp)
              have := howner q hq
              subst this
              rw [hdead] at hq; cases hq
            · exact h.set p (some .done) rfl rfl (fun q => rfl) (by simp) (.inr hr)
    · exact h
  | openFile p =>
    rw [NodeStart.step]
    split
    · rename_i hp
      have hr : InRange k p := h.range p (by rw [hp]; simp)
      have hacq : Acquiring w p := .inl hp
      rw [World.openFile]
      split
      · rename_i i hl
        refine h.acquire p (.opened i) (fun q => rfl) hr (by simp) (fun q hq => h.one q p hq hacq) (h.alone p hacq) h.text ?_
        intro j hj
        simp at hj
        rw [← hj]; exact hl
      · refine h.acquire p (.opened w.next) (fun q => rfl) hr (by simp) (fun q hq => h.one q p hq hacq) (h.alone p hacq) ?_ ?_
        · intro i hi
          simp at hi
          subst hi
          left
          simp
        · intro j hj
          simp at hj
          rw [← hj]; rfl
    · exact h
  | lockFile p =>
    rw [NodeStart.step]
    split
    · rename_i i hp
      have hr : InRange k p := h.range p (by rw [hp]; simp)
      have hacq : Acquiring w p := .inr (.inl ⟨i, hp⟩)
      rw [World.lockFile]
      split
      · refine h.acquire p (.locked i) (fun q => rfl) hr (by simp) (fun q hq => h.one q p hq hacq) (h.alone p hacq) h.text ?_
        intro j hj
        simp at hj
        rw [← hj]; exact h.opened p i (.inl hp)
      · exact h.set p (some .done) rfl rfl (fun q => rfl) (by simp) (.inr hr)
    · exact h
  | write p =>
    rw [NodeStart.step]
    split
    · rename_i i hp
      have hr : InRange k p := h.range p (by rw [hp]; simp)
      have hacq : Acquiring w p := .inr (.inr ⟨i, hp⟩)
      have hl := h.opened p i (.inr hp)
      refine h.become p (fun q => rfl) hr (fun q hq => h.one q p hq hacq) i hl ?_ (h.alone p hacq)
      simp only [World.write, set_content, unlock_content, if_true]
      rw [digits_length hr]
      rcases h.text i hl with he | ⟨r, hr', he⟩
      · rw [he]; simp
      · rw [he, List.drop_of_length_le (by rw [digits_length hr']), List.append_nil]
    · exact h
  | fail p =>
    rw [NodeStart.step]
    split
    · rename_i hp
      exact h.set p (some .done) rfl rfl (fun q => rfl) (by simp) (.inr (h.range p (by rw [hp]; simp)))
    · rename_i i hp
      exact h.set p (some .done) rfl rfl (fun q => rfl) (by simp) (.inr (h.range p (by rw [hp]; simp)))
    · rename_i i hp
      exact h.set p (some .done) rfl rfl (fun q => rfl) (by simp) (.inr (h.range p (by rw [hp]; simp)))
    · exact h
  | stop p =>
    rw [NodeStart.step]
    split
    · rename_i hp
      have hr : InRange k p := h.range p (by rw [hp]; simp)
      have hno : ∀ q, ¬ Acquiring w q := fun q hq => h.alone q hq p hp
      have hone : ∀ q, w.procs q = some .node → q = p := by
        intro q hq
        obtain ⟨i, hi, hc⟩ := h.owner q hq
        obtain ⟨j, hj, hd⟩ := h.owner p hp
        rw [hi] at hj
        cases hj
        rw [hc] at hd
        exact digits_inj (h.range q (by rw [hq]; simp)) hr hd
      have hn : ∀ q, (World.set { w with link := none } p (some .done)).procs q ≠ some .node := by
        intro q hq
        rw [set_procs] at hq
        by_cases e : q = p
        · rw [if_pos e] at hq; cases hq
        · rw [if_neg e] at hq; exact e (hone q hq)
      have hac : ∀ q, ¬ Acquiring (World.set { w with link := none } p (some .done)) q := by
        intro q hq
        unfold Acquiring at hq
        rw [set_procs] at hq
        by_cases e : q = p
        · rw [if_pos e] at hq; simp at hq
        · rw [if_neg e] at hq; exact hno q hq
      refine ⟨?_, by intro i hi; simp at hi, fun q hq => absurd hq (hn q), fun q hq => absurd hq (hac q),
        fun q _ hq => absurd hq (hac q), fun q i hq => absurd (hq.elim (fun h => .inr (.inl ⟨i, h⟩)) fun h => .inr (.inr ⟨i, h⟩)) (hac q)⟩
      intro q hq
      rw [set_procs] at hq
      by_cases e : q = p
      · rw [e]; exact hr
      · rw [if_neg e] at hq; exact h.range q hq
    · exact h

theorem run_inv {k : Nat} : ∀ (as : List Action) (w : World), Inv k w → Apart w as → Spec.SameDigits k as → Inv k (run w as)
  | [], _, h, _, _ => h
  | a :: as, w, h, ha, hs => by
    rw [run, List.foldl_cons]
    exact run_inv as _ (h.step a ha.1 fun p v e => hs p v (by simp [e])) ha.2 fun p v hm => hs p v (List.mem_cons_of_mem _ hm)

/-! ## Locks -/

/-- A lock is held by a process that is about to write. -/
def LockInv (w : World) : Prop := ∀ i p, w.lock i = some p → w.procs p = some (.locked i)

theorem LockInv.set {w : World} (h : LockInv w) (p : Nat) (ph : Option Phase) (hp : ∀ i, w.procs p ≠ some (.locked i)) :
    LockInv (w.set p ph) := by
  intro i q hq
  have := h i q hq
  rw [set_procs, if_neg]
  · exact this
  · intro e; rw [e] at this; exact hp i this

theorem LockInv.unlockSet {w : World} (h : LockInv w) (p : Nat) (ph : Option Phase) : LockInv ((w.unlock p).set p ph) := by
  intro i q hq
  simp only [set_lock, World.unlock] at hq
  split at hq
  · cases hq
  · rename_i hn
    have := h i q hq
    rw [set_procs, if_neg]
    · exact this
    · intro e; rw [e] at hq; exact hn hq

theorem LockInv.step {w : World} (h : LockInv w) (a : Action) : LockInv (step w a) := by
  cases a with
  | spawn p vast =>
    rw [NodeStart.step]
    cases hp : w.procs p with
    | some _ => exact h
    | none => exact h.set p _ (by rw [hp]; simp)
  | exit p => exact h.unlockSet p none
  | check p =>
    rw [NodeStart.step]
    split
    · rename_i hp
      have hx : ∀ i, w.procs p ≠ some (.locked i) := by rw [hp]; simp
      rw [World.check]
      split
      · exact h.set p _ hx
      · split
        · exact h.set p _ hx
        · split
          · exact h.set p _ hx
          · split <;> exact h.set p _ hx
    · exact h
  | openFile p =>
    rw [NodeStart.step]
    split
    · rename_i hp
      have hx : ∀ i, w.procs p ≠ some (.locked i) := by rw [hp]; simp
      rw [World.openFile]
      split
      · exact h.set p _ hx
      · exact LockInv.set (w := { w with link := some w.next, next := w.next + 1, content := fun j => if j = w.next then [] else w.content j })
          h p _ hx
    · exact h
  | lockFile p =>
    rw [NodeStart.step]
    split
    · rename_i i hp
      have hx : ∀ i, w.procs p ≠ some (.locked i) := by rw [hp]; simp
      rw [World.lockFile]
      split
      · intro j q hq
        simp only [set_lock] at hq
        split at hq
        · rename_i e
          cases hq
          rw [set_procs, if_pos rfl, e]
        · have := h j q hq
          rw [set_procs, if_neg]
          · exact this
          · intro e; rw [e] at this; exact hx j this
      · exact h.set p _ hx
    · exact h
  | write p =>
    rw [NodeStart.step]
    split
    · rename_i i hp
      exact LockInv.unlockSet (w := { w with content := fun j => if j = i then digits p ++ (w.content i).drop (digits p).length else w.content j })
        h p _
    · exact h
  | fail p =>
    rw [NodeStart.step]
    split
    · rename_i hp; exact h.set p _ (by rw [hp]; simp)
    · rename_i hp; exact h.set p _ (by rw [hp]; simp)
    · exact h.unlockSet p _
    · exact h
  | stop p =>
    rw [NodeStart.step]
    split
    · rename_i hp; exact LockInv.set (w := { w with link := none }) h p _ (by rw [hp]; simp)
    · exact h

theorem run_lock : ∀ (as : List Action) (w : World), LockInv w → LockInv (run w as)
  | [], _, h => h
  | a :: as, w, h => by rw [run, List.foldl_cons]; exact run_lock as _ (h.step a)

end Verif.NodeStart
