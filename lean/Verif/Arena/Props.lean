import Verif.Arena.Spec
import Mathlib.Data.Nat.Basic
/-! # C176: blocks of an arena do not overlap -/
namespace Verif.Arena
open Spec

theorem alignUp_eq {k n : Nat} (hk : k ≤ 64) (h : n + 2 ^ k ≤ 2 ^ 64) : alignUp k n = (n + (2 ^ k - 1)) / 2 ^ k * 2 ^ k := by
  unfold alignUp
  have hp : 0 < 2 ^ k := Nat.two_pow_pos k
  have hlt : n + (2 ^ k - 1) < 2 ^ 64 := by omega
  rw [Nat.mod_eq_of_lt hlt]
  apply Nat.eq_of_testBit_eq
  intro i
  have e : 2 ^ 64 - 2 ^ k = 2 ^ 64 - ((2 ^ k - 1) + 1) := by omega
  have hkk : 2 ^ k ≤ 2 ^ 64 := Nat.pow_le_pow_right (by omega) hk
  rw [Nat.testBit_and, e, Nat.testBit_two_pow_sub_succ (by omega), Nat.testBit_two_pow_sub_one, Nat.testBit_mul_two_pow, Nat.testBit_div_two_pow]
  by_cases hi : i < k
  · simp [hi]; omega
  · have hki : k ≤ i := by omega
    rw [Nat.sub_add_cancel hki]
    by_cases hi64 : i < 64
    · simp [hi, hi64, hki]
    · have : (n + (2 ^ k - 1)).testBit i = false :=
        Nat.testBit_lt_two_pow (Nat.lt_of_lt_of_le hlt (Nat.pow_le_pow_right (by omega) (by omega)))
      simp [this]

theorem alignUp_facts {k n : Nat} (hk : k ≤ 64) (h : n + 2 ^ k ≤ 2 ^ 64) :
    n ≤ alignUp k n ∧ 2 ^ k ∣ alignUp k n ∧ (n = 0 → alignUp k n = 0) := by
  rw [alignUp_eq hk h]
  have hp : 0 < 2 ^ k := Nat.two_pow_pos k
  refine ⟨?_, ⟨_, Nat.mul_comm _ _⟩, ?_⟩
  · have := Nat.div_add_mod (n + (2 ^ k - 1)) (2 ^ k)
    have := Nat.mod_lt (n + (2 ^ k - 1)) hp
    rw [Nat.mul_comm (2 ^ k)] at *
    omega
  · rintro rfl
    rw [Nat.zero_add, Nat.div_eq_of_lt (by omega), Nat.zero_mul]

/-- What holds of a block in the buffer. -/
structure Inside (a : Arena) (b : Block) : Prop where
  small : b.size + 2 ^ a.align ≤ 2 ^ 64
  lower : a.buf ≤ b.addr
  upper : b.addr + alignUp a.align b.size ≤ a.buf + a.cap
  aligned : 2 ^ a.align ∣ b.addr - a.buf
  below : b.size ≠ 0 → b.addr + alignUp a.align b.size ≤ a.ptr

/-- Two blocks in the buffer. -/
def Apart (align : Nat) (b c : Block) : Prop :=
  b.heap = false → c.heap = false → b.size ≠ 0 → c.size ≠ 0 → b.addr + alignUp align b.size ≤ c.addr ∨ c.addr + alignUp align c.size ≤ b.addr

/-- No byte belongs to two blocks. -/
def Disjoint (b c : Block) : Prop := ∀ x, ¬ (Owns b x ∧ Owns c x)

/-- The invariant. -/
structure Inv (buf cap align : Nat) (a : Arena) (live : List Block) : Prop where
  h1 : a.buf = buf
  h2 : a.cap = cap
  h3 : a.align = align
  lower : buf ≤ a.ptr
  upper : a.ptr ≤ buf + cap
  aligned : 2 ^ align ∣ a.ptr - buf
  inside : ∀ b ∈ live, b.heap = false → Inside a b
  outside : ∀ b ∈ live, b.heap = true → ∀ x, b.addr ≤ x → x ≤ b.addr + b.size → x < buf ∨ buf + cap < x
  apart : live.Pairwise (Apart align)
  heaps : live.Pairwise fun b c => b.heap = true → c.heap = true → Disjoint b c

theorem apart_symm {k : Nat} : ∀ {b c : Block}, Apart k b c → Apart k c b := fun h h1 h2 h3 h4 => (h h2 h1 h4 h3).symm

theorem heaps_symm : ∀ {b c : Block}, (b.heap = true → c.heap = true → Disjoint b c) → (c.heap = true → b.heap = true → Disjoint c b) :=
  fun h h1 h2 x hx => h h2 h1 x ⟨hx.2, hx.1⟩

theorem inv_history {buf cap align : Nat} (hk : align ≤ 64) {a : Arena} {live : List Block} (h : History buf cap align a live) :
    Inv buf cap align a live := by
  induction h with
  | start =>
    exact ⟨rfl, rfl, rfl, Nat.le_refl _, Nat.le_add_right _ _, by simp [create], by simp, by simp, .nil, .nil⟩
  | @allocate a a' live n fresh addr heap _ hn hf e ih =>
    obtain ⟨rfl, rfl, rfl, l, u, al, ins, out, ap, hp⟩ := ih
    obtain ⟨f1, f2, f3⟩ := alignUp_facts hk hn
    unfold Arena.allocate at e
    rw [if_pos (by simp [inBuffer, l, u])] at e
    split at e
    · rename_i hfit
      simp only [Option.some.injEq, Prod.mk.injEq] at e
      obtain ⟨rfl, rfl, rfl⟩ := e
      refine ⟨rfl, rfl, rfl, by dsimp only; omega, by dsimp only; omega, ?_, ?_, ?_, ?_, ?_⟩
      · dsimp only
        rw [show a.ptr + alignUp a.align n - a.buf = (a.ptr - a.buf) + alignUp a.align n by omega]
        exact Nat.dvd_add al f2
      · intro b hb hh
        rcases List.mem_cons.mp hb with rfl | hb
        · exact ⟨hn, l, by dsimp only; omega, al, fun _ => Nat.le_refl _⟩
        · obtain ⟨i1, i2, i3, i4, i5⟩ := ins b hb hh
          exact ⟨i1, i2, i3, i4, fun h => Nat.le_trans (i5 h) (Nat.le_add_right _ _)⟩
      · intro b hb hh
        rcases List.mem_cons.mp hb with rfl | hb
        · cases hh
        · exact out b hb hh
      · refine List.pairwise_cons.mpr ⟨fun c hc h1 h2 h3 h4 => ?_, ap⟩
        exact .inr ((ins c hc h2).below h4)
      · exact List.pairwise_cons.mpr ⟨fun c hc h => by simp at h, hp⟩
    · simp only [Option.some.injEq, Prod.mk.injEq] at e
      obtain ⟨rfl, rfl, rfl⟩ := e
      refine ⟨rfl, rfl, rfl, l, u, al, ?_, ?_, ?_, ?_⟩
      · intro b hb hh
        rcases List.mem_cons.mp hb with rfl | hb
        · cases hh
        · exact ins b hb hh
      · intro b hb hh
        rcases List.mem_cons.mp hb with rfl | hb
        · exact hf.1
        · exact out b hb hh
      · exact List.pairwise_cons.mpr ⟨fun c hc h => by simp at h, ap⟩
      · exact List.pairwise_cons.mpr ⟨fun c hc _ _ x hx => hf.2 c hc x hx.2 hx.1, hp⟩
  | @deallocate a a' live b deleted _ hb e ih =>
    obtain ⟨rfl, rfl, rfl, l, u, al, ins, out, ap, hp⟩ := ih
    have sub : ∀ c ∈ live.erase b, c ∈ live := fun c hc => List.mem_of_mem_erase hc
    have keep : Inv a.buf a.cap a.align a (live.erase b) :=
      ⟨rfl, rfl, rfl, l, u, al, fun c hc => ins c (sub c hc), fun c hc => out c (sub c hc), ap.sublist List.erase_sublist, hp.sublist List.erase_sublist⟩
    unfold Arena.deallocate at e
    rw [if_pos (by simp [inBuffer, l, u])] at e
    split at e
    · rename_i hin
      simp only [Option.some.injEq, Prod.mk.injEq] at e
      obtain ⟨rfl, rfl⟩ := e
      split
      · rename_i htop
        by_cases hh : b.heap = true
        · have := out b hb hh b.addr (Nat.le_refl _) (Nat.le_add_right _ _)
          simp [inBuffer] at hin
          omega
        · have hh : b.heap = false := by simpa using hh
          obtain ⟨i1, i2, i3, i4, i5⟩ := ins b hb hh
          refine ⟨rfl, rfl, rfl, i2, by dsimp only; omega, i4, ?_, keep.outside, keep.apart, keep.heaps⟩
          intro c hc hch
          obtain ⟨j1, j2, j3, j4, j5⟩ := ins c (sub c hc) hch
          refine ⟨j1, j2, j3, j4, fun hs => ?_⟩
          by_cases hbs : b.size = 0
          · have := (alignUp_facts hk i1).2.2 hbs
            have := j5 hs
            dsimp only; omega
          · have hpw := ((List.perm_cons_erase hb).pairwise_iff apart_symm).mp ap
            have := (List.pairwise_cons.mp hpw).1 c hc hh hch hbs hs
            have h1 := j5 hs
            have h2 := (alignUp_facts hk j1).1
            dsimp only
            omega
      · exact keep
    · simp only [Option.some.injEq, Prod.mk.injEq] at e
      obtain ⟨rfl, rfl⟩ := e
      exact keep
  | @reset a live _ hall ih =>
    obtain ⟨rfl, rfl, rfl, l, u, al, ins, out, ap, hp⟩ := ih
    exact ⟨rfl, rfl, rfl, Nat.le_refl _, Nat.le_add_right _ _, by simp [Arena.reset], (fun b hb h => by rw [hall b hb] at h; cases h), out, ap, hp⟩

/-- **C176 (partial).**  After any history: no byte belongs to two blocks; blocks of the arena lie in it and are aligned; and the arena uses no more
than it has.  Missing: requests of almost 2^64 bytes, for which this fails. -/
theorem C176_blocks_partial (buf cap align : Nat) (hk : align ≤ 64) (hb : 2 ^ align ∣ buf) (a : Arena) (live : List Block)
    (h : History buf cap align a live) :
    live.Pairwise (fun b c => ∀ x, ¬ (Owns b x ∧ Owns c x)) ∧
    (∀ b ∈ live, b.heap = false → buf ≤ b.addr ∧ b.addr + b.size ≤ buf + cap ∧ 2 ^ align ∣ b.addr) ∧ used a ≤ cap := by
  obtain ⟨rfl, rfl, rfl, l, u, al, ins, out, ap, hp⟩ := inv_history hk h
  refine ⟨?_, fun b hb' hh => ?_, by unfold used; omega⟩
  · have hboth : live.Pairwise fun b c => b ∈ live ∧ c ∈ live ∧ Apart a.align b c ∧ (b.heap = true → c.heap = true → Disjoint b c) := by
      have := ap.and hp
      refine List.Pairwise.imp_of_mem ?_ this
      intro b c hb hc h
      exact ⟨hb, hc, h⟩
    refine hboth.imp ?_
    rintro b c ⟨hbm, hcm, h1, h2⟩ x ⟨⟨x1, x2⟩, ⟨y1, y2⟩⟩
    cases eb : b.heap <;> cases ec : c.heap
    · have ib := ins b hbm eb
      have ic := ins c hcm ec
      have := (alignUp_facts hk ib.small).1
      have := (alignUp_facts hk ic.small).1
      have := h1 eb ec (by omega) (by omega)
      omega
    · have ib := ins b hbm eb
      have := (alignUp_facts hk ib.small).1
      have := out c hcm ec x y1 (by omega)
      have := ib.lower
      have := ib.upper
      omega
    · have ic := ins c hcm ec
      have := (alignUp_facts hk ic.small).1
      have := out b hbm eb x x1 (by omega)
      have := ic.lower
      have := ic.upper
      omega
    · exact h2 eb ec x ⟨⟨x1, x2⟩, ⟨y1, y2⟩⟩
  · obtain ⟨i1, i2, i3, i4, _⟩ := ins b hb' hh
    have := (alignUp_facts hk i1).1
    refine ⟨i2, by omega, ?_⟩
    have := Nat.dvd_add i4 hb
    rwa [Nat.sub_add_cancel i2] at this

/-- **C176.**  No operation fails after any history, and a block is given back to `operator delete` exactly if it is from `operator new`. -/
theorem C176_returned (buf cap align : Nat) (hk : align ≤ 64) (a : Arena) (live : List Block) (h : History buf cap align a live) :
    (∀ n fresh, allocate a n fresh ≠ none) ∧ ∀ b ∈ live, ∃ a', deallocate a b.addr b.size = some (b.heap, a') := by
  obtain ⟨rfl, rfl, rfl, l, u, al, ins, out, ap, hp⟩ := inv_history hk h
  have hin : inBuffer a a.ptr = true := by simp [inBuffer, l, u]
  constructor
  · intro n fresh
    unfold allocate
    rw [if_pos hin]
    split <;> simp
  · intro b hb
    unfold deallocate
    rw [if_pos hin]
    cases e : b.heap with
    | true =>
      have := out b hb e b.addr (Nat.le_refl _) (Nat.le_add_right _ _)
      rw [if_neg (by simp [inBuffer]; omega)]
      exact ⟨_, rfl⟩
    | false =>
      have i := ins b hb e
      have := i.lower
      have := i.upper
      rw [if_pos (by simp [inBuffer]; omega)]
      exact ⟨_, rfl⟩

/-- **C176.**  A block that is given back before anything else happens leaves the arena as it was: what is given back in the reverse order of the
requests can be used again. -/
theorem C176_reused (buf cap align : Nat) (hk : align ≤ 64) (a : Arena) (live : List Block) (h : History buf cap align a live) (n fresh addr : Nat)
    (heap : Bool) (a' : Arena) (hn : n + 2 ^ align ≤ 2 ^ 64) (hf : Fresh a live fresh n) (e : allocate a n fresh = some (addr, heap, a')) :
    deallocate a' addr n = some (heap, a) := by
  have h' := History.allocate h hn hf e
  obtain ⟨x, hx⟩ := (C176_returned buf cap align hk a' _ h').2 _ List.mem_cons_self
  obtain ⟨rfl, rfl, rfl, l, u, _⟩ := inv_history hk h
  have hin : inBuffer a a.ptr = true := by simp [inBuffer, l, u]
  unfold allocate at e
  rw [if_pos hin] at e
  split at e
  · rename_i hfit
    simp only [Option.some.injEq, Prod.mk.injEq] at e
    obtain ⟨rfl, rfl, rfl⟩ := e
    unfold deallocate
    rw [if_pos (by simp [inBuffer]; omega), if_pos (by simpa [inBuffer] using hin)]
    simp
  · simp only [Option.some.injEq, Prod.mk.injEq] at e
    obtain ⟨rfl, rfl, rfl⟩ := e
    unfold deallocate at hx ⊢
    rw [if_pos hin] at hx ⊢
    split at hx
    · simp at hx
    · rename_i hb; rw [if_neg hb]

/-- **C176.**  After a reset all of the arena can be had again, in one piece. -/
theorem C176_reset (buf cap align : Nat) (hk : align ≤ 64) (hc : 2 ^ align ∣ cap) (a : Arena) (live : List Block) (h : History buf cap align a live) (n fresh : Nat)
    (hn : n ≤ cap) (hs : n + 2 ^ align ≤ 2 ^ 64) : ∃ a', allocate (reset a) n fresh = some (buf, false, a') := by
  obtain ⟨rfl, rfl, rfl, l, u, _⟩ := inv_history hk h
  have hfit : alignUp a.align n ≤ a.cap := by
    rw [alignUp_eq hk hs]
    obtain ⟨c, hc⟩ := hc
    have hp : 0 < 2 ^ a.align := Nat.two_pow_pos _
    rw [hc, Nat.mul_comm (2 ^ a.align) c]
    apply Nat.mul_le_mul_right
    apply Nat.le_of_lt_succ
    rw [Nat.div_lt_iff_lt_mul hp, Nat.succ_mul, Nat.mul_comm c]
    omega
  unfold allocate
  rw [if_pos (by simp [inBuffer, reset])]
  rw [if_pos (by simpa [reset] using hfit)]
  exact ⟨_, rfl⟩

/-- A history: three blocks, of which the third does not fit; then the first is given back, and the second. -/
example : ∃ a, History 1024 64 4 a [⟨5000, 40, true⟩] ∧ used a = 16 := by
  have h1 : History 1024 64 4 _ _ := History.allocate (n := 10) (fresh := 5000) .start (by decide) ⟨by simp only [create]; omega, by simp⟩ rfl
  have h2 : History 1024 64 4 _ _ := History.allocate (n := 20) (fresh := 5000) h1 (by decide) ⟨by simp only [create]; omega, by rintro b hb x ⟨h, h'⟩; simp [create] at hb; rcases hb with rfl | rfl <;> simp_all [show alignUp 4 10 = 16 by decide] <;> omega⟩ rfl
  have h3 : History 1024 64 4 _ _ := History.allocate (n := 40) (fresh := 5000) h2 (by decide) ⟨by simp only [create]; omega, by rintro b hb x ⟨h, h'⟩; simp [create] at hb; rcases hb with rfl | rfl <;> simp_all [show alignUp 4 10 = 16 by decide] <;> omega⟩ rfl
  have h4 : History 1024 64 4 _ _ := History.deallocate (b := ⟨1024, 10, false⟩) h3 (by decide) rfl
  have h5 : History 1024 64 4 _ _ := History.deallocate (b := ⟨1040, 20, false⟩) h4 (by decide) rfl
  exact ⟨_, h5, by decide⟩

/-- **C176 (refuted).**  A request of 2^64 - 1 bytes succeeds, with a block of the arena for which no byte is reserved; the next request gets the
same one. -/
theorem C176_wrap_refuted (buf : Nat) (fresh fresh' : Nat) :
    ∃ a', allocate (create buf 64 4) (2 ^ 64 - 1) fresh = some (buf, false, a') ∧ ∃ a'', allocate a' 16 fresh' = some (buf, false, a'') := by
  have e1 : alignUp 4 (2 ^ 64 - 1) = 0 := by decide
  have e2 : alignUp 4 16 = 16 := by decide
  refine ⟨create buf 64 4, ?_, ⟨buf, 64, 4, buf + 16⟩, ?_⟩
  · simp [allocate, create, inBuffer, e1]
  · simp [allocate, create, inBuffer, e2]

/-- **C176 (refuted).**  The same for 2^61 elements of eight bytes. -/
theorem C176_elements_refuted (a : Arena) (h : inBuffer a a.ptr = true) (hk : a.align = 4) (fresh : Nat) :
    allocate a (bytes (2 ^ 61) 8) fresh = some (a.ptr, false, a) := by
  have e1 : alignUp 4 (bytes (2 ^ 61) 8) = 0 := by decide
  unfold allocate
  rw [if_pos h, hk, e1, if_pos (Nat.zero_le _)]
  cases a
  cases hk
  rfl

end Verif.Arena
