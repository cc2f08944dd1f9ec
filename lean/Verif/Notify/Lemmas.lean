import Verif.Notify.Spec
namespace Verif.Notify
open Spec

theorem takeWhile_text {s : List Nat} (h : Text s) : s.takeWhile (· != 0) = s := by
  induction s with
  | nil => rfl
  | cons b s ih =>
    have hb : (b != 0) = true := by simpa using h b (by simp)
    rw [List.takeWhile_cons, if_pos hb, ih fun c hc => h c (by simp [hc])]

theorem copy_text {s : List Nat} (h : Text s) (hl : s.length < pathSize) :
    copy s = s ++ List.replicate (pathSize - s.length) 0 := by
  have : s.take (pathSize - 1) = s := List.take_of_length_le (by omega)
  simp only [copy, takeWhile_text h, this]

theorem takeWhile_nul {s : List Nat} (h : Text s) (t : List Nat) :
    (s ++ 0 :: t).takeWhile (· != 0) = s := by
  induction s with
  | nil => rfl
  | cons b s ih =>
    have hb : (b != 0) = true := by simpa using h b (by simp)
    rw [List.cons_append, List.takeWhile_cons, if_pos hb, ih fun c hc => h c (by simp [hc])]

theorem kernel_path {p t : List Nat} {len b : Nat} (h : p.take len = b :: t) (hb : b ≠ 0) :
    kernel p len = .path ((b :: t).takeWhile (· != 0)) := by
  unfold kernel
  rw [h]
  match b, hb with
  | n + 1, _ => rfl

/-- Whatever the text is, the kernel takes it for a path. -/
theorem destination_path {s : List Nat} (h : Text s) (h0 : s ≠ []) (hl : s.length < pathSize) :
    destination s = some (.path s) := by
  have hne : s.isEmpty = false := by cases s <;> simp_all
  have hd : decide (s.length ≥ pathSize) = false := by simp; omega
  simp only [destination, hne, hd, Bool.or_false, Bool.false_eq_true, if_false, Option.some.injEq]
  rw [copy_text h hl]
  obtain ⟨k, hk⟩ : ∃ k, pathSize - s.length = k + 1 := ⟨pathSize - s.length - 1, by omega⟩
  rw [hk, List.replicate_succ]
  match s, h0 with
  | b :: s, _ =>
    have hb : b ≠ 0 := h b (by simp)
    by_cases h64 : (b :: s).head? = some 64
    · -- a name with `@`
      have ht : (b :: s ++ 0 :: List.replicate k 0).take (pathLen (b :: s)) = b :: s := by
        unfold pathLen
        rw [if_pos h64, List.take_left]
      rw [kernel_path ht hb, takeWhile_text h]
    · have ht : (b :: s ++ 0 :: List.replicate k 0).take (pathLen (b :: s)) = b :: (s ++ [0]) := by
        unfold pathLen
        rw [if_neg h64, takeWhile_text h, List.take_length_add_append]
        rfl
      rw [kernel_path ht hb]
      exact congrArg Address.path (takeWhile_nul h [])

/-! ## Numbers -/

theorem value_from (a : Nat) (ds : List Nat) :
    ds.foldl (fun a b => a * 10 + (b - 48)) a = a * 10 ^ ds.length + value ds := by
  unfold value
  induction ds generalizing a with
  | nil => simp
  | cons d ds ih =>
    rw [List.foldl_cons, ih, List.foldl_cons, ih (0 * 10 + (d - 48)), List.length_cons, Nat.pow_succ]
    simp only [Nat.zero_mul, Nat.zero_add, Nat.add_mul]
    rw [Nat.mul_assoc, Nat.mul_comm 10 (10 ^ ds.length), Nat.add_assoc]

theorem wrapped (a : Nat) (ds : List Nat) :
    ds.foldl (fun a b => (a * 10 + (b - 48)) % 2 ^ 64) (a % 2 ^ 64)
      = ds.foldl (fun a b => a * 10 + (b - 48)) a % 2 ^ 64 := by
  induction ds generalizing a with
  | nil => rfl
  | cons d ds ih =>
    rw [List.foldl_cons, List.foldl_cons, ← ih]
    congr 1
    omega

theorem wrapped_value (ds : List Nat) :
    ds.foldl (fun a b => (a * 10 + (b - 48)) % 2 ^ 64) 0 = value ds % 2 ^ 64 := wrapped 0 ds

/-- A number without zeros in front has at least the power of ten. -/
theorem value_ge {b : Nat} {ds : List Nat} (hb : 49 ≤ b) : 10 ^ ds.length ≤ value (b :: ds) := by
  have := value_from (0 * 10 + (b - 48)) ds
  unfold value
  rw [List.foldl_cons, this]
  have h1 : 1 ≤ 0 * 10 + (b - 48) := by omega
  calc 10 ^ ds.length = 1 * 10 ^ ds.length := (Nat.one_mul _).symm
    _ ≤ (0 * 10 + (b - 48)) * 10 ^ ds.length := Nat.mul_le_mul_right _ h1
    _ ≤ _ := Nat.le_add_right _ _

theorem decimal_short {d : List Nat} {n : Nat} (h : Decimal d n) (hn : n < 2 ^ 64) : d.length ≤ 20 := by
  obtain ⟨⟨h0, hd⟩, hz, hv⟩ := h
  match d, h0 with
  | b :: ds, _ =>
    rcases hz with hz | hz
    · have hb : 49 ≤ b := by
        have := (hd b (by simp)).1
        have : b ≠ 48 := by simpa using hz
        omega
      have hg := value_ge (ds := ds) hb
      refine Decidable.byContradiction fun hl => ?_
      have : 10 ^ 20 ≤ 10 ^ ds.length := Nat.pow_le_pow_right (by omega) (by simp at hl; omega)
      omega
    · simp [hz]

theorem takeWhile_digits {d : List Nat} (h : ∀ b ∈ d, 48 ≤ b ∧ b ≤ 57) (r : List Nat)
    (hr : ∀ b, r.head? = some b → isDigit b = false) : (d ++ r).takeWhile isDigit = d := by
  induction d with
  | nil =>
    cases r with
    | nil => rfl
    | cons b r => simp [hr b rfl]
  | cons b d ih =>
    have hb : isDigit b = true := by
      have := h b (by simp)
      simp [isDigit, this.1, this.2]
    rw [List.cons_append, List.takeWhile_cons, if_pos hb, ih fun c hc => h c (by simp [hc])]

theorem number_decimal {d : List Nat} {n : Nat} (h : Decimal d n) (hn : n < 2 ^ 64) (r : List Nat)
    (hr : ∀ b, r.head? = some b → isDigit b = false) : number (d ++ r) = some (n, r) := by
  have hs := decimal_short h hn
  obtain ⟨⟨h0, hd⟩, -, hv⟩ := h
  have ht : ((d ++ r).takeWhile isDigit).take 20 = d := by
    rw [takeWhile_digits hd r hr, List.take_of_length_le hs]
  have he : d.isEmpty = false := by cases d <;> simp_all
  simp only [number, ht, he, Bool.false_eq_true, if_false, wrapped_value, hv, Nat.mod_eq_of_lt hn, List.drop_left]

theorem takeWhile_all (s : List Nat) : ∀ b ∈ s.takeWhile isDigit, isDigit b = true := by
  induction s with
  | nil => intro b hb; simp at hb
  | cons c s ih =>
    intro b hb
    rw [List.takeWhile_cons] at hb
    split at hb
    · rcases List.mem_cons.mp hb with rfl | hb
      · assumption
      · exact ih b hb
    · cases hb

theorem number_digits {s r : List Nat} {n : Nat} (h : number s = some (n, r)) :
    ∃ d, s = d ++ r ∧ Digits d ∧ n = value d % 2 ^ 64 := by
  unfold number at h
  dsimp only at h
  split at h
  · cases h
  · rename_i he
    simp only [Option.some.injEq, Prod.mk.injEq] at h
    obtain ⟨h1, h2⟩ := h
    refine ⟨(s.takeWhile isDigit).take 20, ?_, ⟨?_, ?_⟩, ?_⟩
    · have hp : ∃ t, (s.takeWhile isDigit).take 20 ++ t = s :=
        (List.take_prefix 20 _).trans (List.takeWhile_prefix isDigit)
      obtain ⟨t, ht⟩ := hp
      rw [← h2]
      conv => lhs; rw [← ht]
      conv => rhs; rhs; rhs; rw [← ht]
      rw [List.drop_left]
    · intro e; simp [e] at he
    · intro b hb
      have := takeWhile_all s b (List.mem_of_mem_take hb)
      simpa [isDigit] using this
    · rw [← h1, wrapped_value]

end Verif.Notify
