import Verif.Uri.Spec
import Verif.Client.Lemmas
import Verif.Escape.Props
/-!
Auxiliary facts about identifiers.
-/
namespace Verif.Uri
open Verif.Data Verif.DataText

theorem takeWhile_run {p : UInt8 → Bool} {x r : Str} (h : ∀ b ∈ x, p b = true) (hr : headNot p r = true) :
    (x ++ r).takeWhile p = x ∧ (x ++ r).dropWhile p = r := by
  induction x with
  | nil =>
    cases r with
    | nil => exact ⟨rfl, rfl⟩
    | cons b r =>
      have : p b = false := by simpa [headNot] using hr
      simp [this]
  | cons a x ih =>
    obtain ⟨h1, h2⟩ := ih fun b hb => h b (List.mem_cons_of_mem _ hb)
    have ha := h a List.mem_cons_self
    simp [ha, h1, h2]

theorem unreserved_iff (b : UInt8) : Escape.isUnreserved b = true ↔ Spec.Unreserved b := by
  simp only [Escape.isUnreserved, Spec.Unreserved, Bool.or_eq_true, decide_eq_true_eq, beq_iff_eq]
  constructor
  · intro h; rcases h with (((h | h) | h) | h) | h
    · rcases h with h | h | h
      · exact .inl h
      · exact .inr (.inl h)
      · exact .inr (.inr (.inl h))
    · simp [h]
    · simp [h]
    · simp [h]
    · simp [h]
  · intro h; rcases h with h | h | h | h | h | h | h <;> simp [h]

theorem escape_unreserved {s : Str} (h : ∀ b ∈ s, Spec.Unreserved b) : Escape.percentEscape s = s := by
  induction s with
  | nil => rfl
  | cons b s ih =>
    have hb := (unreserved_iff b).2 (h b List.mem_cons_self)
    have := ih fun x hx => h x (List.mem_cons_of_mem _ hx)
    simp only [Escape.percentEscape] at this ⊢
    simp only [Escape.escape, Escape.percentEscaper, hb, if_true, this]
    rfl

/-- What escaping gives: unreserved bytes and percent signs. -/
theorem escape_chars (s : Str) : ∀ b ∈ Escape.percentEscape s, Spec.Unreserved b ∨ b = 37 := by
  intro b hb
  have := Escape.C59_percent s b hb
  unfold Escape.Spec.UriChar at this
  simp only [List.mem_cons, List.not_mem_nil, or_false] at this
  simp only [Spec.Unreserved]
  rcases this with h | h | h | h | h | h | h | h <;> simp [h]

theorem unescape_escape (s : Str) : unescape (Escape.percentEscape s) = s := by
  unfold unescape
  rw [Escape.C46_percent]; rfl

theorem printable_iff (b : UInt8) : Escape.isPrint b = true ↔ Spec.Printable b := by simp [Escape.isPrint, Spec.Printable]

theorem byte_ne {b c : UInt8} (h : b.toNat ≠ c.toNat) : b ≠ c := fun e => h (by rw [e])

theorem unreserved_print {b : UInt8} (h : Spec.Unreserved b) :
    Escape.isPrint b = true ∧ b ≠ 58 ∧ b ≠ 47 ∧ b ≠ 63 ∧ b ≠ 35 ∧ b ≠ 37 ∧ b ≠ 32 ∧ b ≠ 61 ∧ b ≠ 38 ∧ b ≠ 43 := by
  rw [printable_iff]
  rcases h with h | h | h | h | h | h | h
  · refine ⟨⟨by omega, by omega⟩, ?_, ?_, ?_, ?_, ?_, ?_, ?_, ?_, ?_⟩ <;> (apply byte_ne; intro e; simp at e; omega)
  · refine ⟨⟨by omega, by omega⟩, ?_, ?_, ?_, ?_, ?_, ?_, ?_, ?_, ?_⟩ <;> (apply byte_ne; intro e; simp at e; omega)
  · refine ⟨⟨by omega, by omega⟩, ?_, ?_, ?_, ?_, ?_, ?_, ?_, ?_, ?_⟩ <;> (apply byte_ne; intro e; simp at e; omega)
  all_goals subst h; unfold Spec.Printable; decide

theorem escaped_print (s : Str) : ∀ b ∈ Escape.percentEscape s,
    Escape.isPrint b = true ∧ b ≠ 35 ∧ b ≠ 32 ∧ b ≠ 61 ∧ b ≠ 38 ∧ b ≠ 43 := by
  intro b hb
  rcases escape_chars s b hb with h | h
  · obtain ⟨h1, h2, h3, h4, h5, h6, h7, h8, h9, h10⟩ := unreserved_print h
    exact ⟨h1, h5, h7, h8, h9, h10⟩
  · subst h; decide

theorem escape_ne_nil {s : Str} (h : s ≠ []) : Escape.percentEscape s ≠ [] := by
  intro e
  have := unescape_escape s
  rw [e] at this
  exact h (by rw [← this]; rfl)

theorem join_cons (c : UInt8) (x : Str) (xs : List Str) : join [c] (x :: xs) = x ++ xs.flatMap (c :: ·) := by
  induction xs generalizing x with
  | nil => simp [join]
  | cons y ys ih => rw [join, ih]; simp

theorem schemeP_some {x r : Str} (h : ∀ b ∈ x, Spec.Printable b ∧ b ≠ 58 ∧ b ≠ 47) : schemeP (x ++ 58 :: r) = (x, r) := by
  have hx : ∀ b ∈ x, schemeChar b = true := by
    intro b hb
    obtain ⟨h1, h2, h3⟩ := h b hb
    simp [schemeChar, (printable_iff b).2 h1, h2, h3]
  obtain ⟨h1, h2⟩ := takeWhile_run (r := 58 :: r) hx (by simp [headNot, schemeChar])
  unfold schemeP
  rw [h2, h1]
  rfl

theorem schemeP_none (r : Str) : schemeP (47 :: r) = ([], 47 :: r) := by
  unfold schemeP
  rw [List.dropWhile_cons_of_neg (by decide)]
  rfl

theorem hostP_some {x r : Str} (h : ∀ b ∈ x, Spec.Unreserved b) (hr : headNot schemeChar r = true) : hostP (47 :: 47 :: (x ++ r)) = (x, r) := by
  have hx : ∀ b ∈ x, schemeChar b = true := by
    intro b hb
    obtain ⟨h1, h2, h3, _⟩ := unreserved_print (h b hb)
    simp [schemeChar, h1, h2, h3]
  obtain ⟨h1, h2⟩ := takeWhile_run (r := r) hx hr
  unfold hostP
  simp only [h1, h2]

theorem hostP_none {r : Str} (h : r.head? ≠ some 47) : hostP (47 :: r) = ([], 47 :: r) := by
  unfold hostP
  split
  · rename_i e; cases e; exact absurd rfl h
  · rfl

theorem hostP_colon (r : Str) : hostP (58 :: r) = ([], 58 :: r) := rfl

theorem portP_some {n : Nat} (h : n < 2 ^ 16) (r : Str) (hr : headNot isDigit r = true) : portP (58 :: (printNat n ++ r)) = (n, r) := by
  have : uintP 16 5 1 (printNat n ++ r) = some (n, r) := by
    rw [printNat_eq]
    unfold uintP
    rw [takeDigits_all 5 _ (digits_lt n) (digits_length 5 n (by decide) (by omega)) r hr]
    have hne : 1 ≤ (digits n).length := by
      unfold digits
      split
      · decide
      · rename_i h0
        have hv := value_digits n
        unfold digits at hv
        rw [if_neg h0] at hv
        cases hd : posDigits n with
        | nil => rw [hd] at hv; exact absurd hv.symm h0
        | cons _ _ => simp
    rw [if_pos hne, value_digits, Nat.mod_eq_of_lt h]
  unfold portP
  simp only [this]

theorem portP_none (r : Str) : portP (47 :: r) = (0, 47 :: r) := rfl

theorem pathP_segments : ∀ (xs : List Str) (x : Str) (fuel : Nat) (r : Str), xs.length < fuel →
    (∀ y ∈ x :: xs, ∀ b ∈ y, Spec.Printable b ∧ b ≠ 47 ∧ b ≠ 63 ∧ b ≠ 35 ∧ b ≠ 37 ∧ b ≠ 32) →
    headNot pathChar r = true → r.head? ≠ some 47 →
    pathP fuel (x ++ (xs.flatMap (47 :: ·) ++ r)) = (x :: xs, r) := by
  have char {y : Str} (h : ∀ b ∈ y, Spec.Printable b ∧ b ≠ 47 ∧ b ≠ 63 ∧ b ≠ 35 ∧ b ≠ 37 ∧ b ≠ 32) : ∀ b ∈ y, pathChar b = true := by
    intro b hb
    obtain ⟨h1, h2, h3, h4, _, h6⟩ := h b hb
    simp [pathChar, (printable_iff b).2 h1, h2, h3, h4, h6]
  have plain {y : Str} (h : ∀ b ∈ y, Spec.Printable b ∧ b ≠ 47 ∧ b ≠ 63 ∧ b ≠ 35 ∧ b ≠ 37 ∧ b ≠ 32) : unescape y = y := by
    have : Escape.percentUnescape y = some y := by
      unfold Escape.percentUnescape Escape.unescape
      have : ∀ (z acc : Str), (∀ b ∈ z, b ≠ 37) → Escape.run Escape.percentUnescaper z.length acc z = some (acc ++ z) := by
        intro z
        induction z with
        | nil => intro acc _; simp [Escape.run]
        | cons b z ih =>
          intro acc hz
          have hb : b ≠ Escape.percent := hz b List.mem_cons_self
          simp only [List.length_cons, Escape.run, Escape.percentUnescaper, hb, ne_eq, not_false_eq_true, if_true]
          rw [ih _ fun c hc => hz c (List.mem_cons_of_mem _ hc)]
          simp
      exact this y [] fun b hb => (h b hb).2.2.2.2.1
    unfold unescape; rw [this]; rfl
  intro xs
  induction xs with
  | nil =>
    intro x fuel r hf h hr hr'
    obtain ⟨fuel, rfl⟩ : ∃ f, fuel = f + 1 := ⟨fuel - 1, by have : 0 < fuel := hf; omega⟩
    have hx := h x List.mem_cons_self
    obtain ⟨h1, h2⟩ := takeWhile_run (r := r) (char hx) hr
    simp only [List.flatMap_nil, List.nil_append]
    unfold pathP
    rw [h1, h2, plain hx]
    split
    · exact absurd rfl hr'
    · rfl
  | cons y ys ih =>
    intro x fuel r hf h hr hr'
    obtain ⟨fuel, rfl⟩ : ∃ f, fuel = f + 1 := ⟨fuel - 1, by simp at hf; omega⟩
    have hx := h x List.mem_cons_self
    have := ih y fuel r (by simp at hf; omega) (fun z hz => h z (List.mem_cons_of_mem _ hz)) hr hr'
    obtain ⟨h1, h2⟩ := takeWhile_run (r := 47 :: (y ++ (ys.flatMap (47 :: ·) ++ r))) (char hx) (by simp [headNot, pathChar])
    have e : (x ++ ((y :: ys).flatMap (47 :: ·) ++ r)) = x ++ 47 :: (y ++ (ys.flatMap (47 :: ·) ++ r)) := by simp
    rw [e]
    unfold pathP
    rw [h1, h2, plain hx]
    simp only [this]

theorem pairP_some {kv : Str × Str} (h : kv.1 ≠ [] ∧ kv.2 ≠ []) {r : Str} (hr : headNot valueChar r = true) :
    pairP (printPair kv ++ r) = some (kv, r) := by
  have hk : ∀ b ∈ Escape.percentEscape kv.1, keyChar b = true := by
    intro b hb
    obtain ⟨h1, h2, h3, h4, h5, h6⟩ := escaped_print _ b hb
    simp [keyChar, h1, h4]
  have hv : ∀ b ∈ Escape.percentEscape kv.2, valueChar b = true := by
    intro b hb
    obtain ⟨h1, h2, h3, h4, h5, h6⟩ := escaped_print _ b hb
    simp [valueChar, h1, h2, h3, h5]
  have hq : queryUnescape (Escape.percentEscape kv.2) = kv.2 := by
    unfold queryUnescape
    have : (Escape.percentEscape kv.2).map (fun b => if b = 43 then 32 else b) = Escape.percentEscape kv.2 := by
      conv => rhs; rw [← List.map_id (Escape.percentEscape kv.2)]
      apply List.map_congr_left
      intro b hb
      rw [if_neg (escaped_print _ b hb).2.2.2.2.2]; rfl
    rw [this, unescape_escape]
  obtain ⟨h1, h2⟩ := takeWhile_run (r := 61 :: (Escape.percentEscape kv.2 ++ r)) hk (by simp [headNot, keyChar])
  obtain ⟨h3, h4⟩ := takeWhile_run (r := r) hv hr
  have e : printPair kv ++ r = Escape.percentEscape kv.1 ++ 61 :: (Escape.percentEscape kv.2 ++ r) := by simp [printPair]
  unfold pairP
  rw [e, h1, h2, if_neg (escape_ne_nil h.1)]
  simp only [h3, h4, if_neg (escape_ne_nil h.2), hq, unescape_escape]

theorem insert_last {x : Str × Str} {q : List (Str × Str)} (h : ∀ y ∈ q, y.1 < x.1) : insert x q = q ++ [x] := by
  induction q with
  | nil => rfl
  | cons y ys ih =>
    have hy := h y List.mem_cons_self
    have : ¬ x.1 < y.1 := fun e => List.lt_irrefl _ (List.lt_trans hy e)
    rw [insert, if_neg this, if_pos hy, ih fun z hz => h z (List.mem_cons_of_mem _ hz)]; rfl

theorem pairsP_some : ∀ (kvs q : List (Str × Str)) (fuel : Nat) (r : Str), kvs.length ≤ fuel →
    (q ++ kvs).Pairwise (fun a b => a.1 < b.1) → (∀ kv ∈ kvs, kv.1 ≠ [] ∧ kv.2 ≠ []) →
    headNot valueChar r = true → r.head? ≠ some 38 →
    pairsP fuel q ((kvs.map printPair).flatMap (38 :: ·) ++ r) = (q ++ kvs, r) := by
  intro kvs
  induction kvs with
  | nil =>
    intro q fuel r _ _ _ hr hr'
    simp only [List.map_nil, List.flatMap_nil, List.nil_append, List.append_nil]
    cases fuel with
    | zero => rfl
    | succ fuel =>
      unfold pairsP
      split
      · exact absurd rfl hr'
      · rfl
  | cons kv kvs ih =>
    intro q fuel r hf hp hk hr hr'
    obtain ⟨fuel, rfl⟩ : ∃ f, fuel = f + 1 := ⟨fuel - 1, by simp at hf; omega⟩
    have e : ((kv :: kvs).map printPair).flatMap (38 :: ·) ++ r = 38 :: (printPair kv ++ ((kvs.map printPair).flatMap (38 :: ·) ++ r)) := by simp
    have hh : headNot valueChar ((kvs.map printPair).flatMap (38 :: ·) ++ r) = true := by
      cases kvs with
      | nil => simpa using hr
      | cons a b => simp [headNot, valueChar]
    have hlast : ∀ y ∈ q, y.1 < kv.1 := fun y hy => (List.pairwise_append.1 hp).2.2 y hy kv List.mem_cons_self
    have := ih (q ++ [kv]) fuel r (by simp at hf; omega) (by simpa using hp) (fun x hx => hk x (List.mem_cons_of_mem _ hx)) hr hr'
    rw [e]
    unfold pairsP
    simp only [pairP_some (hk kv List.mem_cons_self) hh, insert_last hlast, this]
    simp

end Verif.Uri
