import Verif.HashAppend.Spec
namespace Verif.HashAppend
open Spec

/-- All the pieces, one after the other. -/
def flat (same : Bool) : (t : Ty) → Val t → List UInt8
  | .bool, (b : Bool) => [if b then 1 else 0]
  | .int w, (n : Fin (256 ^ w)) => order same (littleEndian w n.val)
  | .real, (n : Fin (256 ^ 8)) => order same (littleEndian 8 (if n.val = 0 ∨ n.val = 2 ^ 63 then 0 else n.val))
  | .unit, _ => order same (littleEndian 4 0)
  | .str, (s : { s : List UInt8 // s.length < 256 ^ 8 }) => s.val ++ size same s.val.length
  | .pair a b, (v : Val a × Val b) => flat same a v.1 ++ flat same b v.2
  | .array n t, (l : { l : List (Val t) // l.length = n + 1 }) => (l.val.map (flat same t)).flatten
  | .vec t, (l : { l : List (Val t) // l.length < 256 ^ 8 }) => (l.val.map (flat same t)).flatten ++ size same l.val.length
  | .set t, (l : { l : List (Val t) // l.length < 256 ^ 8 }) => (l.val.map (flat same t)).flatten ++ size same l.val.length
  | .object name a b, (v : Val a × Val b) => name ++ (flat same a v.1 ++ flat same b v.2)

theorem flat_int (same : Bool) (w : Nat) (v : Val (.int w)) : flat same (.int w) v = order same (littleEndian w (Fin.val (n := 256 ^ w) v)) := rfl
theorem flat_pair (same : Bool) (a b : Ty) (v : Val (.pair a b)) : flat same (.pair a b) v = flat same a v.1 ++ flat same b v.2 := rfl
theorem flat_object (same : Bool) (name : List UInt8) (a b : Ty) (v : Val (.object name a b)) :
    flat same (.object name a b) v = name ++ (flat same a v.1 ++ flat same b v.2) := rfl
theorem flat_array (same : Bool) (n : Nat) (t : Ty) (l : List (Val t)) (h : l.length = n + 1) :
    flat same (.array n t) ⟨l, h⟩ = (l.map (flat same t)).flatten := rfl
theorem flat_vec (same : Bool) (t : Ty) (l : List (Val t)) (h : l.length < 256 ^ 8) :
    flat same (.vec t) ⟨l, h⟩ = (l.map (flat same t)).flatten ++ size same l.length := rfl
theorem flat_set (same : Bool) (t : Ty) (l : List (Val t)) (h : l.length < 256 ^ 8) :
    flat same (.set t) ⟨l, h⟩ = (l.map (flat same t)).flatten ++ size same l.length := rfl
theorem memory_pair (a b : Ty) (v : Val (.pair a b)) (m : List UInt8) : Memory (.pair a b) v m = ∃ x p y q, Memory a v.1 x ∧ Memory b v.2 y ∧
    m = x ++ p ++ y ++ q ∧ p.length = roundUp (sizeof a) (alignof b) - sizeof a ∧ m.length = sizeof (.pair a b) := rfl
theorem memory_array (n : Nat) (t : Ty) (l : List (Val t)) (h : l.length = n + 1) (m : List UInt8) :
    Memory (.array n t) ⟨l, h⟩ m = ∃ ms, List.Forall₂ (Memory t) l ms ∧ m = ms.flatten := rfl
theorem appends_int (same : Bool) (w : Nat) (v : Val (.int w)) (o : List UInt8) : Appends same (.int w) v o =
    if contiguous same (.int w) then Memory (.int w) v o else o = (littleEndian w (Fin.val (n := 256 ^ w) v)).reverse := rfl
theorem appends_pair (same : Bool) (a b : Ty) (v : Val (.pair a b)) (o : List UInt8) : Appends same (.pair a b) v o =
    if contiguous same (.pair a b) then Memory (.pair a b) v o else ∃ x y, Appends same a v.1 x ∧ Appends same b v.2 y ∧ o = x ++ y := rfl
theorem appends_object (same : Bool) (name : List UInt8) (a b : Ty) (v : Val (.object name a b)) (o : List UInt8) :
    Appends same (.object name a b) v o = ∃ x y, Appends same a v.1 x ∧ Appends same b v.2 y ∧ o = name ++ (x ++ y) := rfl

theorem length_le : ∀ w n, (littleEndian w n).length = w
  | 0, _ => rfl
  | w + 1, n => by rw [littleEndian, List.length_cons, length_le w]

theorem le_inj : ∀ w {n m : Nat}, n < 256 ^ w → m < 256 ^ w → littleEndian w n = littleEndian w m → n = m
  | 0, n, m, hn, hm, _ => by simp at hn hm; omega
  | w + 1, n, m, hn, hm, h => by
    rw [littleEndian, littleEndian, List.cons.injEq] at h
    have h1 := congrArg UInt8.toNat h.1
    simp only [UInt8.toNat_ofNat'] at h1
    have h2 := le_inj w (n := n / 256) (m := m / 256) (by rw [Nat.pow_succ] at hn; omega) (by rw [Nat.pow_succ] at hm; omega) h.2
    omega

theorem length_order (same : Bool) (m : List UInt8) : (order same m).length = m.length := by
  unfold order; split <;> simp

theorem order_inj {same : Bool} {m n : List UInt8} (h : order same m = order same n) : m = n := by
  unfold order at h; split at h
  · exact h
  · exact List.reverse_inj.mp h

theorem length_size (same : Bool) (n : Nat) : (size same n).length = 8 := by rw [size, length_order, length_le]

theorem size_inj {same : Bool} {n m : Nat} (hn : n < 256 ^ 8) (hm : m < 256 ^ 8) (h : size same n = size same m) : n = m :=
  le_inj 8 hn hm (order_inj h)

theorem forall2_map {α β : Type} {R : α → β → Prop} {f : α → β} {l : List α} {m : List β} (h : List.Forall₂ R l m) (hR : ∀ a ∈ l, ∀ b, R a b ↔ b = f a) :
    m = l.map f := by
  induction h with
  | nil => rfl
  | cons h _ ih =>
    rw [List.map_cons, (hR _ List.mem_cons_self _).mp h, ih fun a ha => hR a (List.mem_cons_of_mem _ ha)]

theorem map_forall2 {α β : Type} {R : α → β → Prop} {f : α → β} {l : List α} (hR : ∀ a b, R a b ↔ b = f a) : List.Forall₂ R l (l.map f) := by
  induction l with
  | nil => exact .nil
  | cons a l ih => exact .cons ((hR a _).mpr rfl) ih

theorem order_single (same : Bool) (x : List UInt8) (h : x.length = 1) : order same x = x := by
  obtain ⟨a, rfl⟩ := List.length_eq_one_iff.mp h
  cases same <;> rfl

theorem roundUp_ge (n k : Nat) (hk : 0 < k) : n ≤ roundUp n k := by
  unfold roundUp
  have := Nat.div_add_mod (n + k - 1) k
  have := Nat.mod_lt (n + k - 1) hk
  rw [Nat.mul_comm k] at *
  omega

theorem flat_length (t : Ty) (h : unique t = true) : ∀ v, (flat true t v).length = sizeof t := by
  induction t with
  | bool => intro v; rfl
  | int w => intro v; rw [flat_int, length_order, length_le, sizeof]
  | pair a b iha ihb =>
    intro v
    simp only [unique, Bool.and_eq_true, beq_iff_eq] at h
    rw [flat_pair, List.length_append, iha h.1.1, ihb h.1.2, h.2]
  | array n t ih =>
    rintro ⟨l, hl⟩
    simp only [unique, Bool.and_eq_true, beq_iff_eq] at h
    rw [flat_array, sizeof]
    rw [← hl]
    clear hl
    induction l with
    | nil => simp
    | cons x l ihl =>
      rw [List.map_cons, List.flatten_cons, List.length_append, ih h.1, ihl, List.length_cons, Nat.succ_mul, Nat.add_comm]
  | _ => cases h

/-- The memory of a type that is uniquely represented has nothing but the pieces. -/
theorem memory_iff (t : Ty) (h : unique t = true) : ∀ v m, Memory t v m ↔ m = flat true t v := by
  induction t with
  | bool => intro v m; exact Iff.rfl
  | int w => intro v m; exact Iff.rfl
  | pair a b iha ihb =>
    intro v m
    have hu := h
    simp only [unique, Bool.and_eq_true, beq_iff_eq] at h
    obtain ⟨⟨h1, h2⟩, h3⟩ := h
    have la := flat_length a h1 v.1
    have lb := flat_length b h2 v.2
    rw [memory_pair, flat_pair]
    constructor
    · rintro ⟨x, p, y, q, hx, hy, rfl, hp, hm⟩
      rw [iha h1] at hx
      rw [ihb h2] at hy
      subst hx hy
      rw [List.length_append, List.length_append, List.length_append, la, lb, ← h3] at hm
      have : p = [] := List.length_eq_zero_iff.mp (by omega)
      have : q = [] := List.length_eq_zero_iff.mp (by omega)
      subst p q
      simp
    · rintro rfl
      refine ⟨_, [], _, [], (iha h1 _ _).mpr rfl, (ihb h2 _ _).mpr rfl, by simp, ?_, ?_⟩
      · have hq : roundUp (sizeof a) (alignof b) ≤ sizeof a := by
          have e : sizeof a + sizeof b = roundUp (roundUp (sizeof a) (alignof b) + sizeof b) (max (alignof a) (alignof b)) := h3
          by_cases hk : 0 < max (alignof a) (alignof b)
          · have := roundUp_ge (roundUp (sizeof a) (alignof b) + sizeof b) _ hk
            omega
          · have : alignof b = 0 := by omega
            rw [this]; simp [roundUp]
        simp; omega
      · rw [List.length_append, la, lb, h3]
  | array n t ih =>
    rintro ⟨l, hl⟩ m
    simp only [unique, Bool.and_eq_true, beq_iff_eq] at h
    rw [memory_array, flat_array]
    constructor
    · rintro ⟨ms, hms, rfl⟩
      rw [forall2_map hms fun a _ b => ih h.1 a b]
    · rintro rfl
      exact ⟨_, map_forall2 (ih h.1), rfl⟩
  | _ => cases h

theorem flat_single (same : Bool) (t : Ty) (h : unique t = true) (h1 : sizeof t = 1) : ∀ v, flat same t v = flat true t v := by
  cases same with
  | true => intro v; rfl
  | false =>
    induction t with
    | bool => intro v; rfl
    | int w =>
      intro v
      rw [flat_int, flat_int, order_single false _ (by rw [length_le]; exact h1)]; rfl
    | pair a b iha ihb =>
      intro v
      simp only [unique, Bool.and_eq_true, beq_iff_eq] at h
      have e : sizeof a + sizeof b = 1 := h.2.trans h1
      have la := flat_length a h.1.1 v.1
      have lb := flat_length b h.1.2 v.2
      have hz : ∀ (c : Ty), unique c = true → sizeof c = 0 → ∀ x, flat false c x = [] := by
        intro c
        induction c with
        | bool => intro _ h; cases h
        | int w => intro _ h x; cases h; rfl
        | pair a b iha ihb =>
          intro hu h x
          simp only [unique, Bool.and_eq_true, beq_iff_eq] at hu
          have : sizeof a + sizeof b = 0 := hu.2.trans h
          rw [flat_pair, iha hu.1.1 (by omega), ihb hu.1.2 (by omega)]; rfl
        | array n t ih =>
          rintro hu h ⟨l, hl⟩
          simp only [unique, Bool.and_eq_true, beq_iff_eq] at hu
          have hs : sizeof t = 0 := by
            rw [sizeof] at h
            rcases Nat.mul_eq_zero.mp h with h | h
            · omega
            · exact h
          rw [flat_array]
          exact List.flatten_eq_nil_iff.mpr fun x hx => by
            obtain ⟨y, _, rfl⟩ := List.mem_map.mp hx
            exact ih hu.1 hs y
        | _ => intro h; cases h
      rcases Nat.eq_zero_or_pos (sizeof a) with ha | ha
      · rw [flat_pair, flat_pair, hz a h.1.1 ha, ihb h.1.2 (by omega), List.length_eq_zero_iff.mp (la.trans ha)]
      · rw [flat_pair, flat_pair, iha h.1.1 (by omega), hz b h.1.2 (by omega), List.length_eq_zero_iff.mp (lb.trans (by omega))]
    | array n t ih =>
      rintro ⟨l, hl⟩
      simp only [unique, Bool.and_eq_true, beq_iff_eq] at h
      rw [sizeof] at h1
      have hs : sizeof t = 1 := Nat.eq_one_of_mul_eq_one_left h1
      rw [flat_array, flat_array]
      exact congrArg _ (List.map_congr_left fun x _ => ih h.1 hs x)
    | _ => cases h

theorem contiguous_memory {same : Bool} {t : Ty} (h : contiguous same t = true) (v : Val t) (m : List UInt8) : Memory t v m ↔ m = flat same t v := by
  simp only [contiguous, Bool.and_eq_true, Bool.or_eq_true, beq_iff_eq] at h
  rw [memory_iff t h.1]
  rcases h.2 with h2 | rfl
  · rw [flat_single same t h.1 h2]
  · rfl

/-- Either way, the bytes are the pieces. -/
theorem appends_iff (same : Bool) (t : Ty) : ∀ v o, Appends same t v o ↔ o = flat same t v := by
  induction t with
  | bool => intro v o; exact Iff.rfl
  | int w =>
    intro v o
    rw [appends_int]
    split
    · rename_i h; exact contiguous_memory h v o
    · rename_i h
      have : same = false := by
        cases same with
        | false => rfl
        | true => simp [contiguous, unique] at h
      subst this
      rfl
  | real => intro v o; exact Iff.rfl
  | unit => intro v o; exact Iff.rfl
  | str => intro v o; exact Iff.rfl
  | pair a b iha ihb =>
    intro v o
    rw [appends_pair]
    split
    · rename_i h; exact contiguous_memory h v o
    · rw [flat_pair]
      simp only [iha, ihb]
      constructor
      · rintro ⟨x, y, rfl, rfl, rfl⟩; rfl
      · rintro rfl; exact ⟨_, _, rfl, rfl, rfl⟩
  | object name a b iha ihb =>
    intro v o
    rw [appends_object, flat_object]
    simp only [iha, ihb]
    constructor
    · rintro ⟨x, y, rfl, rfl, rfl⟩; rfl
    · rintro rfl; exact ⟨_, _, rfl, rfl, rfl⟩
  | array n t ih =>
    rintro ⟨l, hl⟩ o
    rw [Appends]
    split
    · rename_i h; exact contiguous_memory h _ o
    · rw [flat]
      constructor
      · rintro ⟨ms, hms, rfl⟩
        rw [forall2_map hms fun a _ b => ih a b]
      · rintro rfl
        exact ⟨_, map_forall2 ih, rfl⟩
  | vec t ih =>
    rintro ⟨l, hl⟩ o
    rw [Appends, flat]
    split
    · rename_i h
      constructor
      · rintro ⟨ms, hms, rfl⟩
        rw [forall2_map hms fun a _ b => contiguous_memory h a b]
      · rintro rfl
        exact ⟨_, map_forall2 (contiguous_memory h), rfl⟩
    · constructor
      · rintro ⟨ms, hms, rfl⟩
        rw [forall2_map hms fun a _ b => ih a b]
      · rintro rfl
        exact ⟨_, map_forall2 ih, rfl⟩
  | set t ih =>
    rintro ⟨l, hl⟩ o
    rw [Appends, flat]
    constructor
    · rintro ⟨ms, hms, rfl⟩
      rw [forall2_map hms fun a _ b => ih a b]
    · rintro rfl
      exact ⟨_, map_forall2 ih, rfl⟩

theorem flat_list {same : Bool} {t : Ty} (ih : ∀ v w, Same t v w → flat same t v = flat same t w) {l r : List (Val t)} (h : List.Forall₂ (Same t) l r) :
    l.map (flat same t) = r.map (flat same t) := by
  induction h with
  | nil => rfl
  | cons h _ ihl => rw [List.map_cons, List.map_cons, ih _ _ h, ihl]

/-- Equal values have equal pieces. -/
theorem flat_same (same : Bool) (t : Ty) : ∀ v w, Same t v w → flat same t v = flat same t w := by
  induction t with
  | bool => rintro v w rfl; rfl
  | int _ => rintro v w rfl; rfl
  | real =>
    rintro v w h
    simp only [flat]
    rcases h with rfl | ⟨h1, h2⟩ | ⟨h1, h2⟩
    · rfl
    · rw [if_pos (.inl h1), if_pos (.inr h2)]
    · rw [if_pos (.inr h1), if_pos (.inl h2)]
  | unit => intros; rfl
  | str =>
    rintro ⟨v, _⟩ ⟨w, _⟩ h
    have : v = w := h
    subst this; rfl
  | pair a b iha ihb => rintro v w ⟨h1, h2⟩; rw [flat_pair, flat_pair, iha _ _ h1, ihb _ _ h2]
  | object name a b iha ihb => rintro v w ⟨h1, h2⟩; rw [flat_object, flat_object, iha _ _ h1, ihb _ _ h2]
  | array n t ih => rintro ⟨v, _⟩ ⟨w, _⟩ h; rw [flat, flat, flat_list ih h]
  | vec t ih => rintro ⟨v, _⟩ ⟨w, _⟩ h; rw [flat, flat, flat_list ih h, List.Forall₂.length_eq h]
  | set t ih => rintro ⟨v, _⟩ ⟨w, _⟩ h; rw [flat, flat, flat_list ih h, List.Forall₂.length_eq h]

theorem flat_list_inj {same : Bool} {t : Ty} (ih : ∀ v w p q, p ++ flat same t v = q ++ flat same t w → Same t v w ∧ p = q) :
    ∀ (l r : List (Val t)) p q, l.length = r.length → p ++ (l.map (flat same t)).flatten = q ++ (r.map (flat same t)).flatten →
      List.Forall₂ (Same t) l r ∧ p = q
  | [], [], p, q, _, h => ⟨.nil, by simpa using h⟩
  | x :: l, y :: r, p, q, hl, h => by
    rw [List.map_cons, List.map_cons, List.flatten_cons, List.flatten_cons, ← List.append_assoc, ← List.append_assoc] at h
    obtain ⟨h1, h2⟩ := flat_list_inj ih l r _ _ (by simpa using hl) h
    obtain ⟨h3, h4⟩ := ih _ _ _ _ h2
    exact ⟨.cons h3 h1, h4⟩

/-- The pieces are read from the end: after anything, different values have different pieces. -/
theorem flat_inj (same : Bool) (t : Ty) : ∀ v w p q, p ++ flat same t v = q ++ flat same t w → Same t v w ∧ p = q := by
  induction t with
  | bool =>
    intro v w p q h
    obtain ⟨h1, h2⟩ := List.append_inj' h rfl
    refine ⟨?_, h1⟩
    cases v <;> cases w <;> first | rfl | (simp [flat] at h2)
  | int k =>
    intro v w p q h
    obtain ⟨h1, h2⟩ := List.append_inj' h (by simp only [flat, length_order, length_le])
    exact ⟨Fin.ext (le_inj k v.isLt w.isLt (order_inj h2)), h1⟩
  | real =>
    intro v w p q h
    obtain ⟨h1, h2⟩ := List.append_inj' h (by simp only [flat, length_order, length_le])
    refine ⟨?_, h1⟩
    have hv := v.isLt
    have hw := w.isLt
    have := le_inj 8 (by split <;> omega) (by split <;> omega) (order_inj h2)
    split at this <;> split at this
    · rename_i a b
      rcases a with a | a <;> rcases b with b | b
      · exact .inl (Fin.ext (a.trans b.symm))
      · exact .inr (.inl ⟨a, b⟩)
      · exact .inr (.inr ⟨a, b⟩)
      · exact .inl (Fin.ext (a.trans b.symm))
    · rename_i a b; exact absurd (.inl this.symm) b
    · rename_i a b; exact absurd (.inl this) a
    · exact .inl (Fin.ext this)
  | unit =>
    intro v w p q h
    exact ⟨trivial, (List.append_inj' h rfl).1⟩
  | str =>
    rintro ⟨v, hv⟩ ⟨w, hw⟩ p q h
    simp only [flat, ← List.append_assoc] at h
    obtain ⟨h1, h2⟩ := List.append_inj' h (by simp only [length_size])
    have := size_inj hv hw h2
    obtain ⟨h3, h4⟩ := List.append_inj' h1 this
    exact ⟨h4, h3⟩
  | pair a b iha ihb =>
    intro v w p q h
    simp only [flat, ← List.append_assoc] at h
    obtain ⟨h1, h2⟩ := ihb _ _ _ _ h
    obtain ⟨h3, h4⟩ := iha _ _ _ _ h2
    exact ⟨⟨h3, h1⟩, h4⟩
  | object name a b iha ihb =>
    intro v w p q h
    simp only [flat, ← List.append_assoc] at h
    obtain ⟨h1, h2⟩ := ihb _ _ _ _ h
    obtain ⟨h3, h4⟩ := iha _ _ _ _ h2
    exact ⟨⟨h3, h1⟩, List.append_cancel_right h4⟩
  | array n t ih =>
    rintro ⟨v, hv⟩ ⟨w, hw⟩ p q h
    exact flat_list_inj ih v w p q (hv.trans hw.symm) h
  | vec t ih =>
    rintro ⟨v, hv⟩ ⟨w, hw⟩ p q h
    simp only [flat, ← List.append_assoc] at h
    obtain ⟨h1, h2⟩ := List.append_inj' h (by simp only [length_size])
    exact flat_list_inj ih v w p q (size_inj hv hw h2) h1
  | set t ih =>
    rintro ⟨v, hv⟩ ⟨w, hw⟩ p q h
    simp only [flat, ← List.append_assoc] at h
    obtain ⟨h1, h2⟩ := List.append_inj' h (by simp only [length_size])
    exact flat_list_inj ih v w p q (size_inj hv hw h2) h1

end Verif.HashAppend
