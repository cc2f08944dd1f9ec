import Verif.Broker.Numbers
/-!
Reading values: what is written is read, and what is read was written.
-/
namespace Verif.Broker
open Verif.Data Verif.Calendar Spec

@[simp] theorem header_length (type sub : Nat) (p : UInt8) : (header type sub p).length = 9 := by simp [header]

/-- A value with its header. -/
theorem value_header (limit n type sub : Nat) (p : UInt8) (r : Bytes) (h1 : type < 2 ^ 32) (h2 : sub < 2 ^ 32) :
    value limit (n + 1) (header type sub p ++ r) = if p == 1 then payload limit (value limit n) (Tag.of (signed 4 type)) r else .ok .none r := by
  rw [header, value, List.append_assoc, List.append_assoc, intE_big type _ h1, Out.bind, intE_big sub _ h2, Out.bind]
  rfl

/-- A value that is there. -/
theorem value_tag (t : Tag) (limit n type sub : Nat) (r : Bytes) (ht : Tag.all[type]? = some t) (h2 : sub < 2 ^ 32) :
    value limit (n + 1) (header type sub 1 ++ r) = payload limit (value limit n) (some t) r := by
  have hl : type < 26 := by
    rcases Nat.lt_or_ge type Tag.all.length with h | h
    · exact h
    · rw [List.getElem?_eq_none h] at ht; cases ht
  rw [value_header _ _ _ _ _ _ (by omega) h2, if_pos (by decide)]
  congr 1
  rw [signed, if_pos (by norm_num; omega), Tag.of, if_pos (by omega), Int.toNat_natCast, ht]

theorem shows_length {loose : Prop} {b : Bytes} {d : Data} (h : Shows loose b d) : 9 ≤ b.length := by
  cases h <;> simp

theorem showsAll_length {loose : Prop} {bs : Bytes} {xs : List Data} (h : ShowsAll loose bs xs) : 9 * xs.length ≤ bs.length := by
  induction xs generalizing bs with
  | nil => simp
  | cons x xs ih =>
    cases h with
    | cons b bs _ _ h1 h2 =>
      have := shows_length h1
      have := ih h2
      simp
      omega

theorem shows_value {limit : Nat} {b : Bytes} {d : Data} (h : Shows False b d) : ∀ n r, b.length ≤ n → b.length ≤ limit →
    ∃ d', value limit n (b ++ r) = .ok d' r ∧ Shows False b d' ∧ Near d d' := by
  refine Shows.rec (loose := False)
    (motive_1 := fun b d _ => ∀ n r, b.length ≤ n → b.length ≤ limit → ∃ d', value limit n (b ++ r) = .ok d' r ∧ Shows False b d' ∧ Near d d')
    (motive_2 := fun bs xs _ => ∀ n r, bs.length ≤ n → bs.length ≤ limit →
      ∃ xs', loop (value limit n) xs.length (bs ++ r) = .ok xs' r ∧ ShowsAll False bs xs' ∧ List.Forall₂ Near xs xs')
    ?_ ?_ ?_ ?_ ?_ ?_ ?_ ?_ ?_ ?_ ?_ ?_ ?_ ?_ ?_ h
  · intro type sub p h1 h2 h3 n r hn _
    obtain ⟨n, rfl⟩ : ∃ m, n = m + 1 := ⟨n - 1, by simp at hn; omega⟩
    refine ⟨.none, ?_, .absent type sub p h1 h2 h3, .refl _⟩
    rw [value_header _ _ _ _ _ _ h1 h2, if_neg (by simpa using h3)]
  · intro sub k h1 h2 n r hn _
    obtain ⟨n, rfl⟩ : ∃ m, n = m + 1 := ⟨n - 1, by simp at hn; omega⟩
    refine ⟨_, ?_, .bool sub k h1 h2, .refl _⟩
    rw [List.append_assoc, value_tag .bool _ _ _ _ _ rfl h1]
    simp only [payload]
    rw [longE_big k r h2]
    show Out.ok _ _ = _
    congr 2
    have := signed_zero h2
    by_cases hk : k = 0
    · rw [this.mpr hk]; simp [hk]
    · simp [hk, mt this.mp hk]
  · intro sub k i h1 h2 h3 h4 h5 n r hn _
    obtain ⟨n, rfl⟩ : ∃ m, n = m + 1 := ⟨n - 1, by simp at hn; omega⟩
    refine ⟨_, ?_, .int sub k i h1 h2 h3 h4 h5, .refl _⟩
    rw [List.append_assoc, value_tag .int _ _ _ _ _ rfl h1]
    simp only [payload]
    rw [longE_big k r h2, signed_mod h3 h4 h5]
    rfl
  · intro type sub k h0 h1 h2 n r hn _
    obtain ⟨n, rfl⟩ : ∃ m, n = m + 1 := ⟨n - 1, by simp at hn; omega⟩
    refine ⟨_, ?_, .count type sub k h0 h1 h2, .refl _⟩
    rw [List.append_assoc]
    rcases h0 with rfl | rfl
    on_goal 1 => rw [value_tag .count _ _ _ _ _ rfl h1]
    on_goal 2 => rw [value_tag .counter _ _ _ _ _ rfl h1]
    all_goals
      simp only [payload]
      rw [uintE_big 8 k r (by norm_num at *; omega)]
      rfl
  · intro sub k p h1 h2 h3 n r hn _
    obtain ⟨n, rfl⟩ : ∃ m, n = m + 1 := ⟨n - 1, by simp at hn; omega⟩
    refine ⟨_, ?_, .port sub k p h1 h2 h3, .refl _⟩
    rw [List.append_assoc, List.append_assoc, value_tag .port _ _ _ _ _ rfl h1]
    simp only [payload]
    rw [uintE_big 8 k _ (by norm_num at *; omega)]
    rw [Out.bind]
    rw [intE_big p r h3]
    rfl
  · intro sub bs a h1 h2 n r hn _
    obtain ⟨n, rfl⟩ : ∃ m, n = m + 1 := ⟨n - 1, by simp at hn; omega⟩
    refine ⟨_, ?_, .addr sub bs a h1 h2, .refl _⟩
    rw [List.append_assoc, value_tag .addr _ _ _ _ _ rfl h1]
    simp only [payload]
    rw [addrE_addr h2]
    rfl
  · intro sub k bs a s h1 h2 h3 n r hn _
    obtain ⟨n, rfl⟩ : ∃ m, n = m + 1 := ⟨n - 1, by simp at hn; omega⟩
    refine ⟨_, ?_, .subnet sub k bs a s h1 h2 h3, .refl _⟩
    rw [List.append_assoc, value_tag .subnet _ _ _ _ _ rfl h1]
    have e : k :: bs ++ r = big 1 k.toNat ++ (bs ++ r) := by
      simp [big, Nat.mod_eq_of_lt k.toNat_lt]
    rw [e]
    simp only [payload]
    rw [uintE_big 1 _ _ (by simpa using k.toNat_lt)]
    simp only [Out.bind]
    rw [addrE_addr h2]
    show Out.ok _ _ = _
    rw [net_make h3]
  · intro sub k bs a h
    exact h.elim
  · intro sub k x h1 h2 n r hn _
    obtain ⟨n, rfl⟩ : ∃ m, n = m + 1 := ⟨n - 1, by simp at hn; omega⟩
    refine ⟨_, ?_, .double sub k x h1 h2, .refl _⟩
    rw [List.append_assoc, value_tag .double _ _ _ _ _ rfl h1]
    simp only [payload]
    rw [doubleE, uintE_big 8 k r (by have := double_lt h2; norm_num at *; omega)]
    show Out.ok (Data.real (ieee k)) r = _
    rw [ieee_double h2]
  · intro sub k q t h1 h2 h3 n r hn _
    obtain ⟨n, rfl⟩ : ∃ m, n = m + 1 := ⟨n - 1, by simp at hn; omega⟩
    obtain ⟨u, hu, hs⟩ := nanoseconds_some (q := q) (h3.2.resolve_right id)
    refine ⟨_, ?_, .time sub k q u h1 h2 hs, .time _ _⟩
    rw [List.append_assoc, value_tag .time _ _ _ _ _ rfl h1]
    simp only [payload]
    rw [doubleE, uintE_big 8 k r (by have := double_lt h2; norm_num at *; omega)]
    show timed Data.time (ieee k) r = _
    rw [ieee_double h2, timed, hu]
  · intro sub k q t h1 h2 h3 n r hn _
    obtain ⟨n, rfl⟩ : ∃ m, n = m + 1 := ⟨n - 1, by simp at hn; omega⟩
    obtain ⟨u, hu, hs⟩ := nanoseconds_some (q := q) (h3.2.resolve_right id)
    refine ⟨_, ?_, .interval sub k q u h1 h2 hs, .duration _ _⟩
    rw [List.append_assoc, value_tag .interval _ _ _ _ _ rfl h1]
    simp only [payload]
    rw [doubleE, uintE_big 8 k r (by have := double_lt h2; norm_num at *; omega)]
    show timed Data.duration (ieee k) r = _
    rw [ieee_double h2, timed, hu]
  · intro type sub s h0 h1 h2 n r hn _
    obtain ⟨n, rfl⟩ : ∃ m, n = m + 1 := ⟨n - 1, by simp at hn; omega⟩
    refine ⟨_, ?_, .text type sub s h0 h1 h2, .refl _⟩
    rw [List.append_assoc, List.append_assoc]
    have e : stringE (big 4 s.length ++ (s ++ r)) = .ok s r := by
      rw [stringE, uintE_big 4 _ _ (by norm_num; omega), Out.bind, if_neg (by simp)]
      simp
    simp only [List.mem_cons, List.not_mem_nil, or_false] at h0
    rcases h0 with rfl | rfl | rfl | rfl
    on_goal 1 => rw [value_tag .string _ _ _ _ _ rfl h1]
    on_goal 2 => rw [value_tag .enum _ _ _ _ _ rfl h1]
    on_goal 3 => rw [value_tag .func _ _ _ _ _ rfl h1]
    on_goal 4 => rw [value_tag .file _ _ _ _ _ rfl h1]
    all_goals
      simp only [payload]
      rw [e]
      rfl
  · intro type sub bs xs h0 h1 h2 h3 ih n r hn hl
    obtain ⟨n, rfl⟩ : ∃ m, n = m + 1 := ⟨n - 1, by simp at hn; omega⟩
    have hx := showsAll_length h3
    simp only [List.length_append, header_length, big_length] at hn hl
    obtain ⟨xs', e, hs, hf⟩ := ih n r (by omega) (by omega)
    have hlen := hf.length_eq
    refine ⟨.list xs', ?_, ?_, .list _ _ hf⟩
    · rw [List.append_assoc, List.append_assoc]
      have e8 : signed 8 xs.length = xs.length := signed_mod (by omega) (by norm_num at *; omega) (by norm_num at *; omega)
      rcases h0 with rfl | rfl
      on_goal 1 => rw [value_tag .table _ _ _ _ _ rfl h1]
      on_goal 2 => rw [value_tag .vector _ _ _ _ _ rfl h1]
      all_goals
        simp only [payload]
        rw [longE_big _ _ (by norm_num at *; omega), e8, Out.bind, if_neg (by omega), Int.toNat_natCast, e]
        rfl
    · rw [hlen]
      exact .list type sub bs xs' h0 h1 (by omega) hs
  · intro n r _ _
    exact ⟨[], rfl, .nil, .nil⟩
  · intro b bs x xs _ _ ih1 ih2 n r hn hl
    simp only [List.length_append] at hn hl
    obtain ⟨x', e1, s1, n1⟩ := ih1 n (bs ++ r) (by omega) (by omega)
    obtain ⟨xs', e2, s2, n2⟩ := ih2 n r (by omega) (by omega)
    refine ⟨x' :: xs', ?_, .cons b bs x' xs' s1 s2, .cons n1 n2⟩
    rw [List.length_cons, loop, List.append_assoc, e1, Out.bind, e2]
    rfl

theorem showsAll_loop {limit : Nat} {bs : Bytes} {xs : List Data} (h : ShowsAll False bs xs) (n : Nat) (r : Bytes) (hn : bs.length ≤ n)
    (hl : bs.length ≤ limit) : ∃ xs', loop (value limit n) xs.length (bs ++ r) = .ok xs' r ∧ ShowsAll False bs xs' ∧ List.Forall₂ Near xs xs' := by
  induction xs generalizing bs with
  | nil => cases h; exact ⟨[], rfl, .nil, .nil⟩
  | cons x xs ih =>
    cases h with
    | cons b bs _ _ h1 h2 =>
      simp only [List.length_append] at hn hl
      obtain ⟨x', e1, s1, n1⟩ := shows_value (limit := limit) h1 n (bs ++ r) (by omega) (by omega)
      obtain ⟨xs', e2, s2, n2⟩ := ih h2 (by omega) (by omega)
      refine ⟨x' :: xs', ?_, .cons b bs x' xs' s1 s2, .cons n1 n2⟩
      rw [List.length_cons, loop, List.append_assoc, e1, Out.bind, e2]
      rfl

/-! ### What is read was written -/

theorem tag_of {n : Nat} {t : Tag} (hn : n < 2 ^ 32) (h : Tag.of (signed 4 n) = some t) : Tag.all[n]? = some t := by
  unfold Tag.of signed at h
  norm_num at hn h
  obtain ⟨h0, h1⟩ := h
  split at h1
  · simpa using h1
  · split at h0
    · contradiction
    · omega

theorem tag_number {n : Nat} {t : Tag} (hn : n < 2 ^ 32) (h : Tag.of (signed 4 n) = some t) (m : Nat) (hm : Tag.all[m]? = some t) : n = m := by
  have h1 := tag_of hn h
  have hd : Tag.all.Nodup := by decide
  have l1 : n < Tag.all.length := by
    rcases Nat.lt_or_ge n Tag.all.length with h | h
    · exact h
    · rw [List.getElem?_eq_none h] at h1; cases h1
  have l2 : m < Tag.all.length := by
    rcases Nat.lt_or_ge m Tag.all.length with h | h
    · exact h
    · rw [List.getElem?_eq_none h] at hm; cases hm
  rw [List.getElem?_eq_getElem l1] at h1
  rw [List.getElem?_eq_getElem l2] at hm
  exact (List.Nodup.getElem_inj_iff hd).mp (Option.some.inj (h1.trans hm.symm))

theorem loop_showsAll {f : Bytes → Out Data} (hf : ∀ bs d r, f bs = .ok d r → ∃ b, bs = b ++ r ∧ Shows True b d) : ∀ (k : Nat) (bs : Bytes)
    (xs : List Data) (r : Bytes), loop f k bs = .ok xs r → xs.length = k ∧ ∃ b, bs = b ++ r ∧ ShowsAll True b xs := by
  intro k
  induction k with
  | zero => intro bs xs r h; cases h; exact ⟨rfl, [], rfl, .nil⟩
  | succ k ih =>
    intro bs xs r h
    rw [loop] at h
    obtain ⟨x, r1, h1, h⟩ := Out.bind_ok h
    obtain ⟨ys, r2, h2, h⟩ := Out.bind_ok h
    cases h
    obtain ⟨b1, rfl, s1⟩ := hf _ _ _ h1
    obtain ⟨l2, b2, rfl, s2⟩ := ih _ _ _ h2
    exact ⟨by simp [l2], b1 ++ b2, by simp, .cons _ _ _ _ s1 s2⟩

theorem stringE_ok {bs s r : Bytes} (h : stringE bs = .ok s r) : s.length < 2 ^ 32 ∧ bs = big 4 s.length ++ s ++ r := by
  rw [stringE] at h
  obtain ⟨n, r1, h1, h⟩ := Out.bind_ok h
  obtain ⟨e, hn⟩ := uintE_ok h1
  split at h
  · cases h
  · cases h
    have hl : (r1.take n).length = n := by simp; omega
    rw [hl]
    exact ⟨by norm_num at *; omega, by rw [e, List.append_assoc, List.take_append_drop]⟩

theorem doubleE_ok {bs r : Bytes} {x : Real} (h : doubleE bs = .ok x r) : ∃ n, bs = big 8 n ++ r ∧ Double n x := by
  rw [doubleE] at h
  obtain ⟨n, r1, h1, h⟩ := Out.bind_ok h
  cases h
  obtain ⟨e, hn⟩ := uintE_ok h1
  exact ⟨n, e, double_exists (by norm_num at *; omega)⟩

theorem timed_ok {f : Int → Data} {x : Real} {bs r : Bytes} {d : Data} (h : timed f x bs = .ok d r) :
    ∃ q t, x = .fin q ∧ Seconds True q t ∧ d = f t ∧ bs = r := by
  rw [timed] at h
  split at h
  · cases h
  · rename_i t ht
    cases h
    obtain ⟨q, e, hs⟩ := nanoseconds_seconds ht
    exact ⟨q, t, e, hs, rfl, rfl⟩

theorem value_shows {limit : Nat} : ∀ (n : Nat) (bs : Bytes) (d : Data) (r : Bytes), value limit n bs = .ok d r →
    ∃ b, bs = b ++ r ∧ Shows True b d := by
  intro n
  induction n with
  | zero => intro bs d r h; cases h
  | succ n ih =>
    intro bs d r h
    rw [value] at h
    obtain ⟨i, r1, h1, g1⟩ := Out.bind_ok h
    obtain ⟨j, r2, h2, g2⟩ := Out.bind_ok g1
    obtain ⟨p, r3, h3, g3⟩ := Out.bind_ok g2
    clear h g1 g2
    obtain ⟨type, rfl, ht, rfl⟩ := intE_ok h1
    obtain ⟨sub, rfl, hs, rfl⟩ := intE_ok h2
    rw [boolE] at h3
    obtain ⟨c, r4, h4, h5⟩ := Out.bind_ok h3
    cases r2 with
    | nil => cases h4
    | cons c' r2 =>
      cases h4
      cases h5
      rename' g3 => h
      split at h
      · rename_i hp
        have hc : c = 1 := by simpa using hp
        subst hc
        have eh : ∀ b, big 4 type ++ (big 4 sub ++ 1 :: (b ++ r)) = header type sub 1 ++ b ++ r := by
          intro b; simp [header]
        have eh' : ∀ b, r3 = b ++ r → big 4 type ++ (big 4 sub ++ 1 :: r3) = header type sub 1 ++ b ++ r := by
          rintro b rfl; exact eh b
        unfold payload at h
        split at h
        case h_1 htag =>
          obtain ⟨x, r5, h6, h⟩ := Out.bind_ok h
          obtain ⟨k, e, hk, rfl⟩ := longE_ok h6
          cases h
          have := tag_number ht htag 1 rfl
          subst this
          have ez := signed_zero hk
          refine ⟨_, eh' _ e, ?_⟩
          have hb : (signed 8 k != 0) = decide (k ≠ 0) := by
            by_cases h0 : k = 0
            · rw [ez.mpr h0]; simp [h0]
            · simp [h0, mt ez.mp h0]
          rw [hb]
          exact .bool sub k hs hk
        case h_2 htag =>
          obtain ⟨x, r5, h6, h⟩ := Out.bind_ok h
          obtain ⟨k, e, hk, rfl⟩ := longE_ok h6
          cases h
          have := tag_number ht htag 2 rfl
          subst this
          obtain ⟨a1, a2, a3⟩ := signed_range hk
          exact ⟨_, eh' _ e, .int sub k _ hs hk a1 a2 a3⟩
        case h_3 htag =>
          obtain ⟨x, r5, h6, h⟩ := Out.bind_ok h
          obtain ⟨e, hk⟩ := uintE_ok h6
          cases h
          exact ⟨_, eh' _ e, .count type sub _ (.inl (tag_number ht htag 3 rfl)) hs (by norm_num at *; omega)⟩
        case h_4 htag =>
          obtain ⟨x, r5, h6, h⟩ := Out.bind_ok h
          obtain ⟨e, hk⟩ := uintE_ok h6
          cases h
          exact ⟨_, eh' _ e, .count type sub _ (.inr (tag_number ht htag 4 rfl)) hs (by norm_num at *; omega)⟩
        case h_5 htag =>
          obtain ⟨x, r5, h6, h⟩ := Out.bind_ok h
          obtain ⟨e, hk⟩ := uintE_ok h6
          obtain ⟨p, r6, h7, h⟩ := Out.bind_ok h
          obtain ⟨q, e', hq, rfl⟩ := intE_ok h7
          cases h
          have := tag_number ht htag 12 rfl
          subst this
          subst e'
          refine ⟨_, eh' (big 8 x ++ big 4 q) (by rw [e, List.append_assoc]), ?_⟩
          rw [← List.append_assoc]
          exact .port sub x q hs (by norm_num at *; omega) hq
        case h_6 htag =>
          obtain ⟨x, r5, h6, h⟩ := Out.bind_ok h
          obtain ⟨b, e, ha⟩ := addrE_ok h6
          cases h
          have := tag_number ht htag 13 rfl
          subst this
          exact ⟨_, eh' _ e, .addr sub b x hs ha⟩
        case h_7 htag =>
          obtain ⟨k, r5, h6, h⟩ := Out.bind_ok h
          obtain ⟨e, hk⟩ := uintE_ok h6
          obtain ⟨x, r6, h7, h⟩ := Out.bind_ok h
          obtain ⟨b, e', ha⟩ := addrE_ok h7
          cases h
          have := tag_number ht htag 14 rfl
          subst this
          subst e'
          have hk' : k < 256 := by simpa using hk
          have e1 : (k.toUInt8).toNat = k := by simp [Nat.toUInt8, Nat.mod_eq_of_lt hk']
          have e2 : big 1 k = [k.toUInt8] := by simp [big, Nat.mod_eq_of_lt hk']
          refine ⟨_, eh' (k.toUInt8 :: b) (by rw [e, e2]; rfl), ?_⟩
          rcases make_net x k with ⟨_, hm⟩ | ⟨hm, hd⟩
          · exact .subnet sub k.toUInt8 b x _ hs ha (by rw [e1]; exact hm)
          · rw [hd]
            exact .badSubnet sub k.toUInt8 b x trivial hs ha (by rw [e1]; exact hm)
        case h_8 htag =>
          obtain ⟨x, r5, h6, h⟩ := Out.bind_ok h
          obtain ⟨k, e, hk⟩ := doubleE_ok h6
          cases h
          have := tag_number ht htag 5 rfl
          subst this
          exact ⟨_, eh' _ e, .double sub k x hs hk⟩
        case h_9 htag =>
          obtain ⟨x, r5, h6, h⟩ := Out.bind_ok h
          obtain ⟨k, e, hk⟩ := doubleE_ok h6
          obtain ⟨q, t, rfl, hq, rfl, rfl⟩ := timed_ok h
          have := tag_number ht htag 6 rfl
          subst this
          exact ⟨_, eh' _ e, .time sub k q t hs hk hq⟩
        case h_10 htag =>
          obtain ⟨x, r5, h6, h⟩ := Out.bind_ok h
          obtain ⟨k, e, hk⟩ := doubleE_ok h6
          obtain ⟨q, t, rfl, hq, rfl, rfl⟩ := timed_ok h
          have := tag_number ht htag 7 rfl
          subst this
          exact ⟨_, eh' _ e, .interval sub k q t hs hk hq⟩
        case h_11 htag =>
          obtain ⟨x, r5, h6, h⟩ := Out.bind_ok h
          obtain ⟨hl, e⟩ := stringE_ok h6
          cases h
          have := tag_number ht htag 10 rfl
          subst this
          refine ⟨_, eh' _ e, ?_⟩
          rw [← List.append_assoc]
          exact .text 10 sub x (by simp) hs hl
        case h_12 htag =>
          obtain ⟨x, r5, h6, h⟩ := Out.bind_ok h
          obtain ⟨hl, e⟩ := stringE_ok h6
          cases h
          have := tag_number ht htag 8 rfl
          subst this
          refine ⟨_, eh' _ e, ?_⟩
          rw [← List.append_assoc]
          exact .text 8 sub x (by simp) hs hl
        case h_13 htag =>
          obtain ⟨x, r5, h6, h⟩ := Out.bind_ok h
          obtain ⟨hl, e⟩ := stringE_ok h6
          cases h
          have := tag_number ht htag 21 rfl
          subst this
          refine ⟨_, eh' _ e, ?_⟩
          rw [← List.append_assoc]
          exact .text 21 sub x (by simp) hs hl
        case h_14 htag =>
          obtain ⟨x, r5, h6, h⟩ := Out.bind_ok h
          obtain ⟨hl, e⟩ := stringE_ok h6
          cases h
          have := tag_number ht htag 20 rfl
          subst this
          refine ⟨_, eh' _ e, ?_⟩
          rw [← List.append_assoc]
          exact .text 20 sub x (by simp) hs hl
        case h_17 => cases h
        all_goals
          rename_i htag
          obtain ⟨i, r5, h6, h⟩ := Out.bind_ok h
          obtain ⟨k, e, hk, rfl⟩ := longE_ok h6
          split at h
          · cases h
          · rename_i hneg
            obtain ⟨xs, r6, h7, h⟩ := Out.bind_ok h
            cases h
            obtain ⟨hlen, b, e', hb⟩ := loop_showsAll ih _ _ _ _ h7
            subst e'
            obtain ⟨a1, a2, a3⟩ := signed_range hk
            have ek : k = xs.length := by norm_num at *; omega
            refine ⟨_, eh' (big 8 k ++ b) (by rw [e, List.append_assoc]), ?_⟩
            rw [← List.append_assoc, ek]
            first
              | exact .list type sub b xs (.inl (tag_number ht htag 16 rfl)) hs (by norm_num at *; omega) hb
              | exact .list type sub b xs (.inr (tag_number ht htag 22 rfl)) hs (by norm_num at *; omega) hb
      · rename_i hp
        cases h
        exact ⟨header type sub c, by simp [header], .absent type sub c ht hs (by simpa using hp)⟩

end Verif.Broker
