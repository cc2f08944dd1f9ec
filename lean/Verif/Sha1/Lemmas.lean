import Verif.Sha1.Spec
/-!
# Lemmas for SHA-1
-/
namespace Verif.Sha1

theorem ofNat8_congr {x y : Nat} (h : x % 256 = y % 256) : UInt8.ofNat x = UInt8.ofNat y := by
  apply UInt8.toNat_inj.mp
  simpa only [UInt8.toNat_ofNat'] using h

theorem loadLE_lt (bs : List UInt8) : loadLE bs < 256 ^ bs.length := by
  induction bs with
  | nil => simp [loadLE]
  | cons b bs ih =>
    have := b.toNat_lt
    simp only [loadLE, List.length_cons, Nat.pow_succ]
    omega

theorem store_load (bs : List UInt8) : storeLE bs.length (loadLE bs) = bs := by
  induction bs with
  | nil => rfl
  | cons b bs ih =>
    have := b.toNat_lt
    simp only [List.length_cons, storeLE, loadLE]
    rw [show (b.toNat + 256 * loadLE bs) / 256 = loadLE bs by omega, ih]
    congr 1
    rw [ofNat8_congr (y := b.toNat) (by omega)]
    simp

theorem storeLE_length (n x : Nat) : (storeLE n x).length = n := by
  induction n generalizing x with
  | zero => rfl
  | succ n ih => simp [storeLE, ih]

theorem storeLE_snoc (n x : Nat) : storeLE (n + 1) x = storeLE n x ++ [.ofNat (x / 256 ^ n)] := by
  induction n generalizing x with
  | zero => simp [storeLE]
  | succ n ih =>
    rw [storeLE, ih, storeLE]
    simp [Nat.div_div_eq_div_mul, Nat.pow_succ, Nat.mul_comm]

theorem bigEndian_eq (n x : Nat) : bigEndian n x = (storeLE n x).reverse := by
  induction n with
  | zero => rfl
  | succ n ih => rw [storeLE_snoc, bigEndian, ih]; simp

theorem store_swap32 (x : UInt32) : store32 (byteSwap32 x) = bigEndian 4 x.toNat := by
  have h := loadLE_lt (store32 x).reverse
  have hl : (store32 x).reverse.length = 4 := by simp [store32, storeLE_length]
  have e := store_load (store32 x).reverse
  rw [hl] at h e
  rw [store32, byteSwap32, UInt32.toNat_ofNat', Nat.mod_eq_of_lt (by simpa using h), e, bigEndian_eq]
  rfl

theorem store_swap64 (x : UInt64) : store64 (byteSwap64 x) = bigEndian 8 x.toNat := by
  have h := loadLE_lt (store64 x).reverse
  have hl : (store64 x).reverse.length = 8 := by simp [store64, storeLE_length]
  have e := store_load (store64 x).reverse
  rw [hl] at h e
  rw [store64, byteSwap64, UInt64.toNat_ofNat', Nat.mod_eq_of_lt (by simpa using h), e, bigEndian_eq]
  rfl

theorem swap_load (b0 b1 b2 b3 : UInt8) :
    byteSwap32 (load32 b0 b1 b2 b3) =
      .ofNat (b0.toNat * 2 ^ 24 + b1.toNat * 2 ^ 16 + b2.toNat * 2 ^ 8 + b3.toNat) := by
  have h := loadLE_lt [b0, b1, b2, b3]
  have e := store_load [b0, b1, b2, b3]
  rw [byteSwap32, store32, load32, UInt32.toNat_ofNat', Nat.mod_eq_of_lt (by simpa using h)]
  simp only [List.length_cons, List.length_nil] at e
  rw [e]
  have : loadLE [b0, b1, b2, b3].reverse = b0.toNat * 2 ^ 24 + b1.toNat * 2 ^ 16 + b2.toNat * 2 ^ 8 + b3.toNat := by
    simp only [List.reverse_cons, List.reverse_nil, List.nil_append, List.cons_append, loadLE, Nat.reducePow]
    omega
  rw [this]

theorem bigEndian_mod (k : Nat) : ∀ (n x : Nat), n ≤ k → bigEndian n (x % 256 ^ k) = bigEndian n x := by
  intro n
  induction n with
  | zero => intro x _; rfl
  | succ n ih =>
    intro x h
    simp only [bigEndian]
    rw [ih x (by omega)]
    congr 1
    apply UInt8.toNat_inj.mp
    simp only [UInt8.toNat_ofNat']
    have e : (256 : Nat) ^ k = 256 ^ n * 256 ^ (k - n) := by rw [← Nat.pow_add]; congr 1; omega
    rw [e, Nat.mod_mul_right_div_self]
    apply Nat.mod_mod_of_dvd
    exact Nat.dvd_trans ⟨1, rfl⟩ (Nat.pow_dvd_pow 256 (by omega : 1 ≤ k - n))

/-- The schedule, as computed by the loop. -/
theorem extendW_spec (block : List UInt8) : ∀ (n : Nat) (w : List UInt32), 16 ≤ w.length →
    (∀ t, t < w.length → w.getD t 0 = sched block t) →
    (extendW n w).length = w.length + n ∧ ∀ t, t < w.length + n → (extendW n w).getD t 0 = sched block t := by
  intro n
  induction n with
  | zero => intro w _ h; exact ⟨rfl, h⟩
  | succ n ih =>
    intro w hl h
    simp only [extendW]
    have hx : rotateLeft (w.getD (w.length - 3) 0 ^^^ w.getD (w.length - 8) 0 ^^^ w.getD (w.length - 14) 0 ^^^
        w.getD (w.length - 16) 0) 1 = sched block w.length := by
      rw [sched, if_neg (by omega), h _ (by omega), h _ (by omega), h _ (by omega), h _ (by omega)]
      rfl
    rw [hx]
    obtain ⟨h1, h2⟩ := ih (w ++ [sched block w.length]) (by simp; omega) (by
      intro t ht
      simp at ht
      by_cases e : t < w.length
      · rw [← h t e]
        simp [List.getD_eq_getElem?_getD, List.getElem?_append, e]
      · have : t = w.length := by omega
        subst this
        simp [List.getD_eq_getElem?_getD])
    simp at h1 h2
    refine ⟨by rw [h1]; omega, fun t ht => ?_⟩
    rw [List.getD_eq_getElem?_getD]
    exact h2 t (by omega)

/-- What `f` and `k` are at the start of round `t`. -/
def fnOf (t : Nat) : Fn := if t ≤ 19 then .choice else if t ≤ 39 then .parity else if t ≤ 59 then .majority else .parity

theorem fnOf_apply (t : Nat) (x y z : UInt32) : (fnOf t).apply x y z = specF t x y z := by
  simp only [fnOf, specF]
  split
  · rfl
  split
  · rfl
  split <;> rfl

theorem round_spec (block : List UInt8) (w : List UInt32) (t : Nat) (v : Vars)
    (hw : w.getD t 0 = sched block t) (hf : v.f = fnOf t) (hk : v.k = specK t) :
    (round w t v).h = specRound block v.h t ∧ (round w t v).f = fnOf (t + 1) ∧ (round w t v).k = specK (t + 1) := by
  have hh : (round w t v).h = specRound block v.h t := by
    have : (round w t v).h = ⟨rotateLeft v.h.a 5 + v.f.apply v.h.b v.h.c v.h.d + v.h.e + v.k + w.getD t 0, v.h.a,
        rotateLeft v.h.b 30, v.h.c, v.h.d⟩ := by
      simp only [round]
      split
      · rfl
      split
      · rfl
      split <;> rfl
    rw [this, hw, hf, hk, fnOf_apply]
    rfl
  refine ⟨hh, ?_, ?_⟩
  · simp only [round, fnOf]
    rw [hf]
    by_cases h1 : t = 19
    · subst h1; rfl
    by_cases h2 : t = 39
    · subst h2; rfl
    by_cases h3 : t = 59
    · subst h3; rfl
    simp only [h1, h2, h3, ↓reduceIte, fnOf]
    grind
  · simp only [round, specK]
    rw [hk]
    by_cases h1 : t = 19
    · subst h1; rfl
    by_cases h2 : t = 39
    · subst h2; rfl
    by_cases h3 : t = 59
    · subst h3; rfl
    simp only [h1, h2, h3, ↓reduceIte, specK]
    grind

theorem rounds_spec (block : List UInt8) (w : List UInt32) (hw : ∀ t, t < 80 → w.getD t 0 = sched block t) :
    ∀ (n t : Nat) (v : Vars), t + n ≤ 80 → v.f = fnOf t → v.k = specK t →
    (rounds w n t v).h = (List.range' t n).foldl (specRound block) v.h := by
  intro n
  induction n with
  | zero => intro t v _ _ _; rfl
  | succ n ih =>
    intro t v ht hf hk
    obtain ⟨h1, h2, h3⟩ := round_spec block w t v (hw t (by omega)) hf hk
    simp only [rounds, List.range'_succ, List.foldl_cons]
    rw [ih (t + 1) _ (by omega) h2 h3, h1]

theorem transformBlock_spec (data : List UInt8) (off : Nat) (h : H5) :
    transformBlock data off h = compress h ((data.drop off).take 64) := by
  have hb : ∀ j, j < 64 → ((data.drop off).take 64).getD j 0 = data.getD (off + j) 0 := by
    intro j hj
    simp [List.getD_eq_getElem?_getD, List.getElem?_take, hj]
  have hword : ∀ i, i < 16 → byteSwap32 (load32 (data.getD (off + 4 * i) 0) (data.getD (off + 4 * i + 1) 0)
      (data.getD (off + 4 * i + 2) 0) (data.getD (off + 4 * i + 3) 0)) = wordAt ((data.drop off).take 64) i := by
    intro i hi
    rw [swap_load, wordAt, hb _ (by omega), hb _ (by omega), hb _ (by omega), hb _ (by omega)]
    rfl
  have hm : ∀ t, t < 16 → ((List.range 16).map fun i =>
      byteSwap32 (load32 (data.getD (off + 4 * i) 0) (data.getD (off + 4 * i + 1) 0)
        (data.getD (off + 4 * i + 2) 0) (data.getD (off + 4 * i + 3) 0))).getD t 0 = sched ((data.drop off).take 64) t := by
    intro t ht
    rw [sched, if_pos ht, ← hword t ht, List.getD_eq_getElem?_getD, List.getElem?_map, List.getElem?_range ht]
    rfl
  obtain ⟨h1, h2⟩ := extendW_spec ((data.drop off).take 64) 64 ((List.range 16).map fun i =>
      byteSwap32 (load32 (data.getD (off + 4 * i) 0) (data.getD (off + 4 * i + 1) 0)
        (data.getD (off + 4 * i + 2) 0) (data.getD (off + 4 * i + 3) 0))) (by simp)
    (fun t ht => hm t (by simpa using ht))
  have := rounds_spec ((data.drop off).take 64) _ (fun t ht => h2 t (by simpa using ht)) 80 0 ⟨h, K.getD 0 0, .choice⟩
    (by omega) rfl rfl
  simp only [transformBlock, compress]
  rw [this, ← List.range_eq_range']
  simp [UInt32.add_comm]

theorem blocksOf_succ (n : Nat) (xs : List UInt8) :
    blocksOf (n + 1) xs = blocksOf n xs ++ [(xs.drop (64 * n)).take 64] := by
  induction n generalizing xs with
  | zero => simp [blocksOf]
  | succ n ih =>
    rw [blocksOf, ih, blocksOf]
    simp [List.drop_drop, Nat.mul_add, Nat.add_comm]

theorem transform_spec (data : List UInt8) (n : Nat) (h : H5) :
    transform data n h = (blocksOf n data).foldl compress h := by
  induction n with
  | zero => rfl
  | succ n ih =>
    rw [transform, List.range_succ, List.foldl_append, ← transform, ih, blocksOf_succ, List.foldl_append]
    simp [transformBlock_spec]

theorem blocksOf_add (n k : Nat) (x y : List UInt8) (h : x.length = 64 * n) :
    blocksOf (n + k) (x ++ y) = blocksOf n x ++ blocksOf k y := by
  induction n generalizing x with
  | zero =>
    have : x = [] := List.eq_nil_of_length_eq_zero (by omega)
    subst this
    simp [blocksOf]
  | succ n ih =>
    have e : n + 1 + k = (n + k) + 1 := by omega
    rw [e, blocksOf, blocksOf, List.take_append_of_le_length (by omega), List.drop_append_of_le_length (by omega),
      ih _ (by simp; omega)]
    rfl

theorem blocksOf_prefix (n : Nat) (x y : List UInt8) (h : 64 * n ≤ x.length) :
    blocksOf n (x ++ y) = blocksOf n x := by
  induction n generalizing x with
  | zero => rfl
  | succ n ih =>
    rw [blocksOf, blocksOf, List.take_append_of_le_length (by omega), List.drop_append_of_le_length (by omega),
      ih _ (by simp; omega)]

/-- The state after the bytes `msg`: whole blocks are digested, the rest is in the buffer. -/
structure Inv (s : State) (msg : List UInt8) : Prop where
  buffer : s.m.length = 64
  pos : s.pos < 64
  done : ∃ n x y, msg = x ++ y ∧ x.length = 64 * n ∧ y = s.m.take s.pos ∧
    s.h = (blocksOf n x).foldl compress specInit ∧ s.total = .ofNat (8 * x.length)

theorem copyTo_length (m : List UInt8) (pos : Nat) (d : List UInt8) (h : pos + d.length ≤ m.length) :
    (copyTo m pos d).length = m.length := by
  simp [copyTo]; omega

theorem copyTo_take (m : List UInt8) (pos : Nat) (d : List UInt8) (h : pos ≤ m.length) :
    (copyTo m pos d).take (pos + d.length) = m.take pos ++ d := by
  rw [copyTo, List.take_append_of_le_length (by simp; omega)]
  apply List.take_of_length_le
  simp; omega

/-- The last two steps of absorbing: whole blocks from the data, and the rest into the buffer. -/
def tailAbsorb (data : List UInt8) (s : State) : State :=
  let (data, s) :=
    if data.length ≥ 64 then
      let blocks := (data.length + 64 - 64) / 64
      let bytes := blocks * 64
      (data.drop bytes, { s with h := transform data blocks s.h, total := s.total + UInt64.ofNat bytes * 8 })
    else (data, s)
  { s with m := copyTo s.m s.pos data, pos := s.pos + data.length }

theorem tailAbsorb_spec (s : State) (msg data : List UInt8) (h : Inv s msg) (hc : s.pos = 0 ∨ s.pos + data.length < 64) :
    Inv (tailAbsorb data s) (msg ++ data) := by
  obtain ⟨hb, hp, n, x, y, e1, e2, e3, e4, e5⟩ := h
  by_cases hl : data.length ≥ 64
  · have hp0 : s.pos = 0 := by omega
    simp only [tailAbsorb, hl, ↓reduceIte, hp0]
    have hy : y = [] := by rw [e3, hp0]; simp
    subst hy
    have hk : (data.length + 64 - 64) / 64 = data.length / 64 := by congr 1
    have hmod := Nat.div_add_mod data.length 64
    have hlt := Nat.mod_lt data.length (by omega : 64 > 0)
    generalize hq : data.length / 64 = k at *
    rw [hk]
    have hdl : (data.drop (k * 64)).length = data.length % 64 := by simp; omega
    refine ⟨?_, ?_, n + k, x ++ data.take (k * 64), data.drop (k * 64), ?_, ?_, ?_, ?_, ?_⟩
    · simp only [copyTo]; simp; omega
    · show 0 + (data.drop (k * 64)).length < 64
      omega
    · rw [e1]; simp [List.append_assoc]
    · simp; omega
    · show data.drop (k * 64) = (copyTo s.m 0 (data.drop (k * 64))).take (0 + (data.drop (k * 64)).length)
      rw [copyTo_take _ _ _ (by omega)]
      simp
    · show transform data k s.h = _
      rw [transform_spec, e4, blocksOf_add n k x _ e2, List.foldl_append]
      congr 1
      conv => lhs; rw [← List.take_append_drop (k * 64) data]
      rw [blocksOf_prefix k _ _ (by simp; omega)]
    · show s.total + UInt64.ofNat (k * 64) * 8 = _
      rw [e5]
      have : (8 : UInt64) = UInt64.ofNat 8 := rfl
      rw [this, ← UInt64.ofNat_mul, ← UInt64.ofNat_add]
      congr 1
      simp; omega
  · simp only [tailAbsorb, hl, ↓reduceIte]
    refine ⟨?_, ?_, n, x, y ++ data, by rw [e1]; simp, e2, ?_, e4, e5⟩
    · show (copyTo s.m s.pos data).length = 64
      rw [copyTo_length _ _ _ (by omega), hb]
    · show s.pos + data.length < 64
      omega
    · show y ++ data = (copyTo s.m s.pos data).take (s.pos + data.length)
      rw [copyTo_take _ _ _ (by omega), e3]

theorem absorb_spec (s : State) (msg data : List UInt8) (h : Inv s msg) : Inv (absorb data s) (msg ++ data) := by
  by_cases hc : s.pos ≠ 0 ∧ s.pos + data.length ≥ 64
  · have e : absorb data s = tailAbsorb (data.drop (64 - s.pos)) { s with
        m := copyTo s.m s.pos (data.take (64 - s.pos)),
        h := transform (copyTo s.m s.pos (data.take (64 - s.pos))) 1 s.h, total := s.total + 64 * 8, pos := 0 } := by
      simp only [absorb, hc, ↓reduceIte, tailAbsorb, ne_eq, not_false_eq_true, and_self]
    rw [e]
    obtain ⟨hb, hp, n, x, y, e1, e2, e3, e4, e5⟩ := h
    have hyl : y.length = s.pos := by rw [e3]; simp; omega
    have htl : (data.take (64 - s.pos)).length = 64 - s.pos := by simp; omega
    have hct : copyTo s.m s.pos (data.take (64 - s.pos)) = y ++ data.take (64 - s.pos) := by
      have := copyTo_take s.m s.pos (data.take (64 - s.pos)) (by omega)
      rw [← e3, htl] at this
      have hl := copyTo_length s.m s.pos (data.take (64 - s.pos)) (by omega)
      rw [List.take_of_length_le (by omega)] at this
      exact this
    have key : Inv { s with
        m := copyTo s.m s.pos (data.take (64 - s.pos)),
        h := transform (copyTo s.m s.pos (data.take (64 - s.pos))) 1 s.h, total := s.total + 64 * 8, pos := 0 }
        (msg ++ data.take (64 - s.pos)) := by
      refine ⟨?_, by simp, n + 1, x ++ (y ++ data.take (64 - s.pos)), [], by rw [e1]; simp, by simp; omega, by simp, ?_, ?_⟩
      · show (copyTo s.m s.pos (data.take (64 - s.pos))).length = 64
        rw [hct]; simp; omega
      · show transform (copyTo s.m s.pos (data.take (64 - s.pos))) 1 s.h = _
        rw [transform_spec, hct, e4, blocksOf_add n 1 x _ e2, List.foldl_append]
      · show s.total + 64 * 8 = _
        rw [e5]
        have : (64 * 8 : UInt64) = UInt64.ofNat 512 := rfl
        rw [this, ← UInt64.ofNat_add]
        congr 1
        simp; omega
    have := tailAbsorb_spec _ _ (data.drop (64 - s.pos)) key (Or.inl rfl)
    simpa [List.append_assoc] using this
  · have e : absorb data s = tailAbsorb data s := by
      simp only [absorb, hc, ↓reduceIte, tailAbsorb]
    rw [e]
    exact tailAbsorb_spec s msg data h (by omega)

theorem init_inv (junk : List UInt8) (h : junk.length = 64) : Inv (.init junk) [] :=
  ⟨h, by simp [State.init], 0, [], [], rfl, rfl, by simp [State.init], rfl, rfl⟩

theorem chunks_inv (chunks : List (List UInt8)) (s : State) (msg : List UInt8) (h : Inv s msg) :
    Inv (chunks.foldl (fun s c => absorb c s) s) (msg ++ chunks.flatten) := by
  induction chunks generalizing s msg with
  | nil => simpa using h
  | cons c cs ih =>
    have := ih _ _ (absorb_spec s msg c h)
    simpa [List.append_assoc] using this

theorem bigEndian_length (n x : Nat) : (bigEndian n x).length = n := by
  induction n with
  | zero => rfl
  | succ n ih => simp [bigEndian, ih]

/-- The last block or two. -/
theorem digest_spec (s : State) (msg : List UInt8) (h : Inv s msg) : digest s = sha1 msg := by
  obtain ⟨hb, hp, n, x, y, e1, e2, e3, e4, e5⟩ := h
  have hyl : y.length = s.pos := by rw [e3]; simp; omega
  have hml : msg.length = 64 * n + s.pos := by rw [e1]; simp; omega
  have htot : s.total + UInt64.ofNat s.pos * 8 = .ofNat (8 * msg.length) := by
    rw [e5]
    have : (8 : UInt64) = UInt64.ofNat 8 := rfl
    rw [this, ← UInt64.ofNat_mul, ← UInt64.ofNat_add]
    congr 1
    omega
  have hlen : store64 (byteSwap64 (.ofNat (8 * msg.length))) = bigEndian 8 (8 * msg.length) := by
    rw [store_swap64, UInt64.toNat_ofNat']
    exact bigEndian_mod 8 8 _ (by omega)
  have hmod : msg.length % 64 = s.pos := by omega
  have hdrop : ∀ (p : Nat) (m q : List UInt8), q.length = 64 - p → m.length = 64 → p ≤ 64 → copyTo m p q = m.take p ++ q := by
    intro p m q h1 h2 h3
    rw [copyTo, List.drop_of_length_le (by omega), List.append_nil]
  have hm1 : (copyTo s.m s.pos [0x80]).length = 64 := by rw [copyTo_length _ _ _ (by simp; omega), hb]
  have ht1 : (copyTo s.m s.pos [0x80]).take (s.pos + 1) = y ++ [0x80] := by
    have := copyTo_take s.m s.pos [0x80] (by omega)
    rw [e3]; exact this
  -- the final block, given what precedes the length
  have hfin : ∀ (m : List UInt8) (p : Nat), m.length = 64 → p ≤ 56 →
      copyTo (copyTo m p (List.replicate (56 - p) 0)) (64 - 8) (bigEndian 8 (8 * msg.length)) =
        m.take p ++ List.replicate (56 - p) 0 ++ bigEndian 8 (8 * msg.length) := by
    intro m p h1 h2
    rw [hdrop _ _ _ (by simp [bigEndian_length]) (by rw [copyTo_length _ _ _ (by simp; omega), h1]) (by omega)]
    congr 1
    have := copyTo_take m p (List.replicate (56 - p) 0) (by omega)
    rw [List.length_replicate] at this
    have e : p + (56 - p) = 64 - 8 := by omega
    rw [e] at this
    exact this
  have hpad : padded msg = x ++ (y ++ [0x80] ++ List.replicate ((119 - s.pos) % 64) 0 ++ bigEndian 8 (8 * msg.length)) := by
    rw [padded, hmod, e1]; simp [List.append_assoc]
  have hword : ∀ h : H5, (∃ k, (padded msg).length = 64 * k ∧ (blocksOf k (padded msg)).foldl compress specInit = h) →
      bigEndian 4 h.a.toNat ++ bigEndian 4 h.b.toNat ++ bigEndian 4 h.c.toNat ++ bigEndian 4 h.d.toNat ++
        bigEndian 4 h.e.toNat = sha1 msg := by
    rintro h ⟨k, hk, rfl⟩
    simp only [sha1]
    rw [hk, Nat.mul_div_cancel_left _ (by omega)]
  simp only [digest, finalize, store_swap32, htot]
  apply hword
  by_cases hc : s.pos + 1 > 56
  · -- two blocks
    simp only [hc, ↓reduceIte, hlen]
    have hm2 : (if s.pos + 1 ≠ 64 then copyTo (copyTo s.m s.pos [0x80]) (s.pos + 1) (List.replicate (64 - (s.pos + 1)) 0)
        else copyTo s.m s.pos [0x80]) = y ++ [0x80] ++ List.replicate (63 - s.pos) 0 := by
      split
      · rw [hdrop _ _ _ (by simp) hm1 (by omega), ht1]
        congr 2
        omega
      · rename_i h64
        have : s.pos = 63 := by omega
        rw [← ht1, List.take_of_length_le (by omega)]
        simp [this]
    rw [hm2]
    have hr : (119 - s.pos) % 64 = (63 - s.pos) + 56 := by omega
    refine ⟨n + (1 + 1), ?_, ?_⟩
    · rw [hpad, hr]
      simp [bigEndian_length]; omega
    · rw [hfin _ 0 (by simp; omega) (by omega), hpad, hr, transform_spec, transform_spec, e4]
      have e : x ++ (y ++ [0x80] ++ List.replicate (63 - s.pos + 56) 0 ++ bigEndian 8 (8 * msg.length)) =
          x ++ ((y ++ [0x80] ++ List.replicate (63 - s.pos) 0) ++ (List.replicate 56 0 ++ bigEndian 8 (8 * msg.length))) := by
        rw [← List.replicate_append_replicate]; simp [List.append_assoc]
      rw [e, blocksOf_add n (1 + 1) x _ e2, blocksOf_add 1 1 _ _ (by simp; omega)]
      simp
  · simp only [hc, ↓reduceIte, hlen]
    have hr : (119 - s.pos) % 64 = 56 - (s.pos + 1) := by omega
    refine ⟨n + 1, ?_, ?_⟩
    · rw [hpad, hr]
      simp [bigEndian_length]; omega
    · rw [hfin _ _ hm1 (by omega), ht1, hpad, hr, transform_spec, e4, blocksOf_add n 1 x _ e2, List.foldl_append]

end Verif.Sha1
