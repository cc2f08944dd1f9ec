import Verif.Msgpack.ContLemmas

/-! Lemmas on reading back whatever `put` writes. -/

namespace Verif.Msgpack
open Spec

/-- Whether a value is no array and no map. -/
def Scalar : Val → Prop
  | .arr _ _ => False
  | .map _ _ => False
  | _ => True

theorem read_of_seen {e : List UInt8} {s : List UInt8 → Seen} (h : Obj e s) {t : Tree}
    (ht : ∀ tail, s tail = .nil ∧ t = .nil ∨ (∃ b, s tail = .bool b ∧ t = .bool b) ∨
      (∃ w x, s tail = .unsigned w x ∧ t = .int x) ∨ (∃ w x, s tail = .signed w x ∧ t = .int x) ∨
      (∃ b, s tail = .float b ∧ t = .float b) ∨ (∃ b, s tail = .double b ∧ t = .double b) ∨
      (∃ b, s tail = .str b ∧ t = .str b) ∨ (∃ b, s tail = .bin b ∧ t = .bin b) ∨
      (∃ x, s tail = .time x ∧ t = .time x)) (m : Nat) (tail : List UInt8) :
    readTree (m + 1) (e ++ tail) = some t := by
  rw [readTree, h.visit]
  rcases ht tail with ⟨h1, h2⟩ | ⟨b, h1, h2⟩ | ⟨w, x, h1, h2⟩ | ⟨w, x, h1, h2⟩ | ⟨b, h1, h2⟩ | ⟨b, h1, h2⟩ |
    ⟨b, h1, h2⟩ | ⟨b, h1, h2⟩ | ⟨x, h1, h2⟩ <;> rw [h1, h2]

theorem of_accepts {c : Bool} {α : Type} {o : Option α} {e : α} (h : (if c then o else none) = some e) : o = some e := by
  cases c
  · simp at h
  · simpa using h

/-- Everything that is no container is read back and skipped. -/
theorem put_scalar {chk : Bool} {cap : Option Nat} {size : Nat} {v : Val} {e : List UInt8} (hv : Scalar v)
    (hf : Fits v) (hp : put chk cap size v = some e) :
    0 < e.length ∧ (NoShortBin v → ∀ (n : Nat) (tail : List UInt8), 1 ≤ n → nextFuel n (e ++ tail) = some tail) ∧
      (TimesPlain v → ∀ (m : Nat) (tail : List UInt8), readTree (m + 1) (e ++ tail) = some (tree v)) := by
  cases v with
  | nil =>
    simp only [put] at hp; have hp := of_accepts hp; cases hp
    exact ⟨obj_nil.pos, fun _ => obj_nil.next, fun _ => read_of_seen obj_nil (fun _ => .inl ⟨rfl, rfl⟩)⟩
  | bool b =>
    simp only [put] at hp; have hp := of_accepts hp; cases hp
    exact ⟨(obj_bool b).pos, fun _ => (obj_bool b).next, fun _ => read_of_seen (obj_bool b) (fun _ => .inr (.inl ⟨b, rfl, rfl⟩))⟩
  | sint w x =>
    simp only [put] at hp; have hp := of_accepts hp; cases hp
    obtain ⟨s, ho, hs⟩ := obj_signed hf.1 hf.2.1 hf.2.2
    refine ⟨ho.pos, fun _ => ho.next, fun _ => read_of_seen ho fun _ => ?_⟩
    rcases hs with ⟨w', h⟩ | ⟨h, hm, _⟩
    · exact .inr (.inr (.inr (.inl ⟨w', x, h, rfl⟩)))
    · exact .inr (.inr (.inl ⟨1, x.toNat, h, by rw [tree, Int.toNat_of_nonneg hm]⟩))
  | integer x =>
    simp only [put] at hp; have hp := of_accepts hp; cases hp
    have ho := obj_int64 x
    refine ⟨ho.pos, fun _ => ho.next, fun _ => read_of_seen ho fun _ => ?_⟩
    exact .inr (.inr (.inr (.inl ⟨8, _, rfl, by rw [tree, toSigned_toUnsigned hf.1 hf.2]⟩)))
  | uint w n =>
    simp only [put] at hp; have hp := of_accepts hp; cases hp
    obtain ⟨w', ho, _⟩ := obj_unsigned hf.1 hf.2
    exact ⟨ho.pos, fun _ => ho.next, fun _ => read_of_seen ho fun _ => .inr (.inr (.inl ⟨w', n, rfl, rfl⟩))⟩
  | u8 n =>
    simp only [put] at hp; have hp := of_accepts hp; cases hp
    have ho := obj_uint8 hf
    exact ⟨ho.pos, fun _ => ho.next, fun _ => read_of_seen ho fun _ => .inr (.inr (.inl ⟨1, n, rfl, rfl⟩))⟩
  | float b =>
    simp only [put] at hp; have hp := of_accepts hp; cases hp
    have ho := obj_float hf
    exact ⟨ho.pos, fun _ => ho.next, fun _ => read_of_seen ho fun _ => .inr (.inr (.inr (.inr (.inl ⟨b, rfl, rfl⟩))))⟩
  | double b =>
    simp only [put] at hp; have hp := of_accepts hp; cases hp
    have ho := obj_double hf
    exact ⟨ho.pos, fun _ => ho.next, fun _ => read_of_seen ho fun _ =>
      .inr (.inr (.inr (.inr (.inr (.inl ⟨b, rfl, rfl⟩)))))⟩
  | str s =>
    simp only [put] at hp; have hp := of_accepts hp
    have ho := obj_str hp
    exact ⟨ho.pos, fun _ => ho.next, fun _ => read_of_seen ho fun _ =>
      .inr (.inr (.inr (.inr (.inr (.inr (.inl ⟨s, rfl, rfl⟩))))))⟩
  | fixstr s =>
    simp only [put] at hp; have hp := of_accepts hp
    have hl : s.length ≤ 31 := hf
    rw [if_neg (by omega)] at hp
    cases hp
    have ho := obj_fixstr hl
    exact ⟨ho.pos, fun _ => ho.next, fun _ => read_of_seen ho fun _ =>
      .inr (.inr (.inr (.inr (.inr (.inr (.inl ⟨s, rfl, rfl⟩))))))⟩
  | bin s =>
    simp only [put] at hp; have hp := of_accepts hp
    simp only [putBin] at hp
    have hr {e' : List UInt8} (ho : ∀ tail, visit (e' ++ tail) = .bin s) (m : Nat) (tail : List UInt8) :
        readTree (m + 1) (e' ++ tail) = some (tree (.bin s)) := by
      rw [readTree, ho]; rfl
    by_cases h1 : s.length ≤ 255
    · rw [if_pos h1] at hp; cases hp
      refine ⟨by simp [addBinary], ?_, fun _ => hr (visit_bin8 h1)⟩
      intro h; have h : 256 ≤ s.length := h; omega
    · rw [if_neg h1] at hp
      by_cases h2 : s.length ≤ 65535
      · rw [if_pos h2] at hp; cases hp
        exact ⟨(obj_bin16 h2).pos, fun _ => (obj_bin16 h2).next, fun _ => hr (obj_bin16 h2).visit⟩
      · rw [if_neg h2] at hp
        by_cases h3 : s.length ≤ 4294967295
        · rw [if_pos h3] at hp; cases hp
          exact ⟨(obj_bin32 h3).pos, fun _ => (obj_bin32 h3).next, fun _ => hr (obj_bin32 h3).visit⟩
        · rw [if_neg h3] at hp; cases hp
  | time t =>
    simp only [put] at hp; have hp := of_accepts hp; cases hp
    obtain ⟨s, ho, hs⟩ := obj_time hf.1 hf.2
    refine ⟨ho.pos, fun _ => ho.next, fun h => ?_⟩
    cases hs h
    exact read_of_seen ho fun _ => .inr (.inr (.inr (.inr (.inr (.inr (.inr (.inr ⟨t, rfl, rfl⟩)))))))
  | arr n xs => exact hv.elim
  | map n xs => exact hv.elim

theorem put_arr_inv {chk : Bool} {cap : Option Nat} {size n : Nat} {xs : List Val} {e : List UInt8}
    (h : put chk cap size (.arr n xs) = some e) :
    ∃ k body, arrFormat n = some k ∧ putAll chk (if chk then some (formatCap k) else none) 0 xs = some body ∧
      e = arrHeader k xs.length ++ body := by
  rw [put] at h
  cases hk : arrFormat n with
  | none => rw [hk] at h; simp at h
  | some k =>
    rw [hk, Option.bind_some] at h
    cases hb : putAll chk (if chk then some (formatCap k) else none) 0 xs with
    | none => rw [hb] at h; simp at h
    | some body => rw [hb] at h; simp at h; exact ⟨k, body, rfl, hb, h.symm⟩

theorem put_map_inv {chk : Bool} {cap : Option Nat} {size n : Nat} {xs : List Val} {e : List UInt8}
    (h : put chk cap size (.map n xs) = some e) :
    ∃ k body, arrFormat n = some k ∧ putAll chk (if chk then some (formatCap k) else none) 0 xs = some body ∧
      e = mapHeader k (xs.length / 2) ++ body := by
  rw [put] at h
  cases hk : arrFormat n with
  | none => rw [hk] at h; simp at h
  | some k =>
    rw [hk, Option.bind_some] at h
    cases hb : putAll chk (if chk then some (formatCap k) else none) 0 xs with
    | none => rw [hb] at h; simp at h
    | some body =>
      rw [hb, Option.bind_some] at h
      by_cases hc : (chk = true) ∧ xs.length % 2 ≠ 0
      · rw [if_pos hc] at h; cases h
      · rw [if_neg hc] at h; cases h; exact ⟨k, body, rfl, hb, rfl⟩

theorem putAll_cons_inv {chk : Bool} {cap : Option Nat} {size : Nat} {x : Val} {xs : List Val} {e : List UInt8}
    (h : putAll chk cap size (x :: xs) = some e) :
    ∃ e1 e2, put chk cap size x = some e1 ∧ putAll chk cap (size + 1) xs = some e2 ∧ e = e1 ++ e2 := by
  rw [putAll] at h
  cases h1 : put chk cap size x with
  | none => rw [h1] at h; simp at h
  | some e1 =>
    rw [h1, Option.bind_some] at h
    cases h2 : putAll chk cap (size + 1) xs with
    | none => rw [h2] at h; simp at h
    | some e2 => rw [h2] at h; simp at h; exact ⟨e1, e2, rfl, rfl, h.symm⟩

mutual
/-- Whatever `put` writes can be skipped. -/
theorem next_put {chk : Bool} : ∀ (v : Val) {cap : Option Nat} {size : Nat} {e : List UInt8}, Fits v → NoShortBin v →
    put chk cap size v = some e → 0 < e.length ∧
      ∀ (n : Nat) (tail : List UInt8), e.length ≤ n → nextFuel n (e ++ tail) = some tail
  | .arr n xs, cap, size, e, hf, hb, hp => by
    obtain ⟨k, body, hk, hbody, rfl⟩ := put_arr_inv hp
    obtain ⟨hn, hn2, hall⟩ := hf
    have hpos := arrHeader_pos k xs.length
    refine ⟨by simp only [List.length_append]; omega, ?_⟩
    intro m tail hm
    simp only [List.length_append] at hm
    obtain ⟨m, rfl⟩ : ∃ m', m = m' + 1 := ⟨m - 1, by omega⟩
    rw [List.append_assoc, next_arr (hn ▸ hk)]
    exact next_putAll xs hall hb hbody m tail (by omega)
  | .map n kvs, cap, size, e, hf, hb, hp => by
    obtain ⟨k, body, hk, hbody, rfl⟩ := put_map_inv hp
    obtain ⟨hn, hn2, hall⟩ := hf
    have hpos := mapHeader_pos k (kvs.length / 2)
    refine ⟨by simp only [List.length_append]; omega, ?_⟩
    intro m tail hm
    simp only [List.length_append] at hm
    obtain ⟨m, rfl⟩ : ∃ m', m = m' + 1 := ⟨m - 1, by omega⟩
    have hn' : kvs.length / 2 = n := by omega
    rw [List.append_assoc, hn', next_map hk hn2, hn]
    exact next_putAll kvs hall hb hbody m tail (by omega)
  | .nil, _, _, _, hf, hb, hp => next_scalar hf hb hp trivial
  | .bool _, _, _, _, hf, hb, hp => next_scalar hf hb hp trivial
  | .sint _ _, _, _, _, hf, hb, hp => next_scalar hf hb hp trivial
  | .integer _, _, _, _, hf, hb, hp => next_scalar hf hb hp trivial
  | .uint _ _, _, _, _, hf, hb, hp => next_scalar hf hb hp trivial
  | .u8 _, _, _, _, hf, hb, hp => next_scalar hf hb hp trivial
  | .float _, _, _, _, hf, hb, hp => next_scalar hf hb hp trivial
  | .double _, _, _, _, hf, hb, hp => next_scalar hf hb hp trivial
  | .str _, _, _, _, hf, hb, hp => next_scalar hf hb hp trivial
  | .fixstr _, _, _, _, hf, hb, hp => next_scalar hf hb hp trivial
  | .bin _, _, _, _, hf, hb, hp => next_scalar hf hb hp trivial
  | .time _, _, _, _, hf, hb, hp => next_scalar hf hb hp trivial
where
  next_scalar {chk : Bool} {cap : Option Nat} {size : Nat} {v : Val} {e : List UInt8}
      (hf : Fits v) (hb : NoShortBin v) (hp : put chk cap size v = some e) (hv : Scalar v) : 0 < e.length ∧
      ∀ (n : Nat) (tail : List UInt8), e.length ≤ n → nextFuel n (e ++ tail) = some tail :=
    ⟨(put_scalar hv hf hp).1, fun n tail hn =>
      (put_scalar hv hf hp).2.1 hb n tail (Nat.le_trans (put_scalar hv hf hp).1 hn)⟩

theorem next_putAll {chk : Bool} : ∀ (xs : List Val) {cap : Option Nat} {size : Nat} {e : List UInt8}, AllFit xs →
    AllNoShortBin xs → putAll chk cap size xs = some e →
      ∀ (n : Nat) (tail : List UInt8), e.length ≤ n → times (nextFuel n) xs.length (e ++ tail) = some tail
  | [], cap, size, e, hf, hb, hp => by
    rw [putAll] at hp; cases hp
    intro n tail _
    rfl
  | x :: xs, cap, size, e, hf, hb, hp => by
    obtain ⟨e1, e2, h1, h2, rfl⟩ := putAll_cons_inv hp
    intro n tail hn
    simp only [List.length_append] at hn
    rw [List.length_cons, times, List.append_assoc, (next_put x hf.1 hb.1 h1).2 n _ (by omega), Option.bind_some]
    exact next_putAll xs hf.2 hb.2 h2 n tail (by omega)
end

/-- Skipping the first object of a buffer. -/
theorem skip_succ {e : List UInt8} (h : ∀ (n : Nat) (tail : List UInt8), e.length ≤ n → nextFuel n (e ++ tail) = some tail)
    (i : Nat) (d : List UInt8) : skip (i + 1) (e ++ d) = skip i d := by
  rw [skip, times, next, h _ _ (by simp), Option.bind_some]
  rfl

mutual
/-- Whatever `put` writes is read back. -/
theorem read_put {chk : Bool} : ∀ (v : Val) {cap : Option Nat} {size : Nat} {e : List UInt8}, Fits v → NoShortBin v →
    TimesPlain v → put chk cap size v = some e →
      ∀ (n : Nat) (tail : List UInt8), e.length ≤ n → readTree n (e ++ tail) = some (tree v)
  | .arr n xs, cap, size, e, hf, hb, ht, hp => by
    obtain ⟨k, body, hk, hbody, rfl⟩ := put_arr_inv hp
    obtain ⟨hn, hn2, hall⟩ := hf
    have hpos := arrHeader_pos k xs.length
    intro m tail hm
    simp only [List.length_append] at hm
    obtain ⟨m, rfl⟩ : ∃ m', m = m' + 1 := ⟨m - 1, by omega⟩
    rw [List.append_assoc, readTree, visit_arr (hn ▸ hk)]
    simp only [read_putAll xs hall hb ht hbody m tail (by omega), Option.map_some, tree]
  | .map n kvs, cap, size, e, hf, hb, ht, hp => by
    obtain ⟨k, body, hk, hbody, rfl⟩ := put_map_inv hp
    obtain ⟨hn, hn2, hall⟩ := hf
    have hpos := mapHeader_pos k (kvs.length / 2)
    intro m tail hm
    simp only [List.length_append] at hm
    obtain ⟨m, rfl⟩ : ∃ m', m = m' + 1 := ⟨m - 1, by omega⟩
    have hn' : kvs.length / 2 = n := by omega
    rw [List.append_assoc, hn', readTree, visit_map hk hn2, hn]
    simp only [read_putAll kvs hall hb ht hbody m tail (by omega), Option.map_some, tree]
  | .nil, _, _, _, hf, _, ht, hp => read_scalar hf ht hp trivial
  | .bool _, _, _, _, hf, _, ht, hp => read_scalar hf ht hp trivial
  | .sint _ _, _, _, _, hf, _, ht, hp => read_scalar hf ht hp trivial
  | .integer _, _, _, _, hf, _, ht, hp => read_scalar hf ht hp trivial
  | .uint _ _, _, _, _, hf, _, ht, hp => read_scalar hf ht hp trivial
  | .u8 _, _, _, _, hf, _, ht, hp => read_scalar hf ht hp trivial
  | .float _, _, _, _, hf, _, ht, hp => read_scalar hf ht hp trivial
  | .double _, _, _, _, hf, _, ht, hp => read_scalar hf ht hp trivial
  | .str _, _, _, _, hf, _, ht, hp => read_scalar hf ht hp trivial
  | .fixstr _, _, _, _, hf, _, ht, hp => read_scalar hf ht hp trivial
  | .bin _, _, _, _, hf, _, ht, hp => read_scalar hf ht hp trivial
  | .time _, _, _, _, hf, _, ht, hp => read_scalar hf ht hp trivial
where
  read_scalar {chk : Bool} {cap : Option Nat} {size : Nat} {v : Val} {e : List UInt8}
      (hf : Fits v) (ht : TimesPlain v) (hp : put chk cap size v = some e) (hv : Scalar v) :
      ∀ (n : Nat) (tail : List UInt8), e.length ≤ n → readTree n (e ++ tail) = some (tree v) := by
    intro n tail hn
    have h := put_scalar hv hf hp
    have hpos := h.1
    obtain ⟨m, rfl⟩ : ∃ m', n = m' + 1 := ⟨n - 1, by omega⟩
    exact h.2.2 ht m tail

theorem read_putAll {chk : Bool} : ∀ (xs : List Val) {cap : Option Nat} {size : Nat} {e : List UInt8}, AllFit xs →
    AllNoShortBin xs → AllTimesPlain xs → putAll chk cap size xs = some e →
      ∀ (n : Nat) (tail : List UInt8), e.length ≤ n →
        collect ((List.range xs.length).map fun i => (skip i (e ++ tail)).bind (readTree n)) = some (trees xs)
  | [], cap, size, e, hf, hb, ht, hp => by
    intro n tail _
    rfl
  | x :: xs, cap, size, e, hf, hb, ht, hp => by
    obtain ⟨e1, e2, h1, h2, rfl⟩ := putAll_cons_inv hp
    intro n tail hn
    simp only [List.length_append] at hn
    have hs := skip_succ (next_put x hf.1 hb.1 h1).2
    have ih := read_putAll xs hf.2 hb.2 ht.2 h2 n tail (by omega)
    rw [List.length_cons, List.range_succ_eq_map, List.map_cons, List.map_map, collect, List.append_assoc]
    have h0 : skip 0 (e1 ++ (e2 ++ tail)) = some (e1 ++ (e2 ++ tail)) := rfl
    rw [h0, Option.bind_some, read_put x hf.1 hb.1 ht.1 h1 n _ (by omega), Option.bind_some]
    have : ((fun i => (skip i (e1 ++ (e2 ++ tail))).bind (readTree n)) ∘ Nat.succ) =
        fun i => (skip i (e2 ++ tail)).bind (readTree n) := by
      funext i
      simp only [Function.comp, Nat.succ_eq_add_one, hs]
    rw [this, ih, Option.map_some, trees]
end

mutual
/-- `put` succeeds. -/
theorem put_some {chk : Bool} : ∀ (v : Val) {cap : Option Nat} {size : Nat}, Fits v → (chk = true → MapsSmall v) →
    accepts cap size = true → ∃ e, put chk cap size v = some e
  | .arr n xs, cap, size, hf, hm, _ => by
    obtain ⟨hn, hn2, hall⟩ := hf
    obtain ⟨k, hk⟩ := arrFormat_some hn2
    obtain ⟨body, hb⟩ := putAll_some (chk := chk) xs (cap := if chk then some (formatCap k) else none) (size := 0)
      hall hm (by
        intro c hc
        cases chk with
        | false => simp at hc
        | true =>
          simp at hc; subst hc
          rcases arrFormat_cases hk with ⟨rfl, h⟩ | ⟨rfl, h⟩ | ⟨rfl, h⟩ <;> simp [formatCap] <;> omega)
    exact ⟨_, by rw [put, hk, Option.bind_some, hb, Option.map_some]⟩
  | .map n kvs, cap, size, hf, hm, _ => by
    obtain ⟨hn, hn2, hall⟩ := hf
    obtain ⟨k, hk⟩ := arrFormat_some (n := n) (by omega)
    obtain ⟨body, hb⟩ := putAll_some (chk := chk) kvs (cap := if chk then some (formatCap k) else none) (size := 0)
      hall (fun h => (hm h).2) (by
        intro c hc
        cases chk with
        | false => simp at hc
        | true =>
          simp at hc; subst hc
          have := (hm rfl).1
          rcases arrFormat_cases hk with ⟨rfl, h⟩ | ⟨rfl, h⟩ | ⟨rfl, h⟩ <;> simp [formatCap] <;> omega)
    exact ⟨_, by rw [put, hk, Option.bind_some, hb, Option.bind_some, if_neg (by omega)]⟩
  | .nil, cap, size, _, _, ha => ⟨_, by rw [put, if_pos ha]⟩
  | .bool _, cap, size, _, _, ha => ⟨_, by rw [put, if_pos ha]⟩
  | .sint _ _, cap, size, _, _, ha => ⟨_, by rw [put, if_pos ha]⟩
  | .integer _, cap, size, _, _, ha => ⟨_, by rw [put, if_pos ha]⟩
  | .uint _ _, cap, size, _, _, ha => ⟨_, by rw [put, if_pos ha]⟩
  | .u8 _, cap, size, _, _, ha => ⟨_, by rw [put, if_pos ha]⟩
  | .float _, cap, size, _, _, ha => ⟨_, by rw [put, if_pos ha]⟩
  | .double _, cap, size, _, _, ha => ⟨_, by rw [put, if_pos ha]⟩
  | .time _, cap, size, _, _, ha => ⟨_, by rw [put, if_pos ha]⟩
  | .fixstr s, cap, size, hf, _, ha => ⟨_, by
      rw [put, if_pos ha, if_neg (by have h : s.length ≤ 31 := hf; omega)]⟩
  | .str s, cap, size, hf, _, ha => by
    have h : s.length < 2 ^ 32 := hf
    rw [put, if_pos ha, putStr]
    by_cases h1 : s.length ≤ 31
    · rw [if_pos h1]; exact ⟨_, rfl⟩
    · rw [if_neg h1]
      by_cases h2 : s.length ≤ 65535
      · rw [if_pos h2]; exact ⟨_, rfl⟩
      · rw [if_neg h2, if_pos (by omega)]; exact ⟨_, rfl⟩
  | .bin s, cap, size, hf, _, ha => by
    have h : s.length < 2 ^ 32 := hf
    rw [put, if_pos ha, putBin]
    by_cases h1 : s.length ≤ 255
    · rw [if_pos h1]; exact ⟨_, rfl⟩
    · rw [if_neg h1]
      by_cases h2 : s.length ≤ 65535
      · rw [if_pos h2]; exact ⟨_, rfl⟩
      · rw [if_neg h2, if_pos (by omega)]; exact ⟨_, rfl⟩

theorem putAll_some {chk : Bool} : ∀ (xs : List Val) {cap : Option Nat} {size : Nat}, AllFit xs →
    (chk = true → AllMapsSmall xs) → (∀ c, cap = some c → size + xs.length ≤ c) →
      ∃ e, putAll chk cap size xs = some e
  | [], cap, size, _, _, _ => ⟨[], by rw [putAll]⟩
  | x :: xs, cap, size, hf, hm, hc => by
    have ha : accepts cap size = true := by
      cases cap with
      | none => rfl
      | some c =>
        have := hc c rfl
        simp only [List.length_cons] at this
        simp only [accepts]
        exact decide_eq_true (by omega)
    obtain ⟨e1, h1⟩ := put_some x hf.1 (fun h => (hm h).1) ha
    obtain ⟨e2, h2⟩ := putAll_some (cap := cap) (size := size + 1) xs hf.2 (fun h => (hm h).2) (by
      intro c h
      have := hc c h
      simp only [List.length_cons] at this
      omega)
    exact ⟨e1 ++ e2, by rw [putAll, h1, Option.bind_some, h2, Option.map_some]⟩
end

end Verif.Msgpack
