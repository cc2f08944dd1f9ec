import Verif.Uuid.Spec
/-! # Lemmas about UUIDs -/
namespace Verif.Uuid
open Verif.Data Verif.DataText Spec

theorem lookup_denotes {c : UInt8} {n : Nat} (h : Denotes c n) : (lookup c).toNat = n ∧ n < 16 ∧ c ≠ ch '-' ∧ c ≠ ch '{' := by
  have h1 : ∀ k < 256, 48 ≤ k → k ≤ 57 → (lookup (UInt8.ofNat k)).toNat = k - 48 ∧ k - 48 < 16 ∧ UInt8.ofNat k ≠ ch '-' ∧ UInt8.ofNat k ≠ ch '{' := by
    decide +kernel
  have h2 : ∀ k < 256, 65 ≤ k → k ≤ 70 → (lookup (UInt8.ofNat k)).toNat = k - 65 + 10 ∧ k - 65 + 10 < 16 ∧ UInt8.ofNat k ≠ ch '-' ∧ UInt8.ofNat k ≠ ch '{' := by
    decide +kernel
  have h3 : ∀ k < 256, 97 ≤ k → k ≤ 102 → (lookup (UInt8.ofNat k)).toNat = k - 97 + 10 ∧ k - 97 + 10 < 16 ∧ UInt8.ofNat k ≠ ch '-' ∧ UInt8.ofNat k ≠ ch '{' := by
    decide +kernel
  have h1 := h1 c.toNat c.toNat_lt
  have h2 := h2 c.toNat c.toNat_lt
  have h3 := h3 c.toNat c.toNat_lt
  rw [UInt8.ofNat_toNat] at h1 h2 h3
  cases h with
  | decimal g1 g2 => exact h1 g1 g2
  | upper g1 g2 => exact h2 g1 g2
  | lower g1 g2 => exact h3 g1 g2

theorem join_byte (b x y : UInt8) (hx : x.toNat = b.toNat / 16) (hy : y.toNat = b.toNat % 16) : (x <<< 4) ||| y = b := by
  have all : ∀ k < 256, ((UInt8.ofNat (k / 16) <<< (4 : UInt8)) ||| UInt8.ofNat (k % 16) : UInt8) = UInt8.ofNat k := by decide +kernel
  have h := all b.toNat b.toNat_lt
  rw [← hx, ← hy] at h
  simpa using h

/-- A byte without dashes before it. -/
theorem byteP_plain {b c1 c2 : UInt8} (h1 : Denotes c1 (b.toNat / 16)) (h2 : Denotes c2 (b.toNat % 16)) (i : Nat) (r : Str) :
    byteP i false (c1 :: c2 :: r) = some (b, false, r) := by
  obtain ⟨e1, _, n1, _⟩ := lookup_denotes h1
  obtain ⟨e2, _, _, _⟩ := lookup_denotes h2
  simp [byteP, next, firstDash, otherDash, n1, join_byte b _ _ e1 e2]

/-- A byte where there are dashes. -/
theorem byteP_dashes {b c1 c2 : UInt8} (h1 : Denotes c1 (b.toNat / 16)) (h2 : Denotes c2 (b.toNat % 16)) (i : Nat) (r : Str) :
    byteP i true ((if i = 6 ∨ i = 8 ∨ i = 10 then [ch '-'] else []) ++ (c1 :: c2 :: r)) = some (b, true, r) := by
  obtain ⟨e1, _, n1, _⟩ := lookup_denotes h1
  obtain ⟨e2, _, _, _⟩ := lookup_denotes h2
  have hb := join_byte b _ _ e1 e2
  by_cases hi : i = 6 ∨ i = 8 ∨ i = 10
  · have h4 : i ≠ 4 := by omega
    simp [byteP, next, firstDash, otherDash, hi, h4, hb]
  · simp [byteP, next, firstDash, otherDash, hi, n1, hb]

theorem byteP_first {b c1 c2 : UInt8} (h1 : Denotes c1 (b.toNat / 16)) (h2 : Denotes c2 (b.toNat % 16)) (r : Str) :
    byteP 4 false (ch '-' :: c1 :: c2 :: r) = some (b, true, r) := by
  obtain ⟨e1, _, n1, _⟩ := lookup_denotes h1
  obtain ⟨e2, _, _, _⟩ := lookup_denotes h2
  simp [byteP, next, firstDash, otherDash, join_byte b _ _ e1 e2]

theorem bytesP_plain : ∀ {bs : List UInt8} {cs : Str}, List.Forall₂ Denotes cs (nibbles bs) → ∀ (i : Nat) (r : Str),
    bytesP bs.length i false (cs ++ r) = some (bs, r) := by
  intro bs
  induction bs with
  | nil => intro cs h i r; cases h; rfl
  | cons b bs ih =>
    intro cs h i r
    cases h with
    | cons h1 h =>
      cases h with
      | cons h2 h =>
        simp only [List.length_cons, bytesP, List.cons_append]
        rw [byteP_plain h1 h2]
        simp only [Option.bind_some]
        rw [ih h]
        rfl

/-- The dash before byte `i`. -/
def dashAt (i : Nat) : Str := if i = 6 ∨ i = 8 ∨ i = 10 then [ch '-'] else []

/-- The rest of a text with dashes. -/
def withDashes : Nat → Str → Str
  | i, c1 :: c2 :: cs => dashAt i ++ (c1 :: c2 :: withDashes (i + 1) cs)
  | _, _ => []

theorem bytesP_dashes : ∀ {bs : List UInt8} {cs : Str}, List.Forall₂ Denotes cs (nibbles bs) → ∀ (i : Nat) (r : Str),
    bytesP bs.length i true (withDashes i cs ++ r) = some (bs, r) := by
  intro bs
  induction bs with
  | nil => intro cs h i r; cases h; rfl
  | cons b bs ih =>
    intro cs h i r
    cases h with
    | cons h1 h =>
      cases h with
      | cons h2 h =>
        simp only [List.length_cons, bytesP, withDashes, List.append_assoc, List.cons_append]
        unfold dashAt
        rw [byteP_dashes h1 h2 i]
        simp only [Option.bind_some]
        rw [ih h]
        rfl

theorem nibbles_length (bs : List UInt8) : (nibbles bs).length = 2 * bs.length := by
  induction bs with
  | nil => rfl
  | cons b bs ih => simp only [nibbles, List.flatMap_cons, List.length_append, List.length_cons, List.length_nil] at ih ⊢; omega

/-- Thirty-two characters. -/
theorem split32 {t : Str} (h : t.length = 32) : ∃ a0 a1 a2 a3 a4 a5 a6 a7 a8 a9 b0 b1 b2 b3 b4 b5 b6 b7 b8 b9 c0 c1 c2 c3 c4 c5 c6 c7 c8 c9 d0 d1,
    t = [a0, a1, a2, a3, a4, a5, a6, a7, a8, a9, b0, b1, b2, b3, b4, b5, b6, b7, b8, b9, c0, c1, c2, c3, c4, c5, c6, c7, c8, c9, d0, d1] := by
  refine ⟨t[0], t[1], t[2], t[3], t[4], t[5], t[6], t[7], t[8], t[9], t[10], t[11], t[12], t[13], t[14], t[15], t[16], t[17], t[18], t[19], t[20],
    t[21], t[22], t[23], t[24], t[25], t[26], t[27], t[28], t[29], t[30], t[31], ?_⟩
  apply List.ext_getElem
  · simp [h]
  · intro i h1 h2
    rw [h] at h1
    have : ∀ i (hi : i < 32), i = 0 ∨ i = 1 ∨ i = 2 ∨ i = 3 ∨ i = 4 ∨ i = 5 ∨ i = 6 ∨ i = 7 ∨ i = 8 ∨ i = 9 ∨ i = 10 ∨ i = 11 ∨ i = 12 ∨ i = 13 ∨
      i = 14 ∨ i = 15 ∨ i = 16 ∨ i = 17 ∨ i = 18 ∨ i = 19 ∨ i = 20 ∨ i = 21 ∨ i = 22 ∨ i = 23 ∨ i = 24 ∨ i = 25 ∨ i = 26 ∨ i = 27 ∨ i = 28 ∨
      i = 29 ∨ i = 30 ∨ i = 31 := by omega
    rcases this i h1 with rfl | rfl | rfl | rfl | rfl | rfl | rfl | rfl | rfl | rfl | rfl | rfl | rfl | rfl | rfl | rfl | rfl | rfl | rfl | rfl |
      rfl | rfl | rfl | rfl | rfl | rfl | rfl | rfl | rfl | rfl | rfl | rfl <;> rfl

theorem dashed_eq {t : Str} (h : t.length = 32) : dashed t = t.take 8 ++ (ch '-' :: (withDashes 4 (t.drop 8))) := by
  obtain ⟨a0, a1, a2, a3, a4, a5, a6, a7, a8, a9, b0, b1, b2, b3, b4, b5, b6, b7, b8, b9, c0, c1, c2, c3, c4, c5, c6, c7, c8, c9, d0, d1, rfl⟩ := split32 h
  rfl

theorem forall_take {cs : Str} {bs : List UInt8} (h : List.Forall₂ Denotes cs (nibbles bs)) : ∀ n, n ≤ bs.length →
    List.Forall₂ Denotes (cs.take (2 * n)) (nibbles (bs.take n)) ∧ List.Forall₂ Denotes (cs.drop (2 * n)) (nibbles (bs.drop n)) := by
  induction bs generalizing cs with
  | nil => intro n hn; cases h; have : n = 0 := by simpa using hn
           subst this; exact ⟨.nil, .nil⟩
  | cons b bs ih =>
    intro n hn
    cases n with
    | zero => exact ⟨by simp [nibbles], by simpa using h⟩
    | succ n =>
      cases h with
      | cons h1 h =>
        cases h with
        | cons h2 h =>
          obtain ⟨e1, e2⟩ := ih h n (by simpa using hn)
          exact ⟨.cons h1 (.cons h2 e1), e2⟩

theorem bytesP_add : ∀ (m n i : Nat) (d : Bool) (s : Str), bytesP (m + n) i d s =
    match bytesP m i d s with
    | none => none
    | some _ => bytesP (m + n) i d s := by
  intro m n i d s
  cases h : bytesP m i d s with
  | some _ => rfl
  | none =>
    simp only
    induction m generalizing i d s with
    | zero => simp [bytesP] at h
    | succ m ih =>
      rw [show m + 1 + n = (m + n) + 1 by omega, bytesP] at *
      cases hb : byteP i d s with
      | none => rfl
      | some x =>
        obtain ⟨b, d', s'⟩ := x
        rw [hb] at h
        simp only [Option.bind_some, Option.map_eq_none_iff] at h ⊢
        exact ih _ _ _ h

/-- Some bytes and then others. -/
theorem bytesP_then : ∀ {bs1 bs2 : List UInt8} {i : Nat} {cs1 s r : Str}, List.Forall₂ Denotes cs1 (nibbles bs1) →
    bytesP bs2.length (i + bs1.length) false s = some (bs2, r) → bytesP (bs1 ++ bs2).length i false (cs1 ++ s) = some (bs1 ++ bs2, r) := by
  intro bs1
  induction bs1 with
  | nil => intro bs2 i cs1 s r h1 h2; cases h1; simpa using h2
  | cons b bs1 ih =>
    intro bs2 i cs1 s r h h2
    cases h with
    | cons h1 h =>
      cases h with
      | cons h1' h =>
        simp only [List.cons_append, List.length_cons, bytesP]
        rw [byteP_plain h1 h1']
        simp only [Option.bind_some]
        rw [ih h (by rw [List.length_cons] at h2; rwa [Nat.add_assoc, Nat.add_comm 1])]
        rfl

theorem dashed_read {bs : List UInt8} {cs : Str} (hl : bs.length = 16) (h : List.Forall₂ Denotes cs (nibbles bs)) (r : Str) :
    bytesP 16 0 false (dashed cs ++ r) = some (bs, r) := by
  have hcs : cs.length = 32 := by rw [h.length_eq, nibbles_length, hl]
  obtain ⟨h1, h2⟩ := forall_take h 4 (by omega)
  obtain ⟨b, bs', hb⟩ : ∃ b bs', bs.drop 4 = b :: bs' := by
    cases hd : bs.drop 4 with
    | nil => have := congrArg List.length hd; simp [hl] at this
    | cons b bs' => exact ⟨b, bs', rfl⟩
  rw [hb] at h2
  have hlen : bs'.length = 11 := by have := congrArg List.length hb; simp [hl] at this; omega
  rw [dashed_eq hcs, List.append_assoc]
  have hbs : bs = bs.take 4 ++ b :: bs' := by rw [← hb, List.take_append_drop]
  have key : bytesP (b :: bs').length (0 + (bs.take 4).length) false ((ch '-' :: withDashes 4 (cs.drop 8)) ++ r) = some (b :: bs', r) := by
    rw [show 0 + (bs.take 4).length = 4 by simp [hl]]
    generalize cs.drop (2 * 4) = t at h2
    cases h2 with
    | cons g1 h2 =>
      cases h2 with
      | cons g2 h2 =>
        simp only [List.length_cons, bytesP, withDashes, List.cons_append, show dashAt 4 = [] from rfl, List.nil_append]
        rw [byteP_first g1 g2]
        simp only [Option.bind_some]
        rw [bytesP_dashes h2]
        rfl
  have := bytesP_then h1 key
  rwa [← hbs, hl] at this

theorem pack_uuid (u : Uuid) : pack u.bytes = some u := by simp [pack, u.len]

theorem head_brace {cs : Str} {ns : List Nat} (h : List.Forall₂ Denotes cs ns) (hn : ns ≠ []) : ∃ c r, cs = c :: r ∧ c ≠ ch '{' := by
  cases h with
  | nil => exact absurd rfl hn
  | cons h _ => exact ⟨_, _, rfl, (lookup_denotes h).2.2.2⟩

theorem parse_of {u : Uuid} {c : UInt8} {r : Str} (hc : c ≠ ch '{') (h : bytesP 16 0 false (c :: r) = some (u.bytes, [])) : parse (c :: r) = some u := by
  simp [parse, hc, h, pack_uuid]

theorem nibbles_ne (u : Uuid) : nibbles u.bytes ≠ [] := by
  intro h
  have := congrArg List.length h
  rw [nibbles_length, u.len] at this
  simp at this

theorem hexChar_spec (n : Nat) (h : n < 16) : Denotes ([48, 49, 50, 51, 52, 53, 54, 55, 56, 57, 97, 98, 99, 100, 101, 102].getD n 0) n := by
  have all : ∀ n < 16, let c : UInt8 := [48, 49, 50, 51, 52, 53, 54, 55, 56, 57, 97, 98, 99, 100, 101, 102].getD n 0
      (48 ≤ c.toNat ∧ c.toNat ≤ 57 ∧ n = c.toNat - 48) ∨ (97 ≤ c.toNat ∧ c.toNat ≤ 102 ∧ n = c.toNat - 97 + 10) := by decide
  have h := all n h
  generalize ([48, 49, 50, 51, 52, 53, 54, 55, 56, 57, 97, 98, 99, 100, 101, 102] : List UInt8).getD n 0 = c at h
  rcases h with ⟨h1, h2, rfl⟩ | ⟨h1, h2, rfl⟩
  · exact .decimal h1 h2
  · exact .lower h1 h2

theorem lowerHex_denotes (bs : List UInt8) : List.Forall₂ Denotes (lowerHex bs) (nibbles bs) := by
  unfold lowerHex
  rw [List.forall₂_map_left_iff, List.forall₂_same]
  intro n hn
  obtain ⟨b, _, hb⟩ := List.mem_flatMap.mp hn
  have := b.toNat_lt
  refine hexChar_spec n ?_
  simp at hb
  omega

theorem hexChar_hi (b : UInt8) : hexChar ((b >>> 4) &&& 0x0f) = ([48, 49, 50, 51, 52, 53, 54, 55, 56, 57, 97, 98, 99, 100, 101, 102] : List UInt8).getD (b.toNat / 16) 0
    ∧ hexChar (b &&& 0x0f) = ([48, 49, 50, 51, 52, 53, 54, 55, 56, 57, 97, 98, 99, 100, 101, 102] : List UInt8).getD (b.toNat % 16) 0 := by
  have all : ∀ k < 256, hexChar ((UInt8.ofNat k >>> (4 : UInt8)) &&& (0x0f : UInt8)) = ([48, 49, 50, 51, 52, 53, 54, 55, 56, 57, 97, 98, 99, 100, 101, 102] : List UInt8).getD (k / 16) 0
    ∧ hexChar (UInt8.ofNat k &&& 0x0f) = ([48, 49, 50, 51, 52, 53, 54, 55, 56, 57, 97, 98, 99, 100, 101, 102] : List UInt8).getD (k % 16) 0 := by decide +kernel
  have h := all b.toNat b.toNat_lt
  rwa [UInt8.ofNat_toNat] at h

theorem lowerHex_cons (b : UInt8) (bs : List UInt8) : lowerHex (b :: bs) = hexChar ((b >>> 4) &&& 0x0f) :: hexChar (b &&& 0x0f) :: lowerHex bs := by
  rw [(hexChar_hi b).1, (hexChar_hi b).2]
  rfl

theorem split16 {t : List UInt8} (h : t.length = 16) : ∃ a0 a1 a2 a3 a4 a5 a6 a7 a8 a9 b0 b1 b2 b3 b4 b5,
    t = [a0, a1, a2, a3, a4, a5, a6, a7, a8, a9, b0, b1, b2, b3, b4, b5] := by
  refine ⟨t[0], t[1], t[2], t[3], t[4], t[5], t[6], t[7], t[8], t[9], t[10], t[11], t[12], t[13], t[14], t[15], ?_⟩
  apply List.ext_getElem
  · simp [h]
  · intro i h1 h2
    rw [h] at h1
    have : ∀ i (hi : i < 16), i = 0 ∨ i = 1 ∨ i = 2 ∨ i = 3 ∨ i = 4 ∨ i = 5 ∨ i = 6 ∨ i = 7 ∨ i = 8 ∨ i = 9 ∨ i = 10 ∨ i = 11 ∨ i = 12 ∨ i = 13 ∨
      i = 14 ∨ i = 15 := by omega
    rcases this i h1 with rfl | rfl | rfl | rfl | rfl | rfl | rfl | rfl | rfl | rfl | rfl | rfl | rfl | rfl | rfl | rfl <;> rfl

theorem print_spec (u : Uuid) : print u = dashed (lowerHex u.bytes) := by
  obtain ⟨bs, h⟩ := u
  obtain ⟨a0, a1, a2, a3, a4, a5, a6, a7, a8, a9, b0, b1, b2, b3, b4, b5, rfl⟩ := split16 h
  simp only [lowerHex_cons]
  rfl

/-! Names -/

theorem extension_mdx (t : Str) (h : t ≠ []) : extension (t ++ str ".mdx") = str ".mdx" := by
  have e : str ".mdx" = [46, 109, 100, 120] := by decide
  have e2 : ch '.' = 46 := by decide
  unfold extension
  rw [e, e2]
  have h1 : ((t ++ [46, 109, 100, 120]).reverse.takeWhile fun x => x != 46) = [120, 100, 109] := by
    rw [List.reverse_append]
    rfl
  rw [h1, if_pos]
  · rfl
  · refine ⟨by simp, ?_, by
      have := List.length_pos_iff.mpr h
      simp; omega⟩
    intro hc
    have := congrArg List.length hc
    simp at this

theorem extension_none {t : Str} (h : (46 : UInt8) ∉ t) : extension t = [] := by
  unfold extension
  rw [if_neg]
  intro hc
  have := hc.1
  rw [show ch '.' = 46 by decide] at this
  exact h (by simpa using this)

theorem dashed_digits {cs : Str} {ns : List Nat} (h : List.Forall₂ Denotes cs ns) : ∀ c ∈ dashed cs, c = 45 ∨ ∃ n, Denotes c n := by
  have hm : ∀ c ∈ cs, ∃ n, Denotes c n := by
    intro c hc
    induction h with
    | nil => simp at hc
    | cons h1 _ ih =>
      rcases List.mem_cons.mp hc with rfl | hc
      · exact ⟨_, h1⟩
      · exact ih hc
  intro c hc
  unfold dashed at hc
  simp only [List.mem_append, List.mem_singleton] at hc
  rcases hc with (((((((hc | hc) | hc) | hc) | hc) | hc) | hc) | hc) | hc
  · exact .inr (hm c (List.mem_of_mem_take hc))
  · exact .inl hc
  · exact .inr (hm c (List.mem_of_mem_drop (List.mem_of_mem_take hc)))
  · exact .inl hc
  · exact .inr (hm c (List.mem_of_mem_drop (List.mem_of_mem_take hc)))
  · exact .inl hc
  · exact .inr (hm c (List.mem_of_mem_drop (List.mem_of_mem_take hc)))
  · exact .inl hc
  · exact .inr (hm c (List.mem_of_mem_drop hc))

theorem dashed_nodot {cs : Str} {ns : List Nat} (h : List.Forall₂ Denotes cs ns) : (46 : UInt8) ∉ dashed cs := by
  intro hc
  rcases dashed_digits h _ hc with h | ⟨n, h⟩
  · exact absurd h (by decide)
  · cases h with
    | decimal h1 h2 => exact absurd h1 (by decide)
    | upper h1 h2 => exact absurd h1 (by decide)
    | lower h1 h2 => exact absurd h1 (by decide)

end Verif.Uuid
