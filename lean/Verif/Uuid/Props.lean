import Verif.Uuid.Lemmas
/-!
# Identifiers of partitions
-/
namespace Verif.Uuid
open Verif.Data Verif.DataText Spec

/-! ## C129: the text of a UUID identifies it -/

/-- It is the text of RFC 4122. -/
theorem C129_print (u : Uuid) : print u = dashed (lowerHex u.bytes) := print_spec u

/-- Any text of RFC 4122, in either case, with or without dashes, is read as the UUID that it denotes. -/
theorem C129_read (u : Uuid) {t : Str} (h : List.Forall₂ Denotes t (nibbles u.bytes)) : parse (dashed t) = some u ∧ parse t = some u := by
  obtain ⟨c, r, hcr, hc⟩ := head_brace h (nibbles_ne u)
  constructor
  · have hd := dashed_read u.len h []
    rw [List.append_nil] at hd
    obtain ⟨r', hr'⟩ : ∃ r', dashed t = c :: r' := by rw [hcr]; exact ⟨_, rfl⟩
    rw [hr'] at hd ⊢
    exact parse_of hc hd
  · have hp := bytesP_plain h 0 []
    rw [u.len, List.append_nil, hcr] at hp
    rw [hcr]
    exact parse_of hc hp

/-- A printed UUID reads back. -/
theorem C129_round (u : Uuid) : parse (print u) = some u := by
  rw [print_spec]
  exact (C129_read u (lowerHex_denotes u.bytes)).1

/-- Different UUIDs have different texts. -/
theorem C129_distinct (u v : Uuid) (h : print u = print v) : u = v := by
  have h1 := C129_round u
  rw [h, C129_round v] at h1
  exact (Option.some.inj h1).symm

/-- `00010203-0405-0607-0809-0a0b0c0d0eff` -/
def exUuid : Uuid := ⟨[0, 1, 2, 3, 4, 5, 6, 7, 8, 9, 10, 11, 12, 13, 14, 255], rfl⟩

example : print exUuid = str "00010203-0405-0607-0809-0a0b0c0d0eff" := by decide +kernel
example : parse (str "000102030405060708090A0B0C0D0EFF") = some exUuid := by decide +kernel

/-- Thirty-two characters that are no digits are taken for a UUID. -/
theorem C129_digits_refuted : (parse (str "zzzzzzzzzzzzzzzzzzzzzzzzzzzzzzzz")).map Uuid.bytes
    = some [255, 255, 255, 255, 255, 255, 255, 255, 255, 255, 255, 255, 255, 255, 255, 255] := by decide +kernel

/-- A text in braces is not read; it is if the closing brace is something else. -/
theorem C129_braces_refuted (u : Uuid) : parse ([ch '{'] ++ print u ++ [ch '}']) = none ∧ ∀ c, c ≠ ch '}' → parse ([ch '{'] ++ print u ++ [c]) = some u := by
  have h := fun r => dashed_read u.len (lowerHex_denotes u.bytes) r
  rw [print_spec]
  constructor
  · simp [parse, h, next]
  · intro c hc
    simp [parse, h, next, hc, pack_uuid]

/-! ## C130: random UUIDs -/

/-- Sixteen bytes; those of the two numbers, from the lowest on, but for the four bits of the version, 4, and the two of the variant, binary 10. -/
theorem C130_random (r1 r2 : UInt64) : (randomBytes r1 r2).length = 16 ∧ ∀ i < 16,
    ((randomBytes r1 r2).getD i 0).toNat =
      (let raw := if i < 8 then r1.toNat / 256 ^ i % 256 else r2.toNat / 256 ^ (i - 8) % 256
       if i = 6 then 4 * 16 + raw % 16 else if i = 8 then 2 * 64 + raw % 64 else raw) := by
  have hb : ∀ (r : UInt64) (i : Nat), i < 8 → (numberBytes r).getD i 0 = UInt8.ofNat (r.toNat / 256 ^ i % 256) := by
    intro r i hi
    have : (numberBytes r).getD i 0 = ((r >>> (UInt64.ofNat i * 8)) &&& 0xff).toUInt8 := by
      unfold numberBytes
      rw [List.getD_eq_getElem?_getD, List.getElem?_map, List.getElem?_range hi]
      rfl
    rw [this]
    apply UInt8.toNat_inj.mp
    have e : (UInt64.ofNat i * 8).toNat % 64 = 8 * i := by
      rcases (show i = 0 ∨ i = 1 ∨ i = 2 ∨ i = 3 ∨ i = 4 ∨ i = 5 ∨ i = 6 ∨ i = 7 by omega) with rfl | rfl | rfl | rfl | rfl | rfl | rfl | rfl <;> rfl
    rw [UInt64.toNat_toUInt8, UInt64.toNat_and, UInt64.toNat_shiftRight, e, Nat.shiftRight_eq_div_pow, Nat.pow_mul]
    have h255 : (0xff : UInt64).toNat = 2 ^ 8 - 1 := rfl
    rw [h255, Nat.and_two_pow_sub_one_eq_mod]
    simp
  have h6 : ∀ k < 256, ((UInt8.ofNat k &&& 0x4f) ||| 0x40).toNat = 4 * 16 + k % 16 := by decide +kernel
  have h8 : ∀ k < 256, ((UInt8.ofNat k &&& 0xbf) ||| 0x80).toNat = 2 * 64 + k % 64 := by decide +kernel
  have hl : ∀ r, (numberBytes r).length = 8 := fun r => by simp [numberBytes]
  have hx : ∀ i < 16, (numberBytes r1 ++ numberBytes r2).getD i 0 = UInt8.ofNat (if i < 8 then r1.toNat / 256 ^ i % 256 else r2.toNat / 256 ^ (i - 8) % 256) := by
    intro i hi
    by_cases h : i < 8
    · rw [List.getD_eq_getElem?_getD, List.getElem?_append_left (by rw [hl]; exact h), ← List.getD_eq_getElem?_getD, if_pos h, hb r1 i h]
    · rw [List.getD_eq_getElem?_getD, List.getElem?_append_right (by rw [hl]; omega), ← List.getD_eq_getElem?_getD, hl, if_neg h, hb r2 (i - 8) (by omega)]
  refine ⟨by simp [randomBytes, hl], ?_⟩
  intro i hi
  have hset : ∀ (l : List UInt8) (j : Nat) (v : UInt8), j < l.length → (l.set j v).getD i 0 = if i = j then v else l.getD i 0 := by
    intro l j v hj
    rw [List.getD_eq_getElem?_getD, List.getD_eq_getElem?_getD, List.getElem?_set]
    by_cases h : j = i
    · subst h; simp [hj]
    · rw [if_neg h, if_neg (fun e => h e.symm)]
  have hraw : ∀ i < 16, (if i < 8 then r1.toNat / 256 ^ i % 256 else r2.toNat / 256 ^ (i - 8) % 256) < 256 := by
    intro i _
    split <;> omega
  simp only
  generalize hg : (fun i : Nat => if i < 8 then r1.toNat / 256 ^ i % 256 else r2.toNat / 256 ^ (i - 8) % 256) = raw
  have hx : ∀ i < 16, (numberBytes r1 ++ numberBytes r2).getD i 0 = UInt8.ofNat (raw i) := fun i hi => by rw [hx i hi, ← hg]
  have hraw : ∀ i < 16, raw i < 256 := fun i hi => by have := hraw i hi; rw [← hg]; exact this
  rw [show (if i < 8 then r1.toNat / 256 ^ i % 256 else r2.toNat / 256 ^ (i - 8) % 256) = raw i by rw [← hg]]
  have hlen : (numberBytes r1 ++ numberBytes r2).length = 16 := by simp [hl]
  unfold randomBytes
  simp only
  rw [hset _ 6 _ (by rw [List.length_set, hlen]; omega)]
  by_cases i6 : i = 6
  · subst i6
    rw [if_pos rfl, if_pos rfl, List.getD_eq_getElem?_getD, List.getElem?_set_ne (by omega), ← List.getD_eq_getElem?_getD, hx 6 (by omega)]
    exact h6 _ (hraw 6 (by omega))
  · rw [if_neg i6, if_neg i6, hset _ 8 _ (by rw [hlen]; omega)]
    by_cases i8 : i = 8
    · subst i8
      rw [if_pos rfl, if_pos rfl, hx 8 (by omega)]
      exact h8 _ (hraw 8 (by omega))
    · rw [if_neg i8, if_neg i8, hx i hi]
      have := hraw i hi
      rw [UInt8.toNat_ofNat', Nat.mod_eq_of_lt this]

example : randomBytes 0x0807060504030201 0x100f0e0d0c0b0a09 = [1, 2, 3, 4, 5, 6, 71, 8, 137, 10, 11, 12, 13, 14, 15, 16] := by decide +kernel

/-! ## C131: the disk monitor erases partitions only -/

/-- In a directory with the state of the index, synopses and partitions, the candidates are the partitions whose file can be examined. -/
theorem C131_candidates_partial {dir : List (Entry × Option Uuid)} (h : ∀ x ∈ dir, Known x.1.name x.2) (u : Uuid) (size mtime : Nat) :
    (u, size, mtime) ∈ candidates (dir.map Prod.fst) ↔ ∃ e, (e, some u) ∈ dir ∧ e.regular = true ∧ e.size = some size ∧ e.mtime = some mtime := by
  have key : ∀ x ∈ dir, candidate x.1 =
      match x.2 with
      | none => none
      | some id => if x.1.regular then
          match x.1.size, x.1.mtime with
          | some size, some mtime => some (id, size, mtime)
          | _, _ => none
        else none := by
    rintro ⟨e, o⟩ hx
    have hk := h _ hx
    simp only at hk
    unfold candidate
    generalize hn : e.name = name at hk
    cases hk with
    | state => rw [if_pos rfl]
    | synopsis v =>
      have hne : dashed (lowerHex v.bytes) ≠ [] := by
        intro hc
        have := congrArg List.length hc
        simp [dashed] at this
      rw [extension_mdx _ hne]
      simp
    | partition v =>
      have hd := dashed_nodot (lowerHex_denotes v.bytes)
      have h1 : dashed (lowerHex v.bytes) ≠ str "index.bin" := by
        intro hc
        rw [hc] at hd
        exact hd (by decide)
      have h2 : extension (dashed (lowerHex v.bytes)) ≠ str ".mdx" := by
        rw [extension_none hd]
        decide
      rw [if_neg h1, if_neg h2, (C129_read v (lowerHex_denotes v.bytes)).1]
      rfl
  unfold candidates
  rw [List.mem_filterMap]
  constructor
  · rintro ⟨e, he, hc⟩
    obtain ⟨⟨e', o⟩, hx, rfl⟩ := List.mem_map.mp he
    rw [key _ hx] at hc
    cases o with
    | none => simp at hc
    | some id =>
      simp only at hc
      split at hc
      · rename_i hr
        split at hc
        · rename_i s m hs hm
          have e1 := Option.some.inj hc
          simp only [Prod.mk.injEq] at e1
          obtain ⟨rfl, rfl, rfl⟩ := e1
          exact ⟨e', hx, hr, hs, hm⟩
        · simp at hc
      · simp at hc
  · rintro ⟨e, hx, hr, hs, hm⟩
    refine ⟨e, List.mem_map.mpr ⟨_, hx, rfl⟩, ?_⟩
    rw [key _ hx]
    simp [hr, hs, hm]

example : Known (print exUuid) (some exUuid) ∧ Known (print exUuid ++ str ".mdx") none := by
  rw [print_spec]
  exact ⟨.partition _, .synopsis _⟩

example : candidates [⟨str "index.bin", true, some 7, some 1⟩, ⟨print exUuid ++ str ".mdx", true, some 8, some 2⟩, ⟨print exUuid, true, some 9, some 3⟩]
    = [(exUuid, 9, 3)] := by decide +kernel

/-- Any other file whose name has thirty-two characters is taken for a partition. -/
theorem C131_stray_refuted : ∃ u, candidates [⟨str "notes_on_this_database_directory", true, some 9, some 3⟩] = [(u, 9, 3)] :=
  ⟨⟨[255, 254, 255, 255, 255, 255, 255, 218, 250, 186, 254, 253, 255, 236, 255, 255], rfl⟩, by decide +kernel⟩

end Verif.Uuid
