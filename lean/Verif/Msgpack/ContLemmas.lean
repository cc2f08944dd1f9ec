import Verif.Msgpack.Lemmas
import Verif.Msgpack.Spec

/-! Lemmas on MessagePack containers and time stamps. -/

namespace Verif.Msgpack
open Spec

/-! ### Time stamps -/

theorem visit_ts32 (d : Nat) (h : d < 2 ^ 32) : Obj ([0xd6, 0xff] ++ be 4 d) fun _ =>
    .time (toSigned 4 d * 1000000000) := by
  refine obj_of (b := 0xd6) (e := 0xff :: be 4 d) (fun tail => ?_) (fun f tail => ?_)
  · have h1 : rd (0xd6 :: (0xff :: be 4 d ++ tail)) 1 1 = some [0xff] :=
      rd_mid' (a := [0xd6]) (s := [0xff]) (tail := be 4 d ++ tail) rfl rfl
    have h2 : rd (0xd6 :: (0xff :: be 4 d ++ tail)) 2 4 = some (be 4 d) :=
      rd_mid' (a := [0xd6, 0xff]) (s := be 4 d) (tail := tail) rfl (be_length 4 d)
    have h3 : d % 256 ^ 4 = d := Nat.mod_eq_of_lt h
    have h4 : toSigned 1 (ofBe [0xff]) = -1 := by decide
    simp only [visitAt, visitFormat, UInt8.reduceToNat, seeExt4, fixext, h1, h2, Option.bind_some,
      Option.map_some, h4, ofBe_be, h3]
    simp [seen]
  · simp only [nextAt, nextFormat, UInt8.reduceToNat]
    simpa using advance_cons (b := 0xd6) (e := 0xff :: be 4 d) (tail := tail) (n := 6) (by simp [be_length])

theorem visit_ts64 (d : Nat) (h : d < 2 ^ 64) : Obj ([0xd7, 0xff] ++ be 8 d) fun _ =>
    .time ((d % 2 ^ 34 : Nat) * 1000000000 + (d / 2 ^ 34 : Nat)) := by
  refine obj_of (b := 0xd7) (e := 0xff :: be 8 d) (fun tail => ?_) (fun f tail => ?_)
  · have h1 : rd (0xd7 :: (0xff :: be 8 d ++ tail)) 1 1 = some [0xff] :=
      rd_mid' (a := [0xd7]) (s := [0xff]) (tail := be 8 d ++ tail) rfl rfl
    have h2 : rd (0xd7 :: (0xff :: be 8 d ++ tail)) 2 8 = some (be 8 d) :=
      rd_mid' (a := [0xd7, 0xff]) (s := be 8 d) (tail := tail) rfl (be_length 8 d)
    have h3 : d % 256 ^ 8 = d := Nat.mod_eq_of_lt h
    have h4 : toSigned 1 (ofBe [0xff]) = -1 := by decide
    simp only [visitAt, visitFormat, UInt8.reduceToNat, seeExt8, fixext, h1, h2, Option.bind_some,
      Option.map_some, h4, ofBe_be, h3]
    simp [seen]
  · simp only [nextAt, nextFormat, UInt8.reduceToNat]
    simpa using advance_cons (b := 0xd7) (e := 0xff :: be 8 d) (tail := tail) (n := 10) (by simp [be_length])

theorem visit_ts96 (a b : Nat) (ha : a < 2 ^ 32) (hb : b < 2 ^ 64) :
    Obj ([0xc7, 12, 0xff] ++ be 4 a ++ be 8 b) fun _ => .time (toSigned 8 b * 1000000000 + (a : Nat)) := by
  refine obj_of (b := 0xc7) (e := 12 :: 0xff :: (be 4 a ++ be 8 b)) (fun tail => ?_) (fun f tail => ?_)
  · have h0 : num (0xc7 :: (12 :: 0xff :: (be 4 a ++ be 8 b) ++ tail)) 1 = some 12 := by
      have := rd_mid' (a := [0xc7]) (s := [12]) (tail := 0xff :: (be 4 a ++ be 8 b) ++ tail) rfl rfl
      have h := congrArg (Option.map ofBe) this
      exact h
    have h1 : rd (0xc7 :: (12 :: 0xff :: (be 4 a ++ be 8 b) ++ tail)) 2 1 = some [0xff] :=
      rd_mid' (a := [0xc7, 12]) (s := [0xff]) (tail := (be 4 a ++ be 8 b) ++ tail) rfl rfl
    have h2 : rd (0xc7 :: (12 :: 0xff :: (be 4 a ++ be 8 b) ++ tail)) 3 12 = some (be 4 a ++ be 8 b) :=
      rd_mid' (a := [0xc7, 12, 0xff]) (s := be 4 a ++ be 8 b) (tail := tail) rfl (by simp [be_length])
    have h4 : toSigned 1 (ofBe [0xff]) = -1 := by decide
    have h5 : be 4 a ++ be 8 b ≠ [] := by
      intro h; have := congrArg List.length h; simp [be_length] at this
    have h6 : (be 4 a ++ be 8 b).take 4 = be 4 a := by rw [List.take_left' (be_length 4 a)]
    have h7 : (be 4 a ++ be 8 b).drop 4 = be 8 b := by rw [List.drop_left' (be_length 4 a)]
    have h8 : (be 4 a ++ be 8 b).length = 12 := by simp [be_length]
    simp only [visitAt, visitFormat, UInt8.reduceToNat, seeExtVar8, extn, h0, h1, h2, Option.bind_some,
      Nat.reduceAdd, Option.map_some, h4]
    simp [seen, h2, h4, h6, h7, h8, h5, ofBe_be]
    rw [Nat.mod_eq_of_lt (show b < 18446744073709551616 from hb)]
    omega
  · simp only [nextAt, nextFormat, UInt8.reduceToNat]
    have h0 : num (0xc7 :: (12 :: 0xff :: (be 4 a ++ be 8 b) ++ tail)) 1 = some 12 := by
      have := rd_mid' (a := [0xc7]) (s := [12]) (tail := 0xff :: (be 4 a ++ be 8 b) ++ tail) rfl rfl
      have h := congrArg (Option.map ofBe) this
      exact h
    rw [h0]
    simpa using advance_cons (b := 0xc7) (e := 12 :: 0xff :: (be 4 a ++ be 8 b)) (tail := tail) (n := 15)
      (by simp [be_length])

theorem tdiv_nonneg' {t : Int} (h : 0 ≤ t) : t.tdiv 1000000000 = t / 1000000000 :=
  Int.tdiv_eq_ediv_of_nonneg h

theorem tdiv_whole {t : Int} (h : t % 1000000000 = 0) : t.tdiv 1000000000 = t / 1000000000 :=
  Int.tdiv_eq_ediv_of_dvd (Int.dvd_of_emod_eq_zero h)

theorem data64_lt (secs ns : Int) : data64 secs ns < 2 ^ 64 := by
  have h1 := toUnsigned_lt 8 (ns * 2 ^ 34)
  have h2 := toUnsigned_lt 8 secs
  exact Nat.or_lt_two_pow h1 h2

theorem data64_pos {secs ns : Nat} (hs : secs < 2 ^ 34) (hn : ns < 1000000000) :
    data64 (secs : Int) (ns : Int) = ns * 2 ^ 34 + secs := by
  rw [data64, toUnsigned_nat (by omega)]
  have : toUnsigned 8 ((ns : Int) * 2 ^ 34) = ns * 2 ^ 34 := by
    have := toUnsigned_nat (k := 8) (n := ns * 2 ^ 34) (by omega)
    simpa using this
  rw [this]
  have h := Nat.shiftLeft_add_eq_or_of_lt hs ns
  rw [Nat.shiftLeft_eq] at h
  exact h.symm

/-- Time stamps: they can always be skipped; most are read back. -/
theorem obj_time {t : Int} (h1 : -(256 ^ 8 : Nat) ≤ 2 * t) (h2 : 2 * t < (256 ^ 8 : Nat)) :
    ∃ s, Obj (putTime t) (fun _ => s) ∧ (TimesPlain (.time t) → s = .time t) := by
  have p8 : (256 ^ 8 : Nat) = 18446744073709551616 := rfl
  rw [p8] at h1 h2
  unfold putTime addTime
  by_cases hs : t.tdiv 1000000000 / 2 ^ 34 = 0
  · rw [if_pos hs]
    by_cases hd : data64 (t.tdiv 1000000000) (t - t.tdiv 1000000000 * 1000000000) < 2 ^ 32
    · rw [if_pos hd]
      refine ⟨_, visit_ts32 _ hd, ?_⟩
      intro hp
      simp only [TimesPlain] at hp
      have h0 : 0 ≤ t := by
        rcases hp with hp | hp
        · exact hp.1
        · exfalso
          rw [tdiv_whole hp.2] at hs
          omega
      have e1 : t.tdiv 1000000000 = ((t / 1000000000).toNat : Int) := by
        rw [tdiv_nonneg' h0]; omega
      have e2 : t - t.tdiv 1000000000 * 1000000000 = ((t % 1000000000).toNat : Int) := by omega
      rw [e1] at hs
      rw [e2, e1, data64_pos (by omega) (by omega)] at hd ⊢
      have e3 : (t % 1000000000).toNat = 0 := by omega
      rw [e3] at hd ⊢
      simp only [Seen.time.injEq, toSigned]
      rw [if_pos (by simp only [Nat.zero_mul, Nat.zero_add]; omega)]
      omega
    · rw [if_neg hd]
      refine ⟨_, visit_ts64 _ (data64_lt _ _), ?_⟩
      intro hp
      simp only [TimesPlain] at hp
      have h0 : 0 ≤ t := by
        rcases hp with hp | hp
        · exact hp.1
        · exfalso
          rw [tdiv_whole hp.2] at hs
          omega
      have e1 : t.tdiv 1000000000 = ((t / 1000000000).toNat : Int) := by
        rw [tdiv_nonneg' h0]; omega
      have e2 : t - t.tdiv 1000000000 * 1000000000 = ((t % 1000000000).toNat : Int) := by omega
      rw [e1] at hs
      rw [e2, e1, data64_pos (by omega) (by omega)]
      simp only [Seen.time.injEq]
      rw [show ((t % 1000000000).toNat * 2 ^ 34 + (t / 1000000000).toNat) % 2 ^ 34 = (t / 1000000000).toNat by omega,
        show ((t % 1000000000).toNat * 2 ^ 34 + (t / 1000000000).toNat) / 2 ^ 34 = (t % 1000000000).toNat by omega]
      omega
  · rw [if_neg hs]
    refine ⟨_, visit_ts96 _ _ (toUnsigned_lt 4 _) (toUnsigned_lt 8 _), ?_⟩
    intro hp
    simp only [TimesPlain] at hp
    have h0 : t < 0 ∧ t % 1000000000 = 0 := by
      rcases hp with hp | hp
      · exfalso
        rw [tdiv_nonneg' hp.1] at hs
        omega
      · exact hp
    have e2 : t - t.tdiv 1000000000 * 1000000000 = ((0 : Nat) : Int) := by
      rw [tdiv_whole h0.2]; omega
    rw [e2, toUnsigned_nat (by decide), tdiv_whole h0.2,
      toSigned_toUnsigned (by rw [p8]; omega) (by rw [p8]; omega)]
    simp only [Seen.time.injEq]
    omega

/-! ### Containers -/

theorem arrFormat_cases {n k : Nat} (h : arrFormat n = some k) :
    (k = 0 ∧ n ≤ 15) ∨ (k = 2 ∧ 15 < n ∧ n ≤ 65535) ∨ (k = 4 ∧ 65535 < n ∧ n ≤ 4294967295) := by
  simp only [arrFormat] at h
  repeat' split at h
  all_goals simp at h
  all_goals omega

theorem arrFormat_some {n : Nat} (h : n < 2 ^ 32) : ∃ k, arrFormat n = some k := by
  simp only [arrFormat]
  repeat' split
  all_goals first
    | exact ⟨_, rfl⟩
    | omega

/-- An array: its view and how it is skipped. -/
theorem visit_arr {n k : Nat} (h : arrFormat n = some k) (d : List UInt8) :
    visit (arrHeader k n ++ d) = .array false n d := by
  rcases arrFormat_cases h with ⟨hk, hn⟩ | ⟨hk, hn⟩ | ⟨hk, hn⟩ <;> subst hk
  · have hb := fixarr_byte ⟨n, by omega⟩
    simp only [arrHeader, if_true, List.singleton_append, visit]
    rw [visitAt, if_neg hb.1, if_neg hb.2.1, if_neg hb.2.2.1, if_pos hb.2.2.2.1, hb.2.2.2.2]
    rfl
  · have hl := be_length 2 n
    simp only [arrHeader, Nat.reduceEqDiff, if_true, if_false, List.cons_append, visit, visitAt, visitFormat,
      UInt8.reduceToNat, Nat.reduceShiftRight, view, num_be, Option.bind_some, seen]
    rw [if_pos (by simp [hl]), Nat.mod_eq_of_lt (a := n) (by omega)]
    simp only [Nat.mul_one, Option.getD_some, Nat.mod_eq_of_lt (a := n) (b := 2 ^ 32) (by omega)]
    rw [show (220 :: (be 2 n ++ d)).drop (1 + 2) = d by
      rw [show 220 :: (be 2 n ++ d) = (220 :: be 2 n) ++ d from rfl]; exact List.drop_left' (by simp [hl])]
  · have hl := be_length 4 n
    simp only [arrHeader, Nat.reduceEqDiff, if_true, if_false, List.cons_append, visit, visitAt, visitFormat,
      UInt8.reduceToNat, Nat.reduceShiftRight, view, num_be, Option.bind_some, seen]
    rw [if_pos (by simp [hl]), Nat.mod_eq_of_lt (a := n) (by omega)]
    simp only [Nat.mul_one, Option.getD_some, Nat.mod_eq_of_lt (a := n) (b := 2 ^ 32) (by omega)]
    rw [show (221 :: (be 4 n ++ d)).drop (1 + 4) = d by
      rw [show 221 :: (be 4 n ++ d) = (221 :: be 4 n) ++ d from rfl]; exact List.drop_left' (by simp [hl])]

theorem visit_map {n k : Nat} (h : arrFormat n = some k) (h31 : n < 2 ^ 31) (d : List UInt8) :
    visit (mapHeader k n ++ d) = .array true (2 * n) d := by
  rcases arrFormat_cases h with ⟨hk, hn⟩ | ⟨hk, hn⟩ | ⟨hk, hn⟩ <;> subst hk
  · have hb := fixmap_byte ⟨n, by omega⟩
    simp only [mapHeader, if_true, List.singleton_append, visit]
    rw [visitAt, if_neg hb.1, if_neg hb.2.1, if_neg hb.2.2.1, if_neg hb.2.2.2.1, if_pos hb.2.2.2.2.1, hb.2.2.2.2.2,
      Nat.mul_comm]
    rfl
  · have hl := be_length 2 n
    simp only [mapHeader, Nat.reduceEqDiff, if_true, if_false, List.cons_append, visit, visitAt, visitFormat,
      UInt8.reduceToNat, Nat.reduceShiftRight, view, num_be, Option.bind_some, seen]
    rw [if_pos (by simp [hl]), Nat.mod_eq_of_lt (a := n) (by omega), Nat.mod_eq_of_lt (a := n * 2) (by omega)]
    simp only [Option.getD_some]
    rw [show (222 :: (be 2 n ++ d)).drop (1 + 2) = d by
      rw [show 222 :: (be 2 n ++ d) = (222 :: be 2 n) ++ d from rfl]; exact List.drop_left' (by simp [hl]),
      Nat.mul_comm]
  · have hl := be_length 4 n
    simp only [mapHeader, Nat.reduceEqDiff, if_true, if_false, List.cons_append, visit, visitAt, visitFormat,
      UInt8.reduceToNat, Nat.reduceShiftRight, view, num_be, Option.bind_some, seen]
    rw [if_pos (by simp [hl]), Nat.mod_eq_of_lt (a := n) (by omega), Nat.mod_eq_of_lt (a := n * 2) (by omega)]
    simp only [Option.getD_some]
    rw [show (223 :: (be 4 n ++ d)).drop (1 + 4) = d by
      rw [show 223 :: (be 4 n ++ d) = (223 :: be 4 n) ++ d from rfl]; exact List.drop_left' (by simp [hl]),
      Nat.mul_comm]

theorem next_arr {n k : Nat} (h : arrFormat n = some k) (m : Nat) (d : List UInt8) :
    nextFuel (m + 1) (arrHeader k n ++ d) = times (nextFuel m) n d := by
  rcases arrFormat_cases h with ⟨hk, hn⟩ | ⟨hk, hn⟩ | ⟨hk, hn⟩ <;> subst hk
  · have hb := fixarr_byte ⟨n, by omega⟩
    simp only [arrHeader, if_true, List.singleton_append, nextFuel]
    rw [nextAt, if_neg (not_or.2 ⟨hb.1, hb.2.1⟩), if_neg hb.2.2.1, if_pos hb.2.2.2.1, hb.2.2.2.2]
    simp [advance]
  · have hl := be_length 2 n
    simp only [arrHeader, Nat.reduceEqDiff, if_true, if_false, List.cons_append, nextFuel, nextAt, nextFormat,
      UInt8.reduceToNat, Nat.reduceShiftRight, nextView, num_be, Option.bind_some, or_false]
    rw [advance_cons (by rw [hl]), Nat.mod_eq_of_lt (a := n) (by omega), Nat.mul_one,
      Nat.mod_eq_of_lt (a := n) (by omega)]
    rfl
  · have hl := be_length 4 n
    simp only [arrHeader, Nat.reduceEqDiff, if_true, if_false, List.cons_append, nextFuel, nextAt, nextFormat,
      UInt8.reduceToNat, Nat.reduceShiftRight, nextView, num_be, Option.bind_some, or_false]
    rw [advance_cons (by rw [hl]), Nat.mod_eq_of_lt (a := n) (by omega), Nat.mul_one,
      Nat.mod_eq_of_lt (a := n) (by omega)]
    rfl

theorem next_map {n k : Nat} (h : arrFormat n = some k) (h31 : n < 2 ^ 31) (m : Nat) (d : List UInt8) :
    nextFuel (m + 1) (mapHeader k n ++ d) = times (nextFuel m) (2 * n) d := by
  rcases arrFormat_cases h with ⟨hk, hn⟩ | ⟨hk, hn⟩ | ⟨hk, hn⟩ <;> subst hk
  · have hb := fixmap_byte ⟨n, by omega⟩
    simp only [mapHeader, if_true, List.singleton_append, nextFuel]
    rw [nextAt, if_neg (not_or.2 ⟨hb.1, hb.2.1⟩), if_neg hb.2.2.1, if_neg hb.2.2.2.1, if_pos hb.2.2.2.2.1,
      hb.2.2.2.2.2, Nat.mul_comm]
    simp [advance]
  · have hl := be_length 2 n
    simp only [mapHeader, Nat.reduceEqDiff, if_true, if_false, List.cons_append, nextFuel, nextAt, nextFormat,
      UInt8.reduceToNat, Nat.reduceShiftRight, nextView, num_be, Option.bind_some, or_false]
    rw [advance_cons (by rw [hl]), Nat.mod_eq_of_lt (a := n) (by omega),
      Nat.mod_eq_of_lt (a := n * 2) (by omega), Nat.mul_comm]
    rfl
  · have hl := be_length 4 n
    simp only [mapHeader, Nat.reduceEqDiff, if_true, if_false, List.cons_append, nextFuel, nextAt, nextFormat,
      UInt8.reduceToNat, Nat.reduceShiftRight, nextView, num_be, Option.bind_some, or_false]
    rw [advance_cons (by rw [hl]), Nat.mod_eq_of_lt (a := n) (by omega),
      Nat.mod_eq_of_lt (a := n * 2) (by omega), Nat.mul_comm]
    rfl

theorem arrHeader_pos (k n : Nat) : 0 < (arrHeader k n).length := by
  simp only [arrHeader]; repeat' split
  all_goals simp

theorem mapHeader_pos (k n : Nat) : 0 < (mapHeader k n).length := by
  simp only [mapHeader]; repeat' split
  all_goals simp

end Verif.Msgpack
