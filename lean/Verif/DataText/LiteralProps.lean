import Verif.DataText.Literals
import Verif.DataText.LiteralSpec
import Verif.DataText.Props

/-!
C70: numeric literals mean what they say.
-/
namespace Verif.DataText
open Verif.Data Verif.Address Spec

theorem value_numeral (ds : List Nat) : value ds = numeral ds := by
  suffices ∀ (ds : List Nat) (a : Nat), ds.foldl (fun a d => a * 10 + d) a = a * 10 ^ ds.length + numeral ds by
    simpa [value] using this ds 0
  intro ds
  induction ds with
  | nil => simp [numeral]
  | cons d ds ih =>
    intro a
    simp only [List.foldl_cons, ih, numeral, List.length_cons, Nat.pow_succ, Nat.add_mul]
    rw [Nat.mul_assoc, Nat.mul_comm 10]
    omega

/-- A literal: digits, and possibly spaces and a suffix. -/
def literal (ds : List Nat) (spaces : Nat) (suffix : String) : Str :=
  digitText ds ++ (if suffix = "" then [] else List.replicate spaces 32) ++ ascii suffix

theorem tail_factor (spaces : Nat) (suffix : String) (f : Nat) (h : (suffix, f) ∈ factors) :
    Tail ((if suffix = "" then [] else List.replicate spaces 32) ++ ascii suffix) f := by
  simp only [factors, List.mem_cons, List.not_mem_nil, or_false, Prod.mk.injEq] at h
  rcases h with ⟨rfl, rfl⟩ | ⟨rfl, rfl⟩ | ⟨rfl, rfl⟩ | ⟨rfl, rfl⟩ | ⟨rfl, rfl⟩ | ⟨rfl, rfl⟩ | ⟨rfl, rfl⟩ | ⟨rfl, rfl⟩ | ⟨rfl, rfl⟩ |
    ⟨rfl, rfl⟩ | ⟨rfl, rfl⟩ | ⟨rfl, rfl⟩ | ⟨rfl, rfl⟩
  · exact tail_nil
  · exact tail_suffix spaces (['k'], 10 ^ 3) (by decide)
  · exact tail_suffix spaces (['M'], 10 ^ 6) (by decide)
  · exact tail_suffix spaces (['G'], 10 ^ 9) (by decide)
  · exact tail_suffix spaces (['T'], 10 ^ 12) (by decide)
  · exact tail_suffix spaces (['P'], 10 ^ 15) (by decide)
  · exact tail_suffix spaces (['E'], 10 ^ 18) (by decide)
  · exact tail_suffix spaces (['K', 'i'], 2 ^ 10) (by decide)
  · exact tail_suffix spaces (['M', 'i'], 2 ^ 20) (by decide)
  · exact tail_suffix spaces (['G', 'i'], 2 ^ 30) (by decide)
  · exact tail_suffix spaces (['T', 'i'], 2 ^ 40) (by decide)
  · exact tail_suffix spaces (['P', 'i'], 2 ^ 50) (by decide)
  · exact tail_suffix spaces (['E', 'i'], 2 ^ 60) (by decide)

/-- **C70, partial.** A number of at most 20 digits without a sign, possibly with leading zeros, spaces and one of the
    suffixes, is read as the count that digits and suffix denote, if that is below 2^64. -/
theorem C70_count_partial (env : Env) (ds : List Nat) (hd : Digits ds) (hl : ds.length ≤ 20) (spaces : Nat) (suffix : String) (f : Nat)
    (hf : (suffix, f) ∈ factors) (hv : numeral ds * f < 2 ^ 64) :
    toData env (literal ds spaces suffix) = some (.count (numeral ds * f)) := by
  have ht := tail_factor spaces suffix f hf
  have h := alternatives_digits env (dataP env (literal ds spaces suffix).length) ds hd.2 hd.1 hl _ f ht
  rw [value_numeral] at h
  have h1 : numeral ds ≤ numeral ds * f := Nat.le_mul_of_pos_right _ ht.ge
  rw [Nat.mod_eq_of_lt (show numeral ds < 2 ^ 64 by omega), Nat.mod_eq_of_lt hv] at h
  apply toData_some
  rw [literal, List.append_assoc]
  rw [literal, List.append_assoc] at h
  exact h

/-- **C70, partial.** The same with a sign, for at most 19 digits, and the range of `int64_t`. -/
theorem C70_integer_partial (env : Env) (neg : Bool) (ds : List Nat) (hd : Digits ds) (hl : ds.length ≤ 19) (spaces : Nat) (suffix : String)
    (f : Nat) (hf : (suffix, f) ∈ factors) (v : Int) (hv : v = if neg then -((numeral ds * f : Nat) : Int) else (numeral ds * f : Nat))
    (hlo : -(2 ^ 63) ≤ v) (hhi : v < 2 ^ 63) :
    toData env ((if neg then 45 else 43) :: literal ds spaces suffix) = some (.int v) := by
  have ht := tail_factor spaces suffix f hf
  have h := alternatives_signed env (dataP env ((if neg then 45 else 43) :: literal ds spaces suffix : Str).length) neg ds hd.2 hd.1 hl _ f ht v
    (by rw [value_numeral]; exact hv) hlo hhi
  apply toData_some
  have e : ch (if neg then '-' else '+') = if neg then 45 else 43 := by cases neg <;> rfl
  rw [e] at h
  rw [literal, List.append_assoc]
  rw [literal, List.append_assoc] at h
  exact h

/-- **C70.** A number of more than 20 digits without a sign and suffix is rejected. -/
theorem C70_long_rejected (env : Env) (ds : List Nat) (hd : Digits ds) (hl : 20 < ds.length) : toData env (digitText ds) = none := by
  obtain ⟨n, h⟩ := alternatives_long env (dataP env (digitText ds).length) ds hd.2 hl
  have h1 : txt (ds.drop 20) ≠ [] := by
    intro h
    have := congrArg List.length h
    simp [txt] at this; omega
  have h2 : alternatives env (dataP env (digitText ds).length) (digitText ds) = some (.count n, txt (ds.drop 20)) := h
  rw [toData, dataP, h2]
  match hx : txt (ds.drop 20), h1 with
  | _ :: _, _ => rfl

theorem net_literal (env : Env) (a : Address) (ha : AddrOk a) (ds : List Nat) (hd : Digits ds) (hl : ds.length ≤ 3) (hv : value ds % 256 ≤ 128) :
    toData env (printAddr a ++ ch '/' :: txt ds) = some (.subnet (Subnet.make a (value ds % 256))) := by
  obtain ⟨h1, h2, h3⟩ := reads_addr env a ha (ch '/' :: txt ds) rfl
  have hu : uintP 8 3 1 (txt ds) = some (value ds % 256, []) := by
    have g1 := takeDigits_all 3 ds hd.2 hl [] rfl
    have g2 : 1 ≤ ds.length := List.length_pos_iff.mpr hd.1
    rw [List.append_nil] at g1
    simp only [uintP, g1, g2, if_true]
  have h4 : netP (printAddr a ++ ch '/' :: txt ds) = some (Subnet.make a (value ds % 256), []) := by
    simp only [netP, h3, eat_cons, Option.bind_some, hu, hv, if_true]
  apply toData_some
  simp [alternatives, h1, h2, h4, as, firstOf]

/-- **C70, partial.** The text of an address, a slash and up to three digits are read as the subnet of that address and that
    number of bits, if the address has as many. -/
theorem C70_subnet_partial (env : Env) (a : Address) (ha : AddrOk a) (ds : List Nat) (hd : Digits ds) (hl : ds.length ≤ 3)
    (hv : numeral ds ≤ a.maxLength) :
    toData env (printAddr a ++ 47 :: digitText ds) = some (.subnet (Subnet.make a (numeral ds))) := by
  have hm : numeral ds ≤ 128 := by
    unfold Address.maxLength at hv
    split at hv <;> omega
  have e : value ds % 256 = numeral ds := by rw [value_numeral]; exact Nat.mod_eq_of_lt (by omega)
  have h := net_literal env a ha ds hd hl (by omega)
  rw [e] at h
  exact h

/-! Non-vacuity -/

example (env : Env) : toData env (literal [0, 2, 5] 1 "Ki") = some (.count 25600) :=
  C70_count_partial env [0, 2, 5] ⟨by decide, by decide⟩ (by decide) 1 "Ki" 1024 (by decide) (by decide)
example (env : Env) : toData env (text "-9223372036854775808") = some (.int (-(2 ^ 63))) :=
  C70_integer_partial env true [9, 2, 2, 3, 3, 7, 2, 0, 3, 6, 8, 5, 4, 7, 7, 5, 8, 0, 8] ⟨by decide, by decide⟩ (by decide) 0 "" 1 (by decide) _
    rfl (by decide) (by decide)
example (env : Env) : toData env (digitText (List.replicate 21 7)) = none := C70_long_rejected env _ ⟨by decide, by decide⟩ (by decide)
example (env : Env) : toData env (printAddr (.v4 10 0 0 0) ++ 47 :: digitText [0, 8]) = some (.subnet (Subnet.make (.v4 10 0 0 0) 8)) :=
  C70_subnet_partial env _ (.inl (by decide)) _ ⟨by decide, by decide⟩ (by decide) (by decide)

/-! Refutations -/

/-- **C70, refutation.** 2^64 is read as 0. -/
theorem C70_wrap_refuted (env : Env) : toData env (text "18446744073709551616") = some (.count 0) := by
  apply toData_some
  exact alternatives_digits env _ [1, 8, 4, 4, 6, 7, 4, 4, 0, 7, 3, 7, 0, 9, 5, 5, 1, 6, 1, 6] (by decide) (by decide) (by decide) [] 1 tail_nil

/-- **C70, refutation.** 16 Ei is read as 0. -/
theorem C70_suffix_refuted (env : Env) : toData env (text "16Ei") = some (.count 0) := by
  apply toData_some
  exact alternatives_digits env _ [1, 6] (by decide) (by decide) (by decide) _ _ (tail_suffix 0 (['E', 'i'], 2 ^ 60) (by decide))

theorem printNat_one (n : Nat) (h : 0 < n) (h' : n < 10) : printNat n = [digitChar n] := by
  have e : n / 10 = 0 := by omega
  have e' : n % 10 = n := by omega
  rw [printNat, if_neg (by omega), printPos, if_neg (by omega), e, e', printPos, if_pos rfl]; rfl

theorem text_10001 : printAddr (.v4 10 0 0 1) = text "10.0.0.1" := by
  have e : printAddr (.v4 10 0 0 1) = ntop4 [10, 0, 0, 1] := rfl
  have h0 : printNat 0 = [ch '0'] := rfl
  have h1 : printNat 10 = [ch '1', ch '0'] := by
    rw [printNat, if_neg (by omega), printPos, if_neg (by omega), printPos, if_neg (by omega), show 10 / 10 / 10 = 0 from rfl, printPos, if_pos rfl]; rfl
  rw [e]
  simp only [ntop4, List.map, h0, h1, printNat_one 1 (by omega) (by omega)]
  rfl

/-- **C70, refutation.** A prefix of 264 bits is read as one of 8 bits. -/
theorem C70_prefix_refuted (env : Env) : toData env (text "10.0.0.1/264") = some (.subnet (Subnet.make (.v4 10 0 0 1) 8)) := by
  have := net_literal env (.v4 10 0 0 1) (.inl (by decide)) [2, 6, 4] ⟨by decide, by decide⟩ (by decide) (by decide)
  rw [text_10001] at this
  exact this

/-- **C70, refutation.** A prefix of 99 bits of an IPv4 address is read as the subnet of all addresses, IPv6 included. -/
theorem C70_all_refuted (env : Env) : toData env (text "10.0.0.1/99") = some (.subnet Subnet.default) ∧
    ∀ a, Subnet.default.containsAddr a = true := by
  have := net_literal env (.v4 10 0 0 1) (.inl (by decide)) [9, 9] ⟨by decide, by decide⟩ (by decide) (by decide)
  rw [text_10001] at this
  exact ⟨this, (C48_invalid_length (.v4 10 0 0 1) 99 (by unfold ValidPrefix; decide)).2⟩

set_option maxRecDepth 20000 in
/-- **C70, refutation.** One hour and minus five minutes are read as one hour: a component that is not positive is skipped. -/
theorem C70_negative_part_refuted (env : Env) (h : env.scale ⟨true, [5], []⟩ 60000000000 ≤ 0) :
    toData env (text "1h-5m") = some (.duration (env.scale ⟨false, [1], []⟩ 3600000000000)) := by
  have h1 : durOneP env (text "1h-5m") = some (env.scale ⟨false, [1], []⟩ 3600000000000, text "-5m") := rfl
  have h2 : durOneP env (text "-5m") = some (env.scale ⟨true, [5], []⟩ 60000000000, []) := rfl
  have h3 : (text "-5m").length = 2 + 1 := rfl
  have h4 : durationP env (text "1h-5m") = some (env.scale ⟨false, [1], []⟩ 3600000000000, []) := by
    simp only [durationP, h1, h3, durLoop, h2, if_neg (Int.not_lt.mpr h)]
  have h5 : agoP env (text "1h-5m") = none := by simp only [agoP, h4]; rfl
  have h6 : timeP env (text "1h-5m") = none := by
    have : timeP env (text "1h-5m") = agoP env (text "1h-5m") := rfl
    rw [this, h5]
  apply toData_some
  simp only [alternatives, h6, h4, as, firstOf, Option.map_none, Option.map_some]

set_option maxRecDepth 20000 in
/-- **C70, refutation.** In durations, a number of more than 20 digits is read as a number with a fraction: here
    10^19 and five tenths seconds instead of 10^20 and five. -/
theorem C70_fraction_refuted (env : Env) :
    toData env (text "100000000000000000005s") =
      some (.duration (env.scale ⟨false, [1, 0, 0, 0, 0, 0, 0, 0, 0, 0, 0, 0, 0, 0, 0, 0, 0, 0, 0, 0], [5]⟩ 1000000000)) := by
  have h4 : durationP env (text "100000000000000000005s") =
      some (env.scale ⟨false, [1, 0, 0, 0, 0, 0, 0, 0, 0, 0, 0, 0, 0, 0, 0, 0, 0, 0, 0, 0], [5]⟩ 1000000000, []) := rfl
  have h5 : agoP env (text "100000000000000000005s") = none := by simp only [agoP, h4]; rfl
  have h6 : timeP env (text "100000000000000000005s") = none := by
    have : timeP env (text "100000000000000000005s") = agoP env (text "100000000000000000005s") := rfl
    rw [this, h5]
  apply toData_some
  simp only [alternatives, h6, h4, as, firstOf, Option.map_none, Option.map_some]

end Verif.DataText
