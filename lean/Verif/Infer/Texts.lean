import Verif.Infer.Model
import Verif.Infer.Spec
import Verif.Json.ReadLemmas
import Verif.Json.RoundLemmas
import Verif.DataText.Literals
/-!
Helper lemmas: the types of texts and numbers.
-/
namespace Verif.Infer
open Verif.Data Verif.DataText Verif.DataText.Spec Verif.Calendar Verif.Json Verif.Json.Spec Verif.Infer.Spec Verif.Number Verif.Number.Spec

theorem full_none {α : Type} {p : P α} {s : Str} (h : p s = none) : full p s = none := by unfold full; rw [h]

theorem means_text (env : Env) {s : Str} {t : Ty} {x : Data} (h : Means (.str s) t x) : convertString (withNumbers env) s t = some x := by
  have := means_convert env h
  simpa [Converts, convert] using this

theorem full_subnet (env : Env) {s : Str} {x : Data} (h : Means (.str s) .subnet x) : (full netP s).isSome = true := by
  have := means_text env h
  simp only [convertString, Option.map_eq_some_iff] at this
  obtain ⟨a, h1, _⟩ := this
  simp [h1]

theorem full_address (env : Env) {s : Str} {x : Data} (h : Means (.str s) .address x) : (full addrP s).isSome = true := by
  have := means_text env h
  simp only [convertString, Option.map_eq_some_iff] at this
  obtain ⟨a, h1, _⟩ := this
  simp [h1]

theorem full_duration (env : Env) {s : Str} {x : Data} (h : Means (.str s) .duration x) : (full (durationP (withNumbers env)) s).isSome = true := by
  have := means_text env h
  simp only [convertString, Option.map_eq_some_iff] at this
  obtain ⟨a, h1, _⟩ := this
  simp [h1]

theorem deduce_subnet (env : Env) (a : Address.Address) (k : Nat) (hk : k ≤ 128) :
    deduceText (withNumbers env) (printNet (Address.Subnet.make a k)) = .subnet := by
  unfold deduceText
  rw [if_pos (full_subnet env (.subnet _ ⟨a, k, hk, rfl⟩))]

theorem deduce_address (env : Env) (a : Address.Address) : deduceText (withNumbers env) (printAddr a) = .address := by
  have h := addrP_print a [] rfl
  rw [List.append_nil] at h
  have hn : netP (printAddr a) = none := by simp [netP, h, eat]
  unfold deduceText
  rw [full_none hn, if_pos (full_address env (.address a))]
  simp

theorem eat_txt (c : Char) (hc : isDigit (ch c) = false) (ds : List Nat) (hd : ∀ d ∈ ds, d < 10) (r : Str)
    (hr : headNot (fun b => b == ch c) r = true) : eat c (txt ds ++ r) = none := by
  cases ds with
  | nil => exact eat_none hr
  | cons a l =>
    have := digit_ne (digitChar_isDigit a (hd a (by simp))) c hc
    simp [txt, eat, this]

theorem decP_txt (ds : List Nat) (hd : ∀ d ∈ ds, d < 10) (r : Str) (hr : headNot isDigit r = true) :
    decP (txt ds ++ r) = none ∨ ∃ a, decP (txt ds ++ r) = some (a, txt (ds.drop 3) ++ r) := by
  unfold decP uintP
  rw [takeDigits_txt 3 ds hd _ hr]
  split
  · exact .inl rfl
  · rename_i v q hq
    split at hq
    · simp only [Option.some.injEq, Prod.mk.injEq] at hq
      rw [← hq.2]
      split
      · exact .inr ⟨_, rfl⟩
      · exact .inl rfl
    · exact absurd hq (by simp)

theorem addrP_year (ds : List Nat) (hl : ds.length = 4) (hd : ∀ d ∈ ds, d < 10) (r : Str) : addrP (txt ds ++ ch '-' :: r) = none := by
  have hne : ds ≠ [] := by intro e; simp [e] at hl
  have hx : headNot isXDigit (ch '-' :: r) = true := by rfl
  have hdg : headNot isDigit (ch '-' :: r) = true := by rfl
  apply addrP_none
  · exact eat_txt ':' (by decide) ds hd _ rfl
  · rw [h16c, h16_txt ds hd hne _ hx, Option.bind_some, List.drop_of_length_le (by omega)]
    rfl
  · have he : eat '.' (txt (ds.drop 3) ++ ch '-' :: r) = none :=
      eat_txt '.' (by decide) _ (fun d h' => hd d (List.mem_of_mem_drop h')) _ rfl
    unfold v4P
    rcases decP_txt ds hd _ hdg with h3 | ⟨a, h3⟩
    · rw [h3]
    · rw [h3]
      simp [he]

theorem time_year (t : Int) (h0 : -(2 ^ 63) ≤ t) (h1 : t < 2 ^ 63) : ∃ ds r, ds.length = 4 ∧ (∀ d ∈ ds, d < 10) ∧ printTime t = txt ds ++ ch '-' :: r := by
  obtain ⟨n, h, mi, s, sub, a1, a2, a3, a4, rfl, a5, a6⟩ := time_split t h0 h1
  obtain ⟨y, m, d, b1, b2, b3, b4, _, _, b7, _, b9⟩ := date_of n a5 a6
  rw [printTime_text n h mi s sub y m d b1 ⟨b3, b4⟩ b7 b9 a1 a2 a3 a4]
  refine ⟨pd 4 y, field 2 m ++ [ch '-'] ++ field 2 d ++ ch 'T' :: (field 2 h ++ ch ':' :: (field 2 mi ++ ch ':' :: (field 2 s ++ printSub sub))), ?_, ?_, ?_⟩
  · simp [pd]
  · intro d hd
    simp [pd] at hd
    omega
  · rw [← field_txt]
    simp only [dateText, List.append_assoc, List.cons_append, List.nil_append]

theorem deduce_time (env : Env) (t : Int) (h0 : -2208988800 * 10 ^ 9 ≤ t) (h1 : t < 2 ^ 63) (hw : t % 10 ^ 9 = 0) :
    deduceText (withNumbers env) (printTime t) = .time := by
  obtain ⟨env', he⟩ := withNumbers_times env
  have hy := ymd_whole env' t h0 h1 hw
  obtain ⟨ds, r, hl, hd, e⟩ := time_year t (by omega) h1
  have ha : addrP (printTime t) = none := by rw [e]; exact addrP_year ds hl hd r
  unfold deduceText
  rw [full_none (netP_none ha), full_none ha, he, full_some hy]
  simp

theorem deduce_word (env : Env) {s : Str} (h : Word s) : deduceText env s = .string := by
  have hn : headNot numeric s = true := by
    cases s with
    | nil => rfl
    | cons b r =>
      obtain ⟨h1, h2, h3, h4, _⟩ := h b r rfl
      have hb : ¬ (48 ≤ b ∧ b ≤ 57) := by
        rintro ⟨x, y⟩
        rcases h1 with h1 | h1
        · exact absurd x (UInt8.not_le.mpr h1)
        · exact absurd y (UInt8.not_le.mpr h1)
      have hd : isDigit b = false := by
        simp only [isDigit, Bool.and_eq_false_iff, decide_eq_false_iff_not]
        simp only [UInt8.le_iff_toNat_le, show (48 : UInt8).toNat = 48 from rfl, show (57 : UInt8).toNat = 57 from rfl] at hb ⊢
        omega
      simp [headNot, numeric, hd, h2, h3, h4, show ch '+' = 43 from rfl, show ch '-' = 45 from rfl, show ch '.' = 46 from rfl]
  have ha : addrP s = none := by
    cases s with
    | nil => rfl
    | cons b r =>
      obtain ⟨h1, h2, h3, h4, h5⟩ := h b r rfl
      rcases h5 with ⟨h5, h6, h7⟩ | ⟨h5, h6⟩
      · have hx : headNot isXDigit (b :: r) = true := by
          have hd := headNot_numeric_digit hn
          simp only [headNot, Bool.not_eq_true'] at hd ⊢
          simp only [isXDigit, hd, Bool.false_or, Bool.or_eq_false_iff, Bool.and_eq_false_iff, decide_eq_false_iff_not]
          simp only [UInt8.lt_iff_toNat_lt, show (65 : UInt8).toNat = 65 from rfl, show (70 : UInt8).toNat = 70 from rfl,
            show (97 : UInt8).toNat = 97 from rfl, show (102 : UInt8).toNat = 102 from rfl] at h6 h7 ⊢
          omega
        apply addrP_none
        · apply eat_none
          simp [headNot, h5, show ch ':' = 58 from rfl]
        · simp [h16c, h16_none hx]
        · exact v4P_other (headNot_numeric_digit hn)
      · exact addrP_absent h6 h5
  unfold deduceText
  rw [full_none (netP_none ha), full_none ha, full_none (ymdhmsP_other env hn), full_none (durationP_other env hn)]
  simp

theorem guarded_minus (s : Str) : guarded 4 1900 9999 (45 :: s) = none := by
  unfold guarded fixedP
  have : takeSign (45 :: s) = (true, s) := by rfl
  rw [this]
  simp only [reduceCtorEq, if_false, if_true]
  split
  · rfl
  · rename_i v r h
    split at h
    · simp only [Option.some.injEq, Prod.mk.injEq] at h
      rw [if_neg]
      omega
    · exact absurd h (by simp)

theorem deduce_duration (env : Env) {d : Int} {name : String} {u : Nat} {s : Str} (h0 : -(2 ^ 63) < d) (h1 : d < 2 ^ 63)
    (hu : UnitFor d name u) (hw : d.natAbs % u = 0) (hp : printDuration d = some s) : deduceText (withNumbers env) s = .duration := by
  have hm : Means (.str s) .duration (.duration d) := .duration d name u s h0 h1 hu hw hp
  have hf := full_duration env hm
  obtain ⟨g1, _, _⟩ := duration_whole env d h0 h1 name u hu hw
  rw [g1] at hp
  simp only [Option.some.injEq] at hp
  have hd : ∀ x ∈ digits (d.natAbs / u), x < 10 := digits_lt _
  have hne : digits (d.natAbs / u) ≠ [] := by
    intro e
    have := (digits_ok (d.natAbs / u)).1
    simp [e] at this
  have hname : headNot (fun b => isDigit b || b == ch '.') (ascii name) = true := by
    have := hu.1
    simp only [Number.Spec.units, List.mem_cons, List.not_mem_nil, or_false, Prod.mk.injEq] at this
    rcases this with ⟨rfl, _⟩ | ⟨rfl, _⟩ | ⟨rfl, _⟩ | ⟨rfl, _⟩ | ⟨rfl, _⟩ | ⟨rfl, _⟩ | ⟨rfl, _⟩ <;> decide +kernel
  have key : addrP s = none ∧ ymdhmsP (withNumbers env) s = none := by
    subst hp
    cases hs : decide (d < 0) with
    | true =>
      simp only [decimalText, if_true, List.append_assoc, List.cons_append, List.nil_append]
      refine ⟨addrP_none rfl rfl (v4P_other rfl), ?_⟩
      simp [ymdhmsP, guarded_minus]
    | false =>
      simp only [decimalText, Bool.false_eq_true, if_false, List.append_assoc, List.cons_append, List.nil_append, ← txt_digitText]
      generalize digits (d.natAbs / u) = ds at hd hne
      generalize hr : (46 : UInt8) :: (txt [0] ++ ascii name) = r
      have hr1 : headNot isXDigit r = true := by subst hr; rfl
      have hr2 : headNot isDigit r = true := by subst hr; rfl
      have hr3 : headNot (fun b => b == ch ':') r = true := by subst hr; rfl
      have hr4 : headNot (fun b => b == ch '-') r = true := by subst hr; rfl
      refine ⟨addrP_none ?_ ?_ ?_, ?_⟩
      · exact eat_txt ':' (by decide) ds hd _ hr3
      · rw [h16c, h16_txt ds hd hne _ hr1, Option.bind_some]
        exact eat_txt ':' (by decide) _ (fun d h' => hd d (List.mem_of_mem_drop h')) _ hr3
      · have hz : ∀ x, (eat '.' (txt (ds.drop 3) ++ r)).bind decP = some x → x.2 = ascii name := by
          intro x hx
          cases hdr : ds.drop 3 with
          | nil =>
            rw [hdr] at hx
            subst hr
            have e1 : eat '.' (txt [] ++ (46 :: (txt [0] ++ ascii name))) = some (txt [0] ++ ascii name) := rfl
            rw [e1, Option.bind_some] at hx
            have e2 := takeDigits_txt 3 [0] (by simp) (ascii name) (headNot_mono hname fun b hb => by simp [hb])
            unfold decP uintP at hx
            rw [e2] at hx
            simp [value, txt] at hx
            rw [← hx]
          | cons a l =>
            rw [hdr] at hx
            have : eat '.' (txt (a :: l) ++ r) = none := by
              apply eat_none
              have ha : a < 10 := hd a (List.mem_of_mem_drop (i := 3) (by rw [hdr]; simp))
              simp only [txt, List.map_cons, List.cons_append, headNot]
              simpa using digit_ne (digitChar_isDigit a ha) '.' (by decide)
            rw [this] at hx
            exact absurd hx (by simp)
        have e0 : eat '.' (ascii name) = none := eat_none (headNot_mono hname fun b hb => by simp at hb ⊢; simp [hb])
        unfold v4P
        have h3 := decP_txt ds hd r hr2
        rcases h3 with h3 | ⟨a, h3⟩
        · rw [h3]
        · rw [h3]
          simp only
          cases hb : (eat '.' (txt (ds.drop 3) ++ r)).bind decP with
          | none => rfl
          | some x =>
            obtain ⟨b, q⟩ := x
            have := hz _ hb
            simp only at this
            subst this
            simp [e0]
      · have hsg : takeSign (txt ds ++ r) = (false, txt ds ++ r) := by
          cases ds with
          | nil => exact absurd rfl hne
          | cons a l =>
            have ha : a < 10 := hd a (by simp)
            have k1 := digit_ne (digitChar_isDigit a ha) '+' (by decide)
            have k2 := digit_ne (digitChar_isDigit a ha) '-' (by decide)
            simp [txt, takeSign, k1, k2]
        have he : eat '-' (txt (ds.drop 4) ++ r) = none :=
          eat_txt '-' (by decide) _ (fun d h' => hd d (List.mem_of_mem_drop h')) _ hr4
        have hg : guarded 4 1900 9999 (txt ds ++ r) = none ∨ ∃ y, guarded 4 1900 9999 (txt ds ++ r) = some (y, txt (ds.drop 4) ++ r) := by
          unfold guarded fixedP
          rw [hsg, takeDigits_txt 4 ds hd _ hr2]
          have hs : txt ds ++ r ≠ [] := by
            subst hr
            simp
          by_cases hl : (ds.take 4).length = 4
          · rw [if_neg hs, if_pos hl]
            simp only [Bool.false_eq_true, if_false]
            split
            · exact .inr ⟨_, rfl⟩
            · exact .inl rfl
          · rw [if_neg hs, if_neg hl]
            exact .inl rfl
        unfold ymdhmsP
        rcases hg with hg | ⟨y, hg⟩
        · rw [hg]
        · rw [hg]
          simp [he]
  unfold deduceText
  rw [full_none (netP_none key.1), full_none key.1, full_none key.2, if_pos hf]
  simp

theorem value_range {n : Num} {i : Int} (hv : n.value = i) {a b : Int} (h0 : (a : Rat) ≤ n.value) (h1 : n.value < (b : Rat)) : a ≤ i ∧ i < b := by
  rw [hv] at h0 h1
  exact ⟨by exact_mod_cast h0, by exact_mod_cast h1⟩

end Verif.Infer
