import Verif.DataText.Lemmas

/-!
Printed numbers read back.
-/
namespace Verif.DataText
open Verif.Data Verif.Address

section
variable {env : Env} {s r : Str} {sg : Bool} {ds : List Nat}

theorem realP_digits (q : Bool) (hs : s ≠ []) (h : takeSign s = (sg, txt ds ++ r)) (hd : ∀ d ∈ ds, d < 10) (hne : ds ≠ [])
    (hl : ds.length ≤ 20) (hr : headNot sticky r = true) :
    realP q s = if q then none else some (⟨sg, ds, []⟩, r) := by
  have h1 := takeDigits_all 20 ds hd hl r (headNot_digit hr)
  have h2 := takeDigits_stop 20 r (headNot_digit hr)
  have h3 : eat '.' r = none := eat_sticky hr (by decide)
  simp only [realP, if_neg hs, h, h1, h3, h2, hne, or_false]

theorem durationP_digits (hs : s ≠ []) (h : takeSign s = (sg, txt ds ++ r)) (hd : ∀ d ∈ ds, d < 10) (hne : ds ≠ [])
    (hl : ds.length ≤ 20) (hr : headNot sticky r = true) (hu : lookup units (skipWs r) = none) :
    durationP env s = none := by
  simp [durationP, durOneP, realP_digits false hs h hd hne hl hr, hu]

theorem ymdhmsP_digits (h : takeSign s = (sg, txt ds ++ r)) (hd : ∀ d ∈ ds, d < 10)
    (hr : headNot sticky r = true) : ymdhmsP env s = none := by
  have h1 := takeDigits_txt 4 ds hd r (headNot_digit hr)
  have h2 : eat '-' (txt (ds.drop 4) ++ r) = none := by
    apply eat_none
    apply headNot_txt _ _ (fun d h' => hd d (List.mem_of_mem_drop h'))
    · exact headNot_mono hr fun b hb => by simp only [beq_iff_eq] at hb; rw [hb]; decide
    · intro b hb; simpa using digit_ne hb '-' (by decide)
  have h3 : ∀ v x, guarded 4 1900 9999 s = some (v, x) → eat '-' x = none := by
    intro v x hx
    unfold guarded at hx
    split at hx
    · cases hx
    · rename_i v' x' hx'
      unfold fixedP at hx'
      rw [h, h1] at hx'
      split at hx'
      · cases hx'
      · split at hx'
        · injection hx' with hx'
          injection hx' with _ hx'
          split at hx
          · injection hx with hx
            injection hx with _ hx
            rw [← hx, ← hx']; exact h2
          · cases hx
        · cases hx'
  unfold ymdhmsP
  split
  · rfl
  · rename_i y x hx
    simp [h3 y x hx]

theorem timeP_digits (hs : s ≠ []) (h : takeSign s = (sg, txt ds ++ r)) (hd : ∀ d ∈ ds, d < 10) (hne : ds ≠ [])
    (hl : ds.length ≤ 20) (hr : headNot sticky r = true) (hu : lookup units (skipWs r) = none)
    (h1 : headNot (fun b => b == ch '@' || b == ch 'n' || b == ch 'i') s = true) : timeP env s = none := by
  have a1 : eat '@' s = none := eat_none (headNot_mono h1 fun b hb => by simp_all)
  have a2 : eat 'n' s = none := eat_none (headNot_mono h1 fun b hb => by simp_all)
  have a3 : eat 'i' s = none := eat_none (headNot_mono h1 fun b hb => by simp_all)
  simp [timeP, ymdhmsP_digits h hd hr, unixP, a1, nowShiftP, kw_none a2, inP, kw_none a3, agoP,
    durationP_digits (env := env) hs h hd hne hl hr hu]
end

theorem dropX_txt (m : Nat) (ds : List Nat) (hd : ∀ d ∈ ds, d < 10) (r : Str) (h : headNot isXDigit r = true) :
    dropX m (txt ds ++ r) = txt (ds.drop m) ++ r := by
  induction ds generalizing m with
  | nil =>
    cases m with
    | zero => rfl
    | succ m => cases r with
      | nil => rfl
      | cons b r => simp_all [txt, dropX]
  | cons d ds ih =>
    cases m with
    | zero => rfl
    | succ m =>
      have h1 : isXDigit (digitChar d) = true := by simp [isXDigit, digitChar_isDigit d (hd d (by simp))]
      have h2 := ih m fun x hx => hd x (by simp [hx])
      simp only [txt, List.map_cons, List.cons_append, dropX, h1, if_true, List.drop_succ_cons] at *
      exact h2

theorem h16_txt (ds : List Nat) (hd : ∀ d ∈ ds, d < 10) (hne : ds ≠ []) (r : Str) (h : headNot isXDigit r = true) :
    h16 (txt ds ++ r) = some (txt (ds.drop 4) ++ r) := by
  cases ds with
  | nil => exact absurd rfl hne
  | cons d ds =>
    have h1 : isXDigit (digitChar d) = true := by simp [isXDigit, digitChar_isDigit d (hd d (by simp))]
    have h2 := dropX_txt 3 ds (fun x hx => hd x (by simp [hx])) r h
    simp only [txt, List.map_cons, List.cons_append, h16, h1, if_true, List.drop_succ_cons] at *
    rw [h2]

/-- A number alone is no address. -/
theorem addrP_digits (ds : List Nat) (hd : ∀ d ∈ ds, d < 10) (hne : ds ≠ []) (r : Str) (hr : headNot sticky r = true) :
    addrP (txt ds ++ r) = none := by
  have e : ∀ k, ∀ c, isDigit (ch c) = false → sticky (ch c) = true → eat c (txt (ds.drop k) ++ r) = none := by
    intro k c hc hs
    apply eat_none
    apply headNot_txt _ _ (fun d h' => hd d (List.mem_of_mem_drop h'))
    · exact headNot_mono hr fun b hb => by simp only [beq_iff_eq] at hb; rw [hb]; exact hs
    · intro b hb; simpa using digit_ne hb c hc
  apply addrP_none
  · exact e 0 ':' (by decide) (by decide)
  · simp [h16c, h16_txt ds hd hne r (headNot_xdigit hr), e 4 ':' (by decide) (by decide)]
  · have h1 := takeDigits_txt 3 ds hd r (headNot_digit hr)
    have h2 : ∀ v x, decP (txt ds ++ r) = some (v, x) → eat '.' x = none := by
      intro v x hx
      unfold decP at hx
      split at hx
      · cases hx
      · rename_i v' x' hx'
        unfold uintP at hx'
        rw [h1] at hx'
        split at hx'
        · injection hx' with hx'
          injection hx' with _ hx'
          split at hx
          · injection hx with hx
            injection hx with _ hx
            rw [← hx, ← hx']; exact e 3 '.' (by decide) (by decide)
          · cases hx
        · cases hx'
    unfold v4P
    split
    · rfl
    · rename_i v x hx
      simp [h2 v x hx]

/-- A printed count reads back. -/
theorem alternatives_count (env : Env) (p : P Data) (n : Nat) (hn : n < 2 ^ 64) (r : Str) (hr : Delim r) :
    alternatives env p (printNat n ++ r) = some (.count n, r) := by
  have hd := digits_lt n
  have hne := digits_ne_nil n
  have hl := digits_length 20 n (by omega) (by omega)
  have hk := hr.headNot_sticky
  have hs := takeSign_txt (digits n) hd hne r
  have hnn := txt_append_ne (digits n) hne r
  have ht : timeP env (txt (digits n) ++ r) = none := by
    apply timeP_digits hnn hs hd hne hl hk hr.unit
    cases hds : digits n with
    | nil => exact absurd hds hne
    | cons d ds =>
      have := digitChar_isDigit d (hd d (by simp [hds]))
      have e1 := digit_ne this '@' (by decide)
      have e2 := digit_ne this 'n' (by decide)
      have e3 := digit_ne this 'i' (by decide)
      simp [txt, e1, e2, e3]
  have ha := addrP_digits (digits n) hd hne r hk
  have hc : countP (txt (digits n) ++ r) = some (n, r) := by
    have h1 := takeDigits_all 20 (digits n) hd hl r (headNot_digit hk)
    have h2 : 1 ≤ (digits n).length := List.length_pos_iff.mpr hne
    simp [countP, uintP, h1, h2, value_digits, hr.suffix, Nat.mod_eq_of_lt hn]
  rw [printNat_eq]
  simp [alternatives, firstOf, as, ht, durationP_digits (env := env) hnn hs hd hne hl hk hr.unit, netP_none ha, ha,
    realP_digits true hnn hs hd hne hl hk, hc]

theorem signed_head (env : Env) (p : P Data) (c : Char) (sg : Bool) (hc : c = '-' ∧ sg = true ∨ c = '+' ∧ sg = false) (n : Nat)
    (hn : n < 2 ^ 63) (r : Str) (hr : Delim r) :
    alternatives env p (ch c :: printNat n ++ r) = some (.int (if sg then -(n : Int) else n), r) := by
  have hd := digits_lt n
  have hne := digits_ne_nil n
  have hl := digits_length 19 n (by omega) (by omega)
  have hk := hr.headNot_sticky
  have hs : takeSign (ch c :: (txt (digits n) ++ r)) = (sg, txt (digits n) ++ r) := by
    rcases hc with ⟨rfl, rfl⟩ | ⟨rfl, rfl⟩ <;> rfl
  have hnn : ch c :: (txt (digits n) ++ r) ≠ [] := by simp
  have ht : timeP env (ch c :: (txt (digits n) ++ r)) = none := by
    apply timeP_digits hnn hs hd hne (by omega) hk hr.unit
    rcases hc with ⟨rfl, rfl⟩ | ⟨rfl, rfl⟩ <;> rfl
  have hnd : headNot isDigit (ch c :: (txt (digits n) ++ r)) = true := by
    rcases hc with ⟨rfl, rfl⟩ | ⟨rfl, rfl⟩ <;> rfl
  have ha : addrP (ch c :: (txt (digits n) ++ r)) = none := by
    apply addrP_none
    · rcases hc with ⟨rfl, rfl⟩ | ⟨rfl, rfl⟩ <;> rfl
    · rcases hc with ⟨rfl, rfl⟩ | ⟨rfl, rfl⟩ <;> rfl
    · exact v4P_other hnd
  have hi : integerP env (ch c :: (txt (digits n) ++ r)) = some (if sg then -(n : Int) else n, r) := by
    have h1 := takeDigits_all 19 (digits n) hd hl r (headNot_digit hk)
    have h2 : env.int64 (if sg then -(n : Int) else n) = if sg then -(n : Int) else n := by
      unfold Env.int64
      rw [if_pos]
      split <;> omega
    simp only [integerP, int64P, hs, h1, hne, if_false, value_digits, h2]
    simp [hr.suffix]
  rw [printNat_eq, List.cons_append]
  simp [alternatives, firstOf, as, ht, durationP_digits (env := env) hnn hs hd hne (by omega) hk hr.unit, netP_none ha, ha,
    realP_digits true hnn hs hd hne (by omega) hk, countP_other hnd, hi]

/-- A printed integer reads back. -/
theorem alternatives_int (env : Env) (p : P Data) (i : Int) (h1 : -(2 ^ 63) < i) (h2 : i < 2 ^ 63) (r : Str) (hr : Delim r) :
    ∃ t, printInt i = some t ∧ alternatives env p (t ++ r) = some (.int i, r) := by
  have h0 : i ≠ -(2 ^ 63) := by omega
  unfold printInt
  rw [if_neg h0]
  split
  · refine ⟨_, rfl, ?_⟩
    rw [signed_head env p '-' true (.inl ⟨rfl, rfl⟩) i.natAbs (by omega) r hr]
    simp; omega
  · refine ⟨_, rfl, ?_⟩
    rw [signed_head env p '+' false (.inr ⟨rfl, rfl⟩) i.natAbs (by omega) r hr]
    simp; omega

end Verif.DataText
