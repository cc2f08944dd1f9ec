import Verif.DataText.LiteralProps
/-!
# Long numbers with a sign

C70 continued: as without a sign, digits in excess are not ignored.
-/
namespace Verif.DataText
open Verif.Data Spec

/-- A number with a sign and more than 19 digits is cut off. -/
theorem alternatives_long_signed (env : Env) (p : P Data) (neg : Bool) (ds : List Nat) (hd : ∀ d ∈ ds, d < 10) (hl : 19 < ds.length) :
    ∃ n, alternatives env p (ch (if neg then '-' else '+') :: txt ds) = some (.int n, txt (ds.drop 19)) := by
  have hne : ds ≠ [] := by intro h; subst h; simp at hl
  have hs : takeSign (ch (if neg then '-' else '+') :: txt ds) = (neg, txt ds) := by cases neg <;> rfl
  have hnn : ch (if neg then '-' else '+') :: txt ds ≠ [] := by simp
  have hc : ∀ c : Char, isDigit (ch c) = false → ch c ≠ ch '-' → ch c ≠ ch '+' → ch c ∉ ch (if neg then '-' else '+') :: txt ds := by
    intro c h1 h2 h3 hm
    rcases List.mem_cons.mp hm with hm | hm
    · cases neg
      · exact h3 hm
      · exact h2 hm
    · exact txt_absent ds hd c h1 hm
  have hdot := hc '.' (by decide) (by decide) (by decide)
  have hcol := hc ':' (by decide) (by decide) (by decide)
  have g : ∀ m (es : List Nat), (∀ d ∈ es, d < 10) → takeDigits m (txt es) = (es.take m, txt (es.drop m)) := by
    intro m es he
    have := takeDigits_txt m es he [] rfl
    simpa using this
  have hu : ∀ es : List Nat, (∀ d ∈ es, d < 10) → lookup units (skipWs (txt es)) = none := by
    intro es he
    cases es with
    | nil => rfl
    | cons d es =>
      have hdg := digitChar_isDigit d (he d (by simp))
      have h1 : skipWs (txt (d :: es)) = txt (d :: es) := skipWs_cons (isDigit_clean hdg) _
      rw [h1]
      apply lookup_none _ _ units_names
      have := forall_byte (fun b => !isDigit b || !begins units b) (by decide +kernel) (digitChar d)
      simpa [txt, hdg] using this
  have hdr : ∀ k, ∀ d ∈ ds.drop k, d < 10 := fun k d h => hd d (List.mem_of_mem_drop h)
  have hdur : durationP env (ch (if neg then '-' else '+') :: txt ds) = none := by
    have h1 : ∃ l, realP false (ch (if neg then '-' else '+') :: txt ds) = some (l, txt ((ds.drop 20).drop 20)) := by
      refine ⟨⟨neg, ds.take 20, (ds.drop 20).take 20⟩, ?_⟩
      have e := eat_absent (txt_absent (ds.drop 20) (hdr 20) '.' (by decide))
      have : ds.take 20 ≠ [] := by simp [hne]
      simp only [realP, if_neg hnn, hs, g 20 ds hd, e, this, g 20 (ds.drop 20) (hdr 20)]
      simp
    obtain ⟨l, h1⟩ := h1
    rw [List.drop_drop] at h1
    simp [durationP, durOneP, h1, hu _ (hdr 40)]
  have a1 : eat '@' (ch (if neg then '-' else '+') :: txt ds) = none := eat_absent (hc '@' (by decide) (by decide) (by decide))
  have a2 : eat 'n' (ch (if neg then '-' else '+') :: txt ds) = none := eat_absent (hc 'n' (by decide) (by decide) (by decide))
  have a3 : eat 'i' (ch (if neg then '-' else '+') :: txt ds) = none := eat_absent (hc 'i' (by decide) (by decide) (by decide))
  have a4 : eat '-' (txt (ds.drop 4)) = none := eat_absent (txt_absent _ (hdr 4) '-' (by decide))
  have hy : ymdhmsP env (ch (if neg then '-' else '+') :: txt ds) = none := by
    have h4l : (ds.take 4).length = 4 := by simp; omega
    obtain ⟨v, hf⟩ : ∃ v, fixedP 4 (ch (if neg then '-' else '+') :: txt ds) = some (v, txt (ds.drop 4)) := by
      refine ⟨if neg then -(value (ds.take 4) : Int) else value (ds.take 4), ?_⟩
      simp only [fixedP, if_neg hnn, hs, g 4 ds hd, h4l, if_true]
    unfold ymdhmsP guarded
    rw [hf]
    simp only []
    split
    · rfl
    · rename_i y x hx
      split at hx
      · injection hx with hx
        injection hx with _ e'
        rw [← e', a4]; rfl
      · cases hx
  have ht : timeP env (ch (if neg then '-' else '+') :: txt ds) = none := by
    simp [timeP, hy, unixP, a1, nowShiftP, kw_none a2, inP, kw_none a3, agoP, hdur]
  have h3 := addrP_absent hcol hdot
  have hsuf : lookup suffixes (skipWs (txt (ds.drop 19))) = none := by
    cases hds : ds.drop 19 with
    | nil => rfl
    | cons d es =>
      have hdg := digitChar_isDigit d (hdr 19 d (by simp [hds]))
      have h1 : skipWs (txt (d :: es)) = txt (d :: es) := skipWs_cons (isDigit_clean hdg) _
      rw [h1]
      apply lookup_none _ _ suffixes_names
      have := forall_byte (fun b => !isDigit b || !begins suffixes b) (by decide +kernel) (digitChar d)
      simpa [txt, hdg] using this
  have h4 : countP (ch (if neg then '-' else '+') :: txt ds) = none := countP_other (by cases neg <;> rfl)
  have h5 : ∃ v, integerP env (ch (if neg then '-' else '+') :: txt ds) = some (v, txt (ds.drop 19)) := by
    have : ds.take 19 ≠ [] := by simp [hne]
    refine ⟨env.int64 (if neg then -(value (ds.take 19) : Int) else value (ds.take 19)), ?_⟩
    simp only [integerP, int64P, if_neg hnn, hs, g 19 ds hd, this, if_false, hsuf]
  obtain ⟨v, h5⟩ := h5
  exact ⟨v, by simp [alternatives, firstOf, as, ht, hdur, netP_none h3, h3, realP_absent hdot, h4, h5]⟩

/-- **C70.** A number of more than 19 digits with a sign and without a suffix is rejected. -/
theorem C70_long_signed_rejected (env : Env) (neg : Bool) (ds : List Nat) (hd : Digits ds) (hl : 19 < ds.length) :
    toData env ((if neg then 45 else 43) :: digitText ds) = none := by
  have e : ch (if neg then '-' else '+') = if neg then 45 else 43 := by cases neg <;> rfl
  obtain ⟨n, h⟩ := alternatives_long_signed env (dataP env ((if neg then 45 else 43) :: digitText ds : Str).length) neg ds hd.2 hl
  rw [e] at h
  have h1 : txt (ds.drop 19) ≠ [] := by
    intro h
    have := congrArg List.length h
    simp [txt] at this; omega
  have h2 : alternatives env (dataP env ((if neg then 45 else 43) :: digitText ds : Str).length) ((if neg then 45 else 43) :: digitText ds) = some (.int n, txt (ds.drop 19)) := h
  rw [toData, dataP, h2]
  match hx : txt (ds.drop 19), h1 with
  | _ :: _, _ => rfl

example (env : Env) : toData env (45 :: digitText (List.replicate 20 7)) = none := C70_long_signed_rejected env true _ ⟨by decide, by decide⟩ (by decide)

/-- **C70, refutation.** So is a number that would fit, if it begins with zeros. -/
theorem C70_zeros_refuted (env : Env) : numeral ([0, 0, 0, 0, 0, 0, 0, 0, 0, 0, 0, 0, 0, 0, 0, 0, 0, 0, 0, 7] : List Nat) = 7 ∧
    toData env (text "+00000000000000000007") = none :=
  ⟨by decide, C70_long_signed_rejected env false [0, 0, 0, 0, 0, 0, 0, 0, 0, 0, 0, 0, 0, 0, 0, 0, 0, 0, 0, 7] ⟨by decide, by decide⟩ (by decide)⟩

end Verif.DataText
