import Verif.DataText.Main

/-!
Literals without colons and dots: what is left of the alternatives.
-/
namespace Verif.DataText
open Verif.Data Verif.Address

theorem dropX_suffix (n : Nat) (s : Str) : ∃ p, s = p ++ dropX n s := by
  induction n generalizing s with
  | zero => exact ⟨[], rfl⟩
  | succ n ih =>
    cases s with
    | nil => exact ⟨[], rfl⟩
    | cons b s =>
      rw [dropX]
      split
      · obtain ⟨p, hp⟩ := ih s
        exact ⟨b :: p, by rw [List.cons_append, ← hp]⟩
      · exact ⟨[], rfl⟩

theorem takeDigits_suffix (n : Nat) (s : Str) : ∃ p, s = p ++ (takeDigits n s).2 := by
  induction n generalizing s with
  | zero => exact ⟨[], rfl⟩
  | succ n ih =>
    cases s with
    | nil => exact ⟨[], rfl⟩
    | cons b s =>
      rw [takeDigits]
      split
      · obtain ⟨p, hp⟩ := ih s
        exact ⟨b :: p, by rw [List.cons_append]; simp only; rw [← hp]⟩
      · exact ⟨[], rfl⟩

theorem eat_absent {c : Char} {s : Str} (h : ch c ∉ s) : eat c s = none := by
  cases s with
  | nil => rfl
  | cons b s =>
    have : b ≠ ch c := fun e => h (by simp [e])
    simp [eat, this]

theorem absent_suffix {c : UInt8} {s p t : Str} (h : c ∉ s) (e : s = p ++ t) : c ∉ t := by
  intro ht; exact h (by rw [e]; simp [ht])

theorem addrP_absent {s : Str} (h1 : ch ':' ∉ s) (h2 : ch '.' ∉ s) : addrP s = none := by
  apply addrP_none (eat_absent h1)
  · cases s with
    | nil => rfl
    | cons b s =>
      rw [h16c, h16]
      split
      · obtain ⟨p, hp⟩ := dropX_suffix 3 s
        rw [Option.bind_some]
        exact eat_absent (absent_suffix (fun h => h1 (by simp [h])) hp)
      · rfl
  · obtain ⟨p, hp⟩ := takeDigits_suffix 3 s
    have h3 : eat '.' (takeDigits 3 s).2 = none := eat_absent (absent_suffix h2 hp)
    unfold v4P decP uintP
    split
    · rfl
    · rename_i a r hx
      split at hx
      · cases hx
      · rename_i v r' hx'
        split at hx'
        · injection hx' with hx'
          injection hx' with _ e
          split at hx
          · injection hx with hx
            injection hx with _ e'
            rw [← e', ← e, h3]; rfl
          · cases hx
        · cases hx'

theorem realP_absent {s : Str} (h : ch '.' ∉ s) : realP true s = none := by
  unfold realP
  split
  · rfl
  · have h1 : ch '.' ∉ (takeSign s).2 := by
      cases s with
      | nil => simpa [takeSign] using h
      | cons b s =>
        simp only [takeSign]
        split
        · exact fun h' => h (by simp [h'])
        · split
          · exact fun h' => h (by simp [h'])
          · exact h
    obtain ⟨p, hp⟩ := takeDigits_suffix 20 (takeSign s).2
    rw [eat_absent (absent_suffix h1 hp)]
    simp

/-- A number in front of something that no unit begins is no duration. -/
theorem durationP_plain (env : Env) {s r : Str} {sg : Bool} {ds : List Nat} (hs : s ≠ []) (h : takeSign s = (sg, txt ds ++ r)) (hd : ∀ d ∈ ds, d < 10)
    (hne : ds ≠ []) (hl : ds.length ≤ 20) (hr : headNot isDigit r = true) (hdot : eat '.' r = none) (hu : lookup units (skipWs r) = none) :
    durationP env s = none := by
  have h1 := takeDigits_all 20 ds hd hl r hr
  have h2 := takeDigits_stop 20 r hr
  have : realP false s = some (⟨sg, ds, []⟩, r) := by
    simp only [realP, if_neg hs, h, h1, hdot, h2, hne]; rfl
  simp [durationP, durOneP, this, hu]

theorem timeP_plain (env : Env) {s r : Str} {sg : Bool} {ds : List Nat} (hs : s ≠ []) (h : takeSign s = (sg, txt ds ++ r)) (hd : ∀ d ∈ ds, d < 10)
    (hne : ds ≠ []) (hl : ds.length ≤ 20) (hr : headNot isDigit r = true) (hdot : eat '.' r = none) (hm : eat '-' r = none)
    (hu : lookup units (skipWs r) = none)
    (h0 : headNot (fun b => b == ch '@' || b == ch 'n' || b == ch 'i') s = true) : timeP env s = none := by
  have a1 : eat '@' s = none := eat_none (headNot_mono h0 fun b hb => by simp_all)
  have a2 : eat 'n' s = none := eat_none (headNot_mono h0 fun b hb => by simp_all)
  have a3 : eat 'i' s = none := eat_none (headNot_mono h0 fun b hb => by simp_all)
  have h1 := takeDigits_txt 4 ds hd r hr
  have h2 : eat '-' (txt (ds.drop 4) ++ r) = none := by
    cases hdr : ds.drop 4 with
    | nil => simpa [txt] using hm
    | cons d es =>
      have : d ∈ ds := List.mem_of_mem_drop (i := 4) (by rw [hdr]; simp)
      have := digitChar_isDigit d (hd d this)
      simp [txt, eat, digit_ne this '-' (by decide)]
  have hy : ymdhmsP env s = none := by
    unfold ymdhmsP guarded fixedP
    rw [h, h1]
    split
    · rfl
    · rename_i y x hx
      split at hx
      · cases hx
      · rename_i v x' hx'
        split at hx'
        · cases hx'
        · split at hx'
          · injection hx' with hx'
            injection hx' with _ e
            split at hx
            · injection hx with hx
              injection hx with _ e'
              rw [← e', ← e, h2]; rfl
            · cases hx
          · cases hx'
  simp [timeP, hy, unixP, a1, nowShiftP, kw_none a2, inP, kw_none a3, agoP, durationP_plain env hs h hd hne hl hr hdot hu]

theorem spaces_skip (k : Nat) (s : Str) : skipWs (List.replicate k (ch ' ') ++ s) = skipWs s := by
  induction k with
  | zero => rfl
  | succ k ih => rw [List.replicate_succ, List.cons_append, skipWs_space, ih]

/-- What a literal may have after its digits: nothing, or spaces and a suffix. -/
structure Tail (r : Str) (f : Nat) : Prop where
  digit : headNot isDigit r = true
  dot : ch '.' ∉ r
  colon : ch ':' ∉ r
  minus : eat '-' r = none
  unit : lookup units (skipWs r) = none
  suffix : (lookup suffixes (skipWs r) = none ∧ r = [] ∧ f = 1) ∨ lookup suffixes (skipWs r) = some (f, [])
  ge : 1 ≤ f

theorem tail_nil : Tail [] 1 := ⟨rfl, by simp, by simp, rfl, rfl, .inl ⟨rfl, rfl, rfl⟩, by omega⟩

theorem suffixes_read : ∀ e ∈ suffixes, lookup suffixes (skipWs (e.1.map ch)) = some (e.2, []) ∧ lookup units (skipWs (e.1.map ch)) = none ∧
    headNot isDigit (e.1.map ch) = true ∧ ch '.' ∉ e.1.map ch ∧ ch ':' ∉ e.1.map ch ∧ eat '-' (e.1.map ch) = none ∧ 1 ≤ e.2 := by
  decide

theorem tail_suffix (k : Nat) (e : List Char × Nat) (he : e ∈ suffixes) : Tail (List.replicate k (ch ' ') ++ e.1.map ch) e.2 := by
  obtain ⟨h1, h2, h3, h4, h5, h6, h7⟩ := suffixes_read e he
  have hn : ∀ c, ch c ≠ ch ' ' → ch c ∉ e.1.map ch → ch c ∉ List.replicate k (ch ' ') ++ e.1.map ch := by
    intro c hc h hm
    rcases List.mem_append.mp hm with hm | hm
    · exact hc (List.eq_of_mem_replicate hm)
    · exact h hm
  refine ⟨?_, hn '.' (by decide) h4, hn ':' (by decide) h5, ?_, by rw [spaces_skip]; exact h2, .inr (by rw [spaces_skip]; exact h1), h7⟩
  · cases k with
    | zero => exact h3
    | succ k => rfl
  · cases k with
    | zero => exact h6
    | succ k => rfl

theorem txt_absent (ds : List Nat) (hd : ∀ d ∈ ds, d < 10) (c : Char) (hc : isDigit (ch c) = false) : ch c ∉ txt ds := by
  intro h
  obtain ⟨d, hm, e⟩ := List.mem_map.mp h
  have := digitChar_isDigit d (hd d hm)
  rw [e, hc] at this; cases this

theorem value_lt (ds : List Nat) (hd : ∀ d ∈ ds, d < 10) : value ds < 10 ^ ds.length := by
  suffices ∀ (ds : List Nat), (∀ d ∈ ds, d < 10) → ∀ a, ds.foldl (fun a d => a * 10 + d) a < (a + 1) * 10 ^ ds.length by
    simpa [value] using this ds hd 0
  intro ds
  induction ds with
  | nil => intro _ a; simp
  | cons d ds ih =>
    intro hd a
    have h1 := ih (fun x hx => hd x (by simp [hx])) (a * 10 + d)
    have h2 := hd d (by simp)
    have h3 : (a * 10 + d + 1) * 10 ^ ds.length ≤ ((a + 1) * 10) * 10 ^ ds.length := Nat.mul_le_mul_right _ (by omega)
    simp only [List.foldl_cons, List.length_cons, Nat.pow_succ]
    have h4 : (a + 1) * (10 ^ ds.length * 10) = ((a + 1) * 10) * 10 ^ ds.length := by
      rw [Nat.mul_comm (10 ^ ds.length) 10, Nat.mul_assoc]
    omega

theorem head_special (ds : List Nat) (hd : ∀ d ∈ ds, d < 10) (hne : ds ≠ []) (r : Str) :
    headNot (fun b => b == ch '@' || b == ch 'n' || b == ch 'i') (txt ds ++ r) = true := by
  cases ds with
  | nil => exact absurd rfl hne
  | cons d ds =>
    have := digitChar_isDigit d (hd d (by simp))
    have e1 := digit_ne this '@' (by decide)
    have e2 := digit_ne this 'n' (by decide)
    have e3 := digit_ne this 'i' (by decide)
    simp [txt, e1, e2, e3]

theorem alternatives_digits (env : Env) (p : P Data) (ds : List Nat) (hd : ∀ d ∈ ds, d < 10) (hne : ds ≠ []) (hl : ds.length ≤ 20) (r : Str) (f : Nat)
    (ht : Tail r f) : alternatives env p (txt ds ++ r) = some (.count (value ds % 2 ^ 64 * f % 2 ^ 64), []) := by
  have hs := takeSign_txt ds hd hne r
  have hnn := txt_append_ne ds hne r
  have hdot : ch '.' ∉ txt ds ++ r := fun h => (List.mem_append.mp h).elim (txt_absent ds hd '.' (by decide)) ht.dot
  have hcol : ch ':' ∉ txt ds ++ r := fun h => (List.mem_append.mp h).elim (txt_absent ds hd ':' (by decide)) ht.colon
  have h1 := timeP_plain env hnn hs hd hne hl ht.digit (eat_absent ht.dot) ht.minus ht.unit (head_special ds hd hne r)
  have h2 := durationP_plain env hnn hs hd hne hl ht.digit (eat_absent ht.dot) ht.unit
  have h3 := addrP_absent hcol hdot
  have h4 : countP (txt ds ++ r) = some (value ds % 2 ^ 64 * f % 2 ^ 64, []) := by
    have g1 := takeDigits_all 20 ds hd hl r ht.digit
    have g2 : 1 ≤ ds.length := List.length_pos_iff.mpr hne
    rcases ht.suffix with ⟨h, rfl, rfl⟩ | h
    · simp only [countP, uintP, g1, g2, if_true, h]; simp
    · simp only [countP, uintP, g1, g2, if_true, h]
  simp [alternatives, firstOf, as, h1, h2, netP_none h3, h3, realP_absent hdot, h4]

theorem alternatives_signed (env : Env) (p : P Data) (neg : Bool) (ds : List Nat) (hd : ∀ d ∈ ds, d < 10) (hne : ds ≠ []) (hl : ds.length ≤ 19) (r : Str) (f : Nat)
    (ht : Tail r f) (v : Int) (hv : v = if neg then -((value ds * f : Nat) : Int) else (value ds * f : Nat)) (hlo : -(2 ^ 63) ≤ v) (hhi : v < 2 ^ 63) :
    alternatives env p (ch (if neg then '-' else '+') :: (txt ds ++ r)) = some (.int v, []) := by
  have hs : takeSign (ch (if neg then '-' else '+') :: (txt ds ++ r)) = (neg, txt ds ++ r) := by cases neg <;> rfl
  have hnn : ch (if neg then '-' else '+') :: (txt ds ++ r) ≠ [] := by simp
  have hc : ∀ c : Char, isDigit (ch c) = false → ch c ≠ ch '-' → ch c ≠ ch '+' → ch c ∉ r →
      ch c ∉ ch (if neg then '-' else '+') :: (txt ds ++ r) := by
    intro c h1 h2 h3 h4 hm
    rcases List.mem_cons.mp hm with hm | hm
    · cases neg
      · exact h3 hm
      · exact h2 hm
    · exact (List.mem_append.mp hm).elim (txt_absent ds hd c h1) h4
  have hdot := hc '.' (by decide) (by decide) (by decide) ht.dot
  have hcol := hc ':' (by decide) (by decide) (by decide) ht.colon
  have h0 : headNot (fun b => b == ch '@' || b == ch 'n' || b == ch 'i') (ch (if neg then '-' else '+') :: (txt ds ++ r)) = true := by
    cases neg <;> rfl
  have h1 := timeP_plain env hnn hs hd hne (by omega) ht.digit (eat_absent ht.dot) ht.minus ht.unit h0
  have h2 := durationP_plain env hnn hs hd hne (by omega) ht.digit (eat_absent ht.dot) ht.unit
  have h3 := addrP_absent hcol hdot
  have h4 : countP (ch (if neg then '-' else '+') :: (txt ds ++ r)) = none := countP_other (by cases neg <;> rfl)
  have h5 : integerP env (ch (if neg then '-' else '+') :: (txt ds ++ r)) = some (v, []) := by
    have g1 := takeDigits_all 19 ds hd hl r ht.digit
    have g2 : value ds ≤ value ds * f := Nat.le_mul_of_pos_right _ ht.ge
    have g3 : env.int64 (if neg then -(value ds : Int) else value ds) = if neg then -(value ds : Int) else value ds := by
      unfold Env.int64
      rw [if_pos]
      cases neg <;> simp at * <;> omega
    have g4 : (if neg then -(value ds : Int) else value ds) * (f : Int) = v := by
      rw [hv]
      cases neg <;> simp [Int.neg_mul]
    have g5 : wrap64 v = v := by unfold wrap64; omega
    rcases ht.suffix with ⟨h, e1, e2⟩ | h
    · rw [e2] at g4
      rw [show ((1 : Nat) : Int) = 1 from rfl, Int.mul_one] at g4
      rw [g4] at g3
      simp only [integerP, int64P, hs, g1, hne, if_false, if_neg hnn, h]
      rw [g4, g3, e1]
    · simp only [integerP, int64P, hs, g1, hne, if_false, if_neg hnn, h]
      rw [g3, g4, g5]
  simp [alternatives, firstOf, as, h1, h2, netP_none h3, h3, realP_absent hdot, h4, h5]

/-- A number of more than 20 digits is cut off. -/
theorem alternatives_long (env : Env) (p : P Data) (ds : List Nat) (hd : ∀ d ∈ ds, d < 10) (hl : 20 < ds.length) :
    ∃ n, alternatives env p (txt ds) = some (.count n, txt (ds.drop 20)) := by
  have hne : ds ≠ [] := by intro h; subst h; simp at hl
  have hs := takeSign_txt ds hd hne []
  have hnn := txt_append_ne ds hne []
  rw [List.append_nil] at hs hnn
  have hdot := txt_absent ds hd '.' (by decide)
  have hcol := txt_absent ds hd ':' (by decide)
  have g : ∀ m (es : List Nat), (∀ d ∈ es, d < 10) → takeDigits m (txt es) = (es.take m, txt (es.drop m)) := by
    intro m es he
    have := takeDigits_txt m es he [] rfl
    simpa using this
  have hu : ∀ es : List Nat, (∀ d ∈ es, d < 10) → lookup units (skipWs (txt es)) = none := by
    intro es he
    cases es with
    | nil => rfl
    | cons d es =>
      have hdg := digitChar_isDigit d (he d (by simp))
      have h1 : skipWs (txt (d :: es)) = txt (d :: es) := skipWs_cons (isDigit_clean hdg) _
      rw [h1]
      apply lookup_none _ _ units_names
      have := forall_byte (fun b => !isDigit b || !begins units b) (by decide +kernel) (digitChar d)
      simpa [txt, hdg] using this
  have hdr : ∀ k, ∀ d ∈ ds.drop k, d < 10 := fun k d h => hd d (List.mem_of_mem_drop h)
  have hdur : durationP env (txt ds) = none := by
    have h1 : ∃ l, realP false (txt ds) = some (l, txt ((ds.drop 20).drop 20)) := by
      refine ⟨⟨false, ds.take 20, (ds.drop 20).take 20⟩, ?_⟩
      have e := eat_absent (txt_absent (ds.drop 20) (hdr 20) '.' (by decide))
      have : ds.take 20 ≠ [] := by simp [hne]
      simp only [realP, if_neg hnn, hs, g 20 ds hd, e, this, g 20 (ds.drop 20) (hdr 20)]
      simp
    obtain ⟨l, h1⟩ := h1
    rw [List.drop_drop] at h1
    simp [durationP, durOneP, h1, hu _ (hdr 40)]
  have hsp := head_special ds hd hne []
  rw [List.append_nil] at hsp
  have a1 : eat '@' (txt ds) = none := eat_absent (txt_absent ds hd '@' (by decide))
  have a2 : eat 'n' (txt ds) = none := eat_absent (txt_absent ds hd 'n' (by decide))
  have a3 : eat 'i' (txt ds) = none := eat_absent (txt_absent ds hd 'i' (by decide))
  have a4 : eat '-' (txt (ds.drop 4)) = none := eat_absent (txt_absent _ (hdr 4) '-' (by decide))
  have hy : ymdhmsP env (txt ds) = none := by
    unfold ymdhmsP guarded fixedP
    rw [hs]
    simp only [g 4 ds hd]
    split
    · rfl
    · rename_i y x hx
      split at hx
      · cases hx
      · rename_i v x' hx'
        split at hx'
        · cases hx'
        · split at hx'
          · injection hx' with hx'
            injection hx' with _ e
            split at hx
            · injection hx with hx
              injection hx with _ e'
              rw [← e', ← e, a4]; rfl
            · cases hx
          · cases hx'
  have ht : timeP env (txt ds) = none := by
    simp [timeP, hy, unixP, a1, nowShiftP, kw_none a2, inP, kw_none a3, agoP, hdur]
  have h3 := addrP_absent hcol hdot
  have hsuf : lookup suffixes (skipWs (txt (ds.drop 20))) = none := by
    cases hds : ds.drop 20 with
    | nil => rfl
    | cons d es =>
      have hdg := digitChar_isDigit d (hdr 20 d (by simp [hds]))
      have h1 : skipWs (txt (d :: es)) = txt (d :: es) := skipWs_cons (isDigit_clean hdg) _
      rw [h1]
      apply lookup_none _ _ suffixes_names
      have := forall_byte (fun b => !isDigit b || !begins suffixes b) (by decide +kernel) (digitChar d)
      simpa [txt, hdg] using this
  have h4 : countP (txt ds) = some (value (ds.take 20) % 2 ^ 64, txt (ds.drop 20)) := by
    have : 1 ≤ (ds.take 20).length := by simp; omega
    simp only [countP, uintP, g 20 ds hd, this, if_true, hsuf]
  exact ⟨_, by simp [alternatives, firstOf, as, ht, hdur, netP_none h3, h3, realP_absent hdot, h4]; rfl⟩

end Verif.DataText
