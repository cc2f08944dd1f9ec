import Verif.Syslog.Lemmas
/-! # From an event of a line back to the line -/
namespace Verif.Syslog
open Verif.Data Verif.DataText Verif.Calendar Spec

/-! ### What is left is an end of the input -/

theorem eat_back {c : Char} {s r : Str} (h : eat c s = some r) : s = ch c :: r := by
  cases s with
  | nil => simp [eat] at h
  | cons b s =>
    rw [eat] at h
    split at h
    · rename_i hb; rw [hb, Option.some.inj h]
    · exact absurd h (by simp)

theorem eat_sfx {c : Char} {s r : Str} (h : eat c s = some r) : r <:+ s := eat_back h ▸ List.suffix_cons ..

theorem kw_sfx : ∀ {cs : List Char} {s r : Str}, kw cs s = some r → r <:+ s := by
  intro cs
  induction cs with
  | nil => intro s r h; rw [kw] at h; exact Option.some.inj h ▸ List.suffix_refl _
  | cons c cs ih =>
    intro s r h
    rw [kw] at h
    cases he : eat c s with
    | none => simp [he] at h
    | some q => rw [he] at h; exact (ih h).trans (eat_sfx he)

theorem skipWs_sfx (s : Str) : skipWs s <:+ s := by
  induction s with
  | nil => exact List.suffix_refl _
  | cons b s ih =>
    unfold skipWs
    split
    · exact ih.trans (List.suffix_cons ..)
    · exact List.suffix_refl _

theorem takeDigits_sfx : ∀ (n : Nat) (s : Str), (takeDigits n s).2 <:+ s := by
  intro n
  induction n with
  | zero => intro s; exact List.suffix_refl _
  | succ n ih =>
    intro s
    cases s with
    | nil => exact List.suffix_refl _
    | cons b s =>
      unfold takeDigits
      split
      · exact (ih s).trans (List.suffix_cons ..)
      · exact List.suffix_refl _

theorem takeSign_sfx (s : Str) : (takeSign s).2 <:+ s := by
  cases s with
  | nil => exact List.suffix_refl _
  | cons b s =>
    rw [takeSign]
    split
    · exact List.suffix_cons ..
    · split
      · exact List.suffix_cons ..
      · exact List.suffix_refl _

theorem fixedP_sfx {n : Nat} {s r : Str} {v : Int} (h : fixedP n s = some (v, r)) : r <:+ s := by
  unfold fixedP at h
  split at h
  · exact absurd h (by simp)
  · split at h
    · have := (Prod.mk.inj (Option.some.inj h)).2
      exact this ▸ (takeDigits_sfx _ _).trans (takeSign_sfx s)
    · exact absurd h (by simp)

theorem guarded_sfx {n : Nat} {lo hi : Int} {s r : Str} {v : Int} (h : guarded n lo hi s = some (v, r)) : r <:+ s := by
  unfold guarded at h
  cases hf : fixedP n s with
  | none => simp [hf] at h
  | some x =>
    rw [hf] at h
    simp only at h
    split at h
    · exact (Prod.mk.inj (Option.some.inj h)).2 ▸ fixedP_sfx hf
    · exact absurd h (by simp)

theorem eatGuarded_sfx {c : Char} {n : Nat} {lo hi : Int} {s r : Str} {v : Int} (h : (eat c s).bind (guarded n lo hi) = some (v, r)) : r <:+ s := by
  obtain ⟨q, h1, h2⟩ := Option.bind_eq_some_iff.mp h
  exact (guarded_sfx h2).trans (eat_sfx h1)

theorem realP_sfx {d : Bool} {s r : Str} {l : Lit} (h : realP d s = some (l, r)) : r <:+ s := by
  have h0 : (takeDigits 20 (takeSign s).2).2 <:+ s := (takeDigits_sfx _ _).trans (takeSign_sfx s)
  unfold realP at h
  split at h
  · exact absurd h (by simp)
  · split at h
    · rename_i q hq
      split at h
      · exact absurd h (by simp)
      · exact (Prod.mk.inj (Option.some.inj h)).2 ▸ ((takeDigits_sfx _ _).trans (eat_sfx hq)).trans h0
    · split at h
      · exact absurd h (by simp)
      · exact (Prod.mk.inj (Option.some.inj h)).2 ▸ (takeDigits_sfx _ _).trans h0

theorem eatReal_sfx {c : Char} {d : Bool} {s r : Str} {l : Lit} (h : (eat c s).bind (realP d) = some (l, r)) : r <:+ s := by
  obtain ⟨q, h1, h2⟩ := Option.bind_eq_some_iff.mp h
  exact (realP_sfx h2).trans (eat_sfx h1)

theorem lookup_sfx {table : List (List Char × Nat)} {s r : Str} {v : Nat} (h : lookup table s = some (v, r)) : r <:+ s := by
  induction table with
  | nil => simp [lookup] at h
  | cons e more ih =>
    obtain ⟨name, u⟩ := e
    rw [lookup] at h
    cases hk : kw name s with
    | none => rw [hk] at h; exact ih h
    | some q => rw [hk] at h; exact (Prod.mk.inj (Option.some.inj h)).2 ▸ kw_sfx hk

theorem durOneP_sfx {env : Env} {s r : Str} {v : Int} (h : durOneP env s = some (v, r)) : r <:+ s := by
  unfold durOneP at h
  cases hr : realP false s with
  | none => simp [hr] at h
  | some x =>
    obtain ⟨l, q⟩ := x
    rw [hr] at h
    simp only at h
    cases hl : lookup units (skipWs q) with
    | none => simp [hl] at h
    | some y =>
      rw [hl] at h
      exact (Prod.mk.inj (Option.some.inj h)).2 ▸ ((lookup_sfx hl).trans (skipWs_sfx q)).trans (realP_sfx hr)

theorem durLoop_sfx {env : Env} : ∀ (n : Nat) (acc : Int) (s : Str), (durLoop env n acc s).2 <:+ s := by
  intro n
  induction n with
  | zero => intro acc s; exact List.suffix_refl _
  | succ n ih =>
    intro acc s
    unfold durLoop
    split
    · exact List.suffix_refl _
    · rename_i d r h
      split
      · exact (ih _ r).trans (durOneP_sfx h)
      · exact durOneP_sfx h

theorem durationP_sfx {env : Env} {s r : Str} {v : Int} (h : durationP env s = some (v, r)) : r <:+ s := by
  unfold durationP at h
  cases hd : durOneP env s with
  | none => simp [hd] at h
  | some x =>
    rw [hd] at h
    have : (durLoop env x.2.length x.1 x.2).2 = r := congrArg Prod.snd (Option.some.inj h)
    exact this ▸ (durLoop_sfx _ _ _).trans (durOneP_sfx hd)

theorem zoneMin_sfx (s : Str) : (zoneMin s).2 <:+ s := by
  unfold zoneMin
  split
  · rename_i m r h
    refine (guarded_sfx h).trans ?_
    cases he : eat ':' s with
    | none => exact List.suffix_refl _
    | some q => exact eat_sfx he
  · exact List.suffix_refl _

theorem zoneHour_sfx {k v : Int} {s r : Str} (h : zoneHour k s = some (v, r)) : r <:+ s := by
  unfold zoneHour at h
  cases hg : guarded 2 0 23 s with
  | none => simp [hg] at h
  | some x =>
    rw [hg] at h
    exact (Prod.mk.inj (Option.some.inj h)).2 ▸ (zoneMin_sfx _).trans (guarded_sfx hg)

theorem zonePart_sfx (s : Str) : (zonePart s).2 <:+ s := by
  unfold zonePart
  split
  · rename_i r h; exact eat_sfx h
  · cases hp : (eat '+' s).bind (zoneHour 1) with
    | some x =>
      obtain ⟨q, h1, h2⟩ := Option.bind_eq_some_iff.mp hp
      exact (zoneHour_sfx h2).trans (eat_sfx h1)
    | none =>
      cases hm : (eat '-' s).bind (zoneHour (-1)) with
      | some x =>
        obtain ⟨q, h1, h2⟩ := Option.bind_eq_some_iff.mp hm
        exact (zoneHour_sfx h2).trans (eat_sfx h1)
      | none => exact List.suffix_refl _

theorem secPart_sfx (env : Env) (s : Str) : (secPart env s).2 <:+ s := by
  unfold secPart
  split
  · exact List.suffix_refl _
  · rename_i l r h
    split
    · exact eatReal_sfx h
    · exact List.suffix_refl _

theorem minPart_sfx (env : Env) (s : Str) : (minPart env s).2 <:+ s := by
  unfold minPart
  split
  · exact List.suffix_refl _
  · rename_i m r h
    exact ((zonePart_sfx _).trans (secPart_sfx env r)).trans (eatGuarded_sfx h)

theorem divider_sfx {s r : Str} (h : divider s = some r) : r <:+ s := by
  unfold divider at h
  rcases Option.or_eq_some_iff.mp h with h | ⟨_, h⟩
  · rcases Option.or_eq_some_iff.mp h with h | ⟨_, h⟩ <;> exact eat_sfx h
  · exact eat_sfx h

theorem hourPart_sfx (env : Env) (s : Str) : (hourPart env s).2 <:+ s := by
  unfold hourPart
  split
  · exact List.suffix_refl _
  · rename_i m r h
    obtain ⟨q, h1, h2⟩ := Option.bind_eq_some_iff.mp h
    exact ((minPart_sfx env r).trans (guarded_sfx h2)).trans (divider_sfx h1)

theorem dayPart_sfx (env : Env) (s : Str) : (dayPart env s).2 <:+ s := by
  unfold dayPart
  split
  · exact List.suffix_refl _
  · rename_i m r h
    exact (hourPart_sfx env r).trans (eatGuarded_sfx h)

theorem ymdhmsP_sfx {env : Env} {s r : Str} {v : Int} (h : ymdhmsP env s = some (v, r)) : r <:+ s := by
  unfold ymdhmsP at h
  split at h
  · exact absurd h (by simp)
  · rename_i y q hq
    split at h
    · exact absurd h (by simp)
    · rename_i mo q' hq'
      exact (Prod.mk.inj (Option.some.inj h)).2 ▸ ((dayPart_sfx env q').trans (eatGuarded_sfx hq')).trans (guarded_sfx hq)

theorem unixP_sfx {env : Env} {s r : Str} {v : Int} (h : unixP env s = some (v, r)) : r <:+ s := by
  unfold unixP at h
  split at h
  · exact absurd h (by simp)
  · rename_i l q hq
    exact (Prod.mk.inj (Option.some.inj h)).2 ▸ eatReal_sfx hq

theorem eatDuration_sfx {c : Char} {env : Env} {s r : Str} {v : Int} (h : ((eat c s).bind fun r' => durationP env (skipWs r')) = some (v, r)) : r <:+ s := by
  obtain ⟨q, h1, h2⟩ := Option.bind_eq_some_iff.mp h
  exact ((durationP_sfx h2).trans (skipWs_sfx q)).trans (eat_sfx h1)

theorem nowShiftP_sfx {env : Env} {s r : Str} {v : Int} (h : nowShiftP env s = some (v, r)) : r <:+ s := by
  unfold nowShiftP at h
  split at h
  · exact absurd h (by simp)
  · rename_i q hq
    have h0 := (skipWs_sfx q).trans (kw_sfx hq)
    split at h
    · rename_i d q' hq'
      exact (Prod.mk.inj (Option.some.inj h)).2 ▸ (eatDuration_sfx hq').trans h0
    · split at h
      · rename_i d q' hq'
        exact (Prod.mk.inj (Option.some.inj h)).2 ▸ (eatDuration_sfx hq').trans h0
      · exact absurd h (by simp)

theorem inP_sfx {env : Env} {s r : Str} {v : Int} (h : inP env s = some (v, r)) : r <:+ s := by
  unfold inP at h
  split at h
  · rename_i d q hq
    obtain ⟨q', h1, h2⟩ := Option.bind_eq_some_iff.mp hq
    exact (Prod.mk.inj (Option.some.inj h)).2 ▸ ((durationP_sfx h2).trans (skipWs_sfx q')).trans (kw_sfx h1)
  · exact absurd h (by simp)

theorem agoP_sfx {env : Env} {s r : Str} {v : Int} (h : agoP env s = some (v, r)) : r <:+ s := by
  unfold agoP at h
  split at h
  · exact absurd h (by simp)
  · rename_i d q hq
    split at h
    · rename_i q' hq'
      exact (Prod.mk.inj (Option.some.inj h)).2 ▸ ((kw_sfx hq').trans (skipWs_sfx q)).trans (durationP_sfx hq)
    · exact absurd h (by simp)

/-- What the parser of points in time leaves is an end of its input. -/
theorem timeP_sfx {env : Env} {s r : Str} {v : Int} (h : timeP env s = some (v, r)) : r <:+ s := by
  unfold timeP at h
  rcases Option.or_eq_some_iff.mp h with h | ⟨_, h⟩
  · exact ymdhmsP_sfx h
  rcases Option.or_eq_some_iff.mp h with h | ⟨_, h⟩
  · exact unixP_sfx h
  rcases Option.or_eq_some_iff.mp h with h | ⟨_, h⟩
  · exact nowShiftP_sfx h
  rcases Option.or_eq_some_iff.mp h with h | ⟨_, h⟩
  · obtain ⟨q, h1, h2⟩ := Option.map_eq_some_iff.mp h
    exact (Prod.mk.inj h2).2 ▸ kw_sfx h1
  rcases Option.or_eq_some_iff.mp h with h | ⟨_, h⟩
  · exact inP_sfx h
  · exact agoP_sfx h

/-! ### The parsers of syslog messages -/

theorem takeN_back (p : UInt8 → Bool) : ∀ (n : Nat) (s : Str),
    s = (takeN p n s).1 ++ (takeN p n s).2 ∧ (takeN p n s).1.length ≤ n ∧ ∀ b ∈ (takeN p n s).1, p b = true := by
  intro n
  induction n with
  | zero => intro s; simp [takeN]
  | succ n ih =>
    intro s
    cases s with
    | nil => simp [takeN]
    | cons b s =>
      unfold takeN
      split
      · rename_i hb
        obtain ⟨h1, h2, h3⟩ := ih s
        refine ⟨by rw [List.cons_append, ← h1], by simpa using h2, ?_⟩
        intro x hx
        rcases List.mem_cons.mp hx with rfl | hx
        · exact hb
        · exact h3 x hx
      · simp

theorem rep_back {p : UInt8 → Bool} {n : Nat} {s t r : Str} (h : rep p n s = some (t, r)) : s = t ++ r ∧ t ≠ [] ∧ t.length ≤ n ∧ ∀ b ∈ t, p b = true := by
  unfold rep at h
  split at h
  · exact absurd h (by simp)
  · rename_i hne
    have h := Option.some.inj h
    obtain ⟨h1, h2, h3⟩ := takeN_back p n s
    rw [h] at h1 h2 h3 hne
    exact ⟨h1, hne, h2, h3⟩

theorem maybeNil_back {α : Type} {nil a : α} {p : P α} {s r : Str} (h : maybeNil nil p s = some (a, r)) :
    (a = nil ∧ s = ch '-' :: r ∧ ∃ q, r = ch ' ' :: q) ∨ (p s = some (a, r) ∧ ∀ q, s ≠ ch '-' :: ch ' ' :: q) := by
  unfold maybeNil at h
  split at h
  · rename_i q hq
    obtain ⟨r', h1, h2⟩ := Option.bind_eq_some_iff.mp hq
    obtain ⟨r'', h3, h4⟩ := Option.map_eq_some_iff.mp h2
    obtain ⟨ha, hr⟩ := Prod.mk.inj (Option.some.inj h)
    refine .inl ⟨ha.symm, ?_, r'', ?_⟩
    · rw [← hr, ← h4]; exact eat_back h1
    · rw [← hr, ← h4]; exact eat_back h3
  · rename_i hq
    refine .inr ⟨h, fun q e => ?_⟩
    rw [e, eat_self] at hq
    simp [eat_self] at hq

theorem name_back {max : Nat} {s x r r' : Str} (h : nameP max s = some (x, r)) (hr : r = ch ' ' :: r') :
    ∃ t : Option Str, x = t.getD [] ∧ s = ch ' ' :: (dash t ++ r) ∧ Field max t := by
  unfold nameP at h
  obtain ⟨q, h1, h2⟩ := Option.bind_eq_some_iff.mp h
  rw [eat_back h1]
  rcases maybeNil_back h2 with ⟨h3, h4, h5⟩ | ⟨h3, h4⟩
  · exact ⟨none, h3, by rw [h4]; rfl, fun y hy => by cases hy⟩
  · obtain ⟨e1, e2, e3, e4⟩ := rep_back h3
    refine ⟨some x, rfl, by rw [e1]; rfl, fun y hy => ?_⟩
    cases hy
    refine ⟨e2, e3, fun hs => absurd (e4 _ hs) (by decide), fun hx => ?_⟩
    rw [hx, hr] at e1
    exact h4 _ e1

theorem number_back {s r : Str} {n : Nat} (h : uintP 16 3 1 s = some (n, r)) : ∃ t, s = t ++ r ∧ Digits t ∧ number t = n := by
  have hb : ∀ (n : Nat) (s : Str), ∃ t : Str, s = t ++ (takeDigits n s).2 ∧ t.length ≤ n ∧ (∀ b ∈ t, 48 ≤ b.toNat ∧ b.toNat ≤ 57) ∧
      (takeDigits n s).1 = t.map fun b => b.toNat - 48 := by
    intro n
    induction n with
    | zero => intro s; exact ⟨[], by simp [takeDigits]⟩
    | succ n ih =>
      intro s
      cases s with
      | nil => exact ⟨[], by simp [takeDigits]⟩
      | cons b s =>
        unfold takeDigits
        split
        · rename_i hb
          obtain ⟨t, h1, h2, h3, h4⟩ := ih s
          refine ⟨b :: t, by rw [List.cons_append, ← h1], by simpa using h2, ?_, by rw [h4]; rfl⟩
          intro x hx
          rcases List.mem_cons.mp hx with rfl | hx
          · simpa [isDigit] using hb
          · exact h3 x hx
        · exact ⟨[], by simp⟩
  obtain ⟨t, h1, h2, h3, h4⟩ := hb 3 s
  have hn : uintP 16 3 1 s = uintP 16 3 1 s := rfl
  unfold uintP at h
  split at h
  · rename_i hl
    have hr := (Prod.mk.inj (Option.some.inj h)).2
    have hv := (Prod.mk.inj (Option.some.inj h)).1
    have hd : Digits t := ⟨fun e => by rw [h4, e] at hl; simp at hl, h2, h3⟩
    rw [hr] at h1
    refine ⟨t, h1, hd, ?_⟩
    rw [← hv, h4]
    have h5 := digits_text hd (ch ' ') (by decide) []
    unfold uintP at h5
    have h6 : takeDigits 3 (t ++ [ch ' ']) = (t.map (fun b => b.toNat - 48), [ch ' ']) := by
      obtain ⟨u, g1, g2, g3, g4⟩ := hb 3 (t ++ [ch ' '])
      split at h5
      · have g5 := (Prod.mk.inj (Option.some.inj h5)).2
        rw [g5] at g1
        have g6 : t = u := List.append_cancel_right g1
        rw [← g6] at g4
        exact Prod.ext g4 g5
      · exact absurd h5 (by simp)
    rw [h6] at h5
    split at h5
    · exact ((Prod.mk.inj (Option.some.inj h5)).1).symm
    · exact absurd h5 (by simp)
  · exact absurd h (by simp)

theorem stamp_back {env : Env} {s r r' : Str} {t : Option Int} (h : stampP env s = some (t, r)) (hr : r = ch ' ' :: r') :
    ∃ x, s = x ++ r ∧ (x = [ch '-'] ↔ t = none) := by
  rcases maybeNil_back h with ⟨h1, h2, _⟩ | ⟨h1, h2⟩
  · exact ⟨[ch '-'], h2, by simp [h1]⟩
  · obtain ⟨⟨v, q⟩, h3, h4⟩ := Option.map_eq_some_iff.mp h1
    obtain ⟨h5, h6⟩ := Prod.mk.inj h4
    subst h6
    obtain ⟨x, hx⟩ := timeP_sfx h3
    refine ⟨x, hx.symm, ?_⟩
    constructor
    · intro e
      rw [e, hr] at hx
      exact absurd hx.symm (h2 _)
    · intro e
      rw [e] at h5
      exact absurd h5 (by simp)

theorem values_back : ∀ (s : Str), s = escape (values s).1 ++ (values s).2 := by
  intro s
  induction s using values.induct with
  | case1 => rfl
  | case2 b hb =>
    have hs : ¬ (b = ch '"' ∨ b = ch '\\' ∨ b = ch ']') := fun h => by
      rw [(special_iff b).mpr h] at hb; simp at hb
    rw [values, if_pos hb]
    show [b] = escape [b] ++ []
    rw [escape_cons, if_neg hs]
    rfl
  | case3 b hb => rw [values, if_neg hb]; rfl
  | case4 c s hc ih =>
    rw [values, if_pos rfl, if_pos hc]
    show ch '\\' :: c :: s = escape (c :: (values s).1) ++ (values s).2
    rw [escape_cons, if_pos ((special_iff c).mp hc), List.append_assoc, ← ih]
    rfl
  | case5 c s hc => rw [values, if_pos rfl, if_neg hc]; rfl
  | case6 b c s hne hb ih =>
    have hs : ¬ (b = ch '"' ∨ b = ch '\\' ∨ b = ch ']') := fun h => by
      rw [(special_iff b).mpr h] at hb; simp at hb
    rw [values, if_neg hne, if_pos hb]
    show b :: c :: s = escape (b :: (values (c :: s)).1) ++ (values (c :: s)).2
    rw [escape_cons, if_neg hs, List.append_assoc, ← ih]
    rfl
  | case7 b c s hne hb => rw [values, if_neg hne, if_neg hb]; rfl

theorem param_back {s r : Str} {p : Str × Str} (h : paramP s = some (p, r)) : s = paramText p ++ r := by
  unfold paramP at h
  obtain ⟨q, h1, h⟩ := Option.bind_eq_some_iff.mp h
  obtain ⟨⟨k, q2⟩, h2, h⟩ := Option.bind_eq_some_iff.mp h
  obtain ⟨q3, h3, h⟩ := Option.bind_eq_some_iff.mp h
  obtain ⟨q4, h4, h⟩ := Option.bind_eq_some_iff.mp h
  obtain ⟨q5, h5, h⟩ := Option.map_eq_some_iff.mp h
  obtain ⟨e1, e2⟩ := Prod.mk.inj h
  have e3 := (rep_back h2).1
  have e4 := values_back q4
  rw [eat_back h5] at e4
  rw [eat_back h1, e3, eat_back h3, eat_back h4, e4, ← e1, ← e2]
  simp [paramText]

theorem many_back {α : Type} {p : P α} {text : α → Str} (hp : ∀ s a r, p s = some (a, r) → s = text a ++ r) : ∀ (n : Nat) (s : Str),
    s = (many p n s).1.flatMap text ++ (many p n s).2 := by
  intro n
  induction n with
  | zero => intro s; rfl
  | succ n ih =>
    intro s
    unfold many
    split
    · rfl
    · rename_i a r h
      rw [List.flatMap_cons, List.append_assoc, ← ih r]
      exact hp s a r h

theorem plus_back {α : Type} {p : P α} {text : α → Str} (hp : ∀ s a r, p s = some (a, r) → s = text a ++ r) {s r : Str} {l : List α}
    (h : plus p s = some (l, r)) : l ≠ [] ∧ s = l.flatMap text ++ r := by
  unfold plus at h
  obtain ⟨⟨a, q⟩, h1, h2⟩ := Option.map_eq_some_iff.mp h
  obtain ⟨e1, e2⟩ := Prod.mk.inj h2
  rw [← e1, ← e2]
  refine ⟨by simp, ?_⟩
  rw [List.flatMap_cons, List.append_assoc, ← many_back hp]
  exact hp s a q h1

theorem element_back {s r : Str} {e : Str × List (Str × Str)} (h : elementP s = some (e, r)) : s = elementText e ++ r := by
  unfold elementP at h
  obtain ⟨q, h1, h⟩ := Option.bind_eq_some_iff.mp h
  obtain ⟨⟨k, q2⟩, h2, h⟩ := Option.bind_eq_some_iff.mp h
  obtain ⟨⟨ps, q3⟩, h3, h⟩ := Option.bind_eq_some_iff.mp h
  obtain ⟨q5, h5, h⟩ := Option.map_eq_some_iff.mp h
  obtain ⟨e1, e2⟩ := Prod.mk.inj h
  have e4 := (plus_back (fun _ _ _ => param_back) h3).2
  rw [eat_back h1, (rep_back h2).1, e4, eat_back h5, ← e1, ← e2]
  simp [elementText]

theorem data_back {s r : Str} {d : List (Str × List (Str × Str))} (h : dataP s = some (d, r)) : s = dataText d ++ r := by
  rcases maybeNil_back h with ⟨h1, h2, _⟩ | ⟨h1, _⟩
  · rw [h1, h2]; rfl
  · obtain ⟨h2, h3⟩ := plus_back (fun _ _ _ => element_back) h1
    rw [dataText, if_neg h2]
    exact h3

theorem content_back (s : Str) : content s = s ∨ (content s ≠ [] ∧ s = bom ++ content s) := by
  unfold content
  split
  · exact .inr ⟨by simp, rfl⟩
  · exact .inl rfl

/-- What is read is in the line. -/
theorem message_back {env : Env} {line : Str} {x : Message} (h : messageP env line = some x) :
    ∃ m : Parts, line = m.text ∧ Digits m.pri ∧ number m.pri ≤ 191 ∧ x.hdr.facility = number m.pri / 8 ∧ x.hdr.severity = number m.pri % 8 ∧
      Digits m.version ∧ 0 < number m.version ∧ x.hdr.version = number m.version ∧ (m.ts = [ch '-'] ↔ x.hdr.ts = none) ∧
      (Field 255 m.host ∧ x.hdr.hostname = m.host.getD []) ∧ (Field 48 m.app ∧ x.hdr.appName = m.app.getD []) ∧
      (Field 128 m.proc ∧ x.hdr.processId = m.proc.getD []) ∧ (Field 32 m.mid ∧ x.hdr.msgId = m.mid.getD []) ∧
      x.data = m.data ∧ x.msg = m.msg.map Prod.snd := by
  unfold messageP headerP priP versionP at h
  obtain ⟨⟨hdr, s8⟩, h, hm⟩ := Option.bind_eq_some_iff.mp h
  obtain ⟨⟨pri, s1⟩, k1, h⟩ := Option.bind_eq_some_iff.mp h
  obtain ⟨s0, h0, k2⟩ := Option.bind_eq_some_iff.mp k1
  obtain ⟨⟨n, s0'⟩, h1, k3⟩ := Option.bind_eq_some_iff.mp k2
  simp only at k3
  split at k3
  case isFalse => exact absurd k3 (by simp)
  rename_i hpri
  obtain ⟨s1', h1', k4⟩ := Option.map_eq_some_iff.mp k3
  obtain ⟨e1, e2⟩ := Prod.mk.inj k4
  subst e1; subst e2
  obtain ⟨⟨v, s2⟩, k5, h⟩ := Option.bind_eq_some_iff.mp h
  obtain ⟨⟨v', s2'⟩, h2, k6⟩ := Option.bind_eq_some_iff.mp k5
  simp only at k6
  split at k6
  case isFalse => exact absurd k6 (by simp)
  rename_i hver
  obtain ⟨e1, e2⟩ := Prod.mk.inj (Option.some.inj k6)
  subst e1; subst e2
  obtain ⟨s3, h3, h⟩ := Option.bind_eq_some_iff.mp h
  obtain ⟨⟨ts, s4⟩, h4, h⟩ := Option.bind_eq_some_iff.mp h
  obtain ⟨⟨host, s5⟩, h5, h⟩ := Option.bind_eq_some_iff.mp h
  obtain ⟨⟨app, s6⟩, h6, h⟩ := Option.bind_eq_some_iff.mp h
  obtain ⟨⟨proc, s7⟩, h7, h⟩ := Option.bind_eq_some_iff.mp h
  obtain ⟨⟨mid, s8'⟩, h8, h⟩ := Option.map_eq_some_iff.mp h
  obtain ⟨e1, e2⟩ := Prod.mk.inj h
  subst e1; subst e2
  obtain ⟨s9, h9, hm⟩ := Option.bind_eq_some_iff.mp hm
  obtain ⟨⟨d, s10⟩, h10, hm⟩ := Option.bind_eq_some_iff.mp hm
  -- from the end to the start
  obtain ⟨mid', m1, m2, m3⟩ := name_back h8 (eat_back h9)
  obtain ⟨proc', p1, p2, p3⟩ := name_back h7 m2
  obtain ⟨app', a1, a2, a3⟩ := name_back h6 p2
  obtain ⟨host', o1, o2, o3⟩ := name_back h5 a2
  obtain ⟨tst, t1, t2⟩ := stamp_back h4 o2
  obtain ⟨vt, v1, v2, v3⟩ := number_back h2
  obtain ⟨pt, q1, q2, q3⟩ := number_back h1
  obtain ⟨msg, g1, g2, g3⟩ : ∃ msg : Option (Bool × Str), s10 = tail msg ∧ x = ⟨⟨n / 8, n % 8, v', ts, host, app, proc, mid⟩, d, msg.map Prod.snd⟩ ∧ True := by
    simp only at hm
    split at hm
    · rename_i r hr
      rw [eat_back hr]
      rcases content_back r with hc | ⟨_, hc⟩
      · exact ⟨some (false, r), rfl, by rw [← Option.some.inj hm, hc]; rfl, trivial⟩
      · exact ⟨some (true, content r), by rw [hc]; simp [tail, ← hc], by rw [← Option.some.inj hm]; rfl, trivial⟩
    · split at hm
      · rename_i hs
        exact ⟨none, hs, by rw [← Option.some.inj hm]; rfl, trivial⟩
      · exact absurd hm (by simp)
  refine ⟨⟨pt, vt, tst, host', app', proc', mid', d, msg⟩, ?_, q2, by rw [q3]; exact hpri, ?_⟩
  · rw [eat_back h0, q1, eat_back h1', v1, eat_back h3, t1, o2, a2, p2, m2, eat_back h9, data_back h10, g1]
    simp [Parts.text]
  · subst g2
    exact ⟨by rw [q3], by rw [q3], v2, by rw [v3]; exact hver, v3.symm, t2, ⟨o3, o1⟩, ⟨a3, a1⟩, ⟨p3, p1⟩, ⟨m3, m1⟩, rfl, rfl⟩

end Verif.Syslog
