import Verif.TestGen.Props
import Verif.Options.Lemmas
/-!
# The attributes that are accepted

C152 continued: exactly the texts `name(a,b)` are accepted.
-/
namespace Verif.TestGen
open Verif.DataText Verif.Data Spec

theorem takeSign_back (s : Str) : ∃ sign, s = sign ++ (takeSign s).2 ∧
    (sign = [45] ∧ (takeSign s).1 = true ∨ sign = [43] ∧ (takeSign s).1 = false ∨ sign = [] ∧ (takeSign s).1 = false) := by
  cases s with
  | nil => exact ⟨[], by simp [takeSign]⟩
  | cons b s =>
    by_cases h1 : b = ch '-'
    · subst h1; exact ⟨[45], by simp [takeSign]; rfl⟩
    · by_cases h2 : b = ch '+'
      · subst h2; exact ⟨[43], by simp [takeSign, h1]; decide⟩
      · exact ⟨[], by simp [takeSign, h1, h2]⟩

theorem takeDigits_full : ∀ (n : Nat) (s : Str), (takeDigits n s).1.length < n → headNot isDigit (takeDigits n s).2 = true
  | 0, s, h => by simp [takeDigits] at h
  | n + 1, [], h => by simp [takeDigits, headNot]
  | n + 1, b :: s, h => by
    simp only [takeDigits] at *
    split at h
    · rename_i hb
      rw [if_pos hb]
      exact takeDigits_full n s (by simpa using h)
    · rename_i hb
      rw [if_neg hb]
      simpa [headNot] using hb

theorem eat_back {c : Char} {s r : Str} (h : eat c s = some r) : s = ch c :: r := by
  cases s with
  | nil => simp [eat] at h
  | cons b s =>
    simp only [eat] at h
    split at h
    · rename_i e; simp only [Option.some.injEq] at h; rw [h]; simp_all
    · cases h

theorem realP_back {s r : Str} {l : Lit} (h : realP false s = some (l, r)) : ∃ t, s = t ++ r ∧ Written t l := by
  unfold realP at h
  split at h
  · cases h
  obtain ⟨sign, hs1, hs2⟩ := takeSign_back s
  obtain ⟨d1, d2, d3⟩ := Options.takeDigits_split 20 (takeSign s).2
  have hfull := takeDigits_full 20 (takeSign s).2
  generalize hds : (takeDigits 20 (takeSign s).2).1 = ds at *
  generalize hr1 : (takeDigits 20 (takeSign s).2).2 = r1 at *
  generalize (takeSign s).1 = neg at *
  generalize (takeSign s).2 = s1 at *
  cases he : eat '.' r1 with
  | some r2 =>
    rw [he] at h
    dsimp only at h
    have hr2 := eat_back he
    obtain ⟨f1, f2, f3⟩ := Options.takeDigits_split 20 r2
    generalize hfs : (takeDigits 20 r2).1 = fs at *
    generalize (takeDigits 20 r2).2 = r3 at *
    split at h
    · cases h
    · rename_i hne
      simp only [Option.some.injEq, Prod.mk.injEq] at h
      obtain ⟨rfl, rfl⟩ := h
      refine ⟨_, ?_, .mk neg sign hs2 ds fs (by
        intro d hd; rcases List.mem_append.1 hd with h | h
        · exact d2 d h
        · exact f2 d h) d3 f3 [46] (.inl ⟨rfl, ?_⟩)⟩
      · rw [hs1, d1, hr2, f1]
        simp [Number.txt_digitText, ch]
      · by_cases hd : ds = []
        · exact .inr fun hf => hne ⟨hd, hf⟩
        · exact .inl hd
  | none =>
    rw [he] at h
    dsimp only at h
    obtain ⟨f1, f2, f3⟩ := Options.takeDigits_split 20 r1
    have hstop := takeDigits_stop 20 r1
    generalize hfs : (takeDigits 20 r1).1 = fs at *
    generalize hr3 : (takeDigits 20 r1).2 = r3 at *
    split at h
    · cases h
    · rename_i hne
      simp only [Bool.false_eq_true, false_or] at hne
      simp only [Option.some.injEq, Prod.mk.injEq] at h
      obtain ⟨rfl, rfl⟩ := h
      refine ⟨_, ?_, .mk neg sign hs2 ds fs (by
        intro d hd; rcases List.mem_append.1 hd with h | h
        · exact d2 d h
        · exact f2 d h) d3 f3 [] (.inr ⟨rfl, hne, ?_⟩)⟩
      · rw [hs1, d1, f1]
        simp [Number.txt_digitText]
      · by_cases hlt : ds.length < 20
        · have := hstop (hfull hlt)
          rw [this] at hfs
          exact .inl hfs.symm
        · exact .inr (by omega)

theorem realP_written {t : Str} {l : Lit} (h : Written t l) (r : Str) (h1 : headNot isDigit r = true) (h2 : headNot (· == ch '.') r = true) :
    realP false (t ++ r) = some (l, r) := by
  obtain ⟨neg, sign, hs, ds, fs, hd, hl, hlf, dot, hdot⟩ := h
  have hd1 : ∀ d ∈ ds, d < 10 := fun d h => hd d (by simp [h])
  have hf1 : ∀ d ∈ fs, d < 10 := fun d h => hd d (by simp [h])
  rw [show sign ++ Verif.DataText.Spec.digitText ds ++ dot ++ Verif.DataText.Spec.digitText fs ++ r = sign ++ (txt ds ++ (dot ++ (txt fs ++ r))) by
    simp [Number.txt_digitText]]
  have hsign : takeSign (sign ++ (txt ds ++ (dot ++ (txt fs ++ r)))) = (neg, txt ds ++ (dot ++ (txt fs ++ r))) := by
    rcases hs with ⟨rfl, rfl⟩ | ⟨rfl, rfl⟩ | ⟨rfl, rfl⟩
    · simp [takeSign, ch]
    · have : (43 : UInt8) ≠ 45 := by decide
      simp [takeSign, ch, this]
    · by_cases hne : ds = []
      · subst hne
        rcases hdot with ⟨rfl, _⟩ | ⟨_, h, _⟩
        · have e1 : (46 : UInt8) ≠ 45 := by decide
          have e2 : (46 : UInt8) ≠ 43 := by decide
          simp [takeSign, txt, ch, e1, e2]
        · exact absurd rfl h
      · exact takeSign_txt ds hd1 hne _
  have hne : sign ++ (txt ds ++ (dot ++ (txt fs ++ r))) ≠ [] := by
    rcases hdot with ⟨rfl, _⟩ | ⟨_, h, _⟩
    · simp
    · cases ds with
      | nil => exact absurd rfl h
      | cons d ds => simp [txt]
  unfold realP
  rw [if_neg hne, hsign]
  dsimp only
  rcases hdot with ⟨rfl, hne2⟩ | ⟨rfl, hne2, hlen⟩
  · rw [takeDigits_all 20 ds hd1 hl ([46] ++ (txt fs ++ r)) (by simp only [headNot, List.cons_append]; decide)]
    have : eat '.' ([46] ++ (txt fs ++ r)) = some (txt fs ++ r) := by simp [eat, ch]
    dsimp only
    rw [this]
    dsimp only
    rw [takeDigits_all 20 fs hf1 hlf r h1]
    rw [if_neg (by rintro ⟨a, b⟩; rcases hne2 with h | h <;> contradiction)]
  · have hdot : ∀ gs : List Nat, (∀ d ∈ gs, d < 10) → eat '.' (txt gs ++ r) = none := by
      intro gs hg
      have := headNot_txt (p := (· == ch '.')) (fun b hb => by simpa using digit_ne hb '.' (by decide)) gs hg r h2
      cases hh : txt gs ++ r with
      | nil => rfl
      | cons b s => rw [hh] at this; simp [headNot] at this; simp [eat, this]
    rcases hlen with rfl | hlen
    · simp only [txt, List.map_nil, List.nil_append]
      rw [show ds.map digitChar ++ r = txt ds ++ r from rfl, takeDigits_all 20 ds hd1 hl r h1]
      have := hdot [] (by simp)
      simp only [txt, List.map_nil, List.nil_append] at this
      dsimp only
      rw [this]
      dsimp only
      rw [if_neg (by simp [hne2]), takeDigits_stop 20 r h1]
    · have : takeDigits 20 (txt ds ++ ([] ++ (txt fs ++ r))) = (ds, txt fs ++ r) := by
        rw [List.nil_append]
        have := takeDigits_txt 20 (ds ++ fs) hd r h1
        rw [show txt (ds ++ fs) ++ r = txt ds ++ (txt fs ++ r) by simp [txt]] at this
        rw [this, ← hlen]; simp
      rw [this]
      dsimp only
      rw [hdot fs hf1]
      dsimp only
      rw [if_neg (by simp [hne2]), takeDigits_all 20 fs hf1 hlf r h1]

theorem letters_back : ∀ s : Str, s = (letters s).1 ++ (letters s).2 ∧ ∀ b ∈ (letters s).1, isAlpha b = true
  | [] => by simp [letters]
  | b :: s => by
    obtain ⟨h1, h2⟩ := letters_back s
    by_cases hb : isAlpha b = true
    · simp only [letters, hb, if_true]
      refine ⟨congrArg (b :: ·) h1, ?_⟩
      intro x hx
      cases hx with
      | head => exact hb
      | tail _ hx => exact h2 x hx
    · simp [letters, hb]

theorem parseSpec_iff (s name : Str) (p q : Lit) : parseSpec s = some (name, p, q) ↔
    ∃ a b, s = name ++ [40] ++ a ++ [44] ++ b ++ [41] ∧ name ≠ [] ∧ (∀ x ∈ name, isAlpha x = true) ∧ Written a p ∧ Written b q := by
  constructor
  · intro h
    unfold parseSpec at h
    split at h
    · cases h
    rename_i hne
    obtain ⟨l1, l2⟩ := letters_back s
    simp only [Option.bind_eq_some_iff] at h
    obtain ⟨r1, e1, ⟨p0, r2⟩, e2, r3, e3, ⟨p1, r4⟩, e4, r5, e5, h⟩ := h
    dsimp only at e3 e5 h
    split at h
    · rename_i hr5
      subst hr5
      simp only [Option.some.injEq, Prod.mk.injEq] at h
      obtain ⟨hn, rfl, rfl⟩ := h
      obtain ⟨a, ha1, ha2⟩ := realP_back e2
      obtain ⟨b, hb1, hb2⟩ := realP_back e4
      refine ⟨a, b, ?_, hn ▸ hne, hn ▸ l2, ha2, hb2⟩
      rw [l1, hn, eat_back e1, ha1, eat_back e3, hb1, eat_back e5]
      simp [ch]
    · cases h
  · rintro ⟨a, b, rfl, hn, ha, hp, hq⟩
    have e : name ++ [40] ++ a ++ [44] ++ b ++ [41] = name ++ ch '(' :: (a ++ ch ',' :: (b ++ ch ')' :: [])) := by simp [ch]
    have hl := letters_append name (a ++ ch ',' :: (b ++ ch ')' :: [])) ha
    rw [e]
    unfold parseSpec
    rw [hl]
    have e1 : eat '(' (ch '(' :: (a ++ ch ',' :: (b ++ ch ')' :: []))) = some (a ++ ch ',' :: (b ++ ch ')' :: [])) := by simp [eat]
    have e3 : eat ',' (ch ',' :: (b ++ ch ')' :: [])) = some (b ++ ch ')' :: []) := by simp [eat]
    have e5 : eat ')' (ch ')' :: []) = some [] := by simp [eat]
    simp only [hn, if_false, e1, Option.bind_some]
    rw [realP_written hp _ (by simp only [headNot]; decide) (by simp only [headNot]; decide)]
    simp only [Option.bind_some, e3]
    rw [realP_written hq _ (by simp only [headNot]; decide) (by simp only [headNot]; decide)]
    simp [e5]

theorem choose_eq (k : Kind) (name : Str) (p q : Lit) : choose k name p q = meaning k name p q := by
  have h1 : str "uniform" ≠ str "normal" := by decide
  have h2 : str "uniform" ≠ str "pareto" := by decide
  unfold choose meaning
  by_cases hu : name = str "uniform"
  · subst hu
    cases k <;> simp [h1, h2]
  · rw [if_neg hu]
    by_cases hn : name = str "normal"
    · simp [hn]
    · by_cases hp : name = str "pareto"
      · simp [hp]
      · simp [hu, hn, hp]

/-- A column draws from a distribution exactly if its first attribute `default` has the form `name(a,b)` with two numbers and a name
that means this distribution. -/
theorem C152_exact (k : Kind) (attrs : List Attr) (d : Dist) : makeDistribution k attrs = .dist d ↔
    ∃ before name a b p q after, attrs = before ++ (str "default", some (name ++ [40] ++ a ++ [44] ++ b ++ [41])) :: after ∧
      (∀ x ∈ before, x.1 ≠ str "default") ∧ name ≠ [] ∧ (∀ b ∈ name, (65 ≤ b.toNat ∧ b.toNat ≤ 90) ∨ (97 ≤ b.toNat ∧ b.toNat ≤ 122)) ∧
      Written a p ∧ Written b q ∧ meaning k name p q = some d := by
  have halpha : ∀ name : Str, (∀ x ∈ name, isAlpha x = true) ↔ (∀ b ∈ name, (65 ≤ b.toNat ∧ b.toNat ≤ 90) ∨ (97 ≤ b.toNat ∧ b.toNat ≤ 122)) := by
    intro name
    simp [isAlpha]
  constructor
  · intro h
    unfold makeDistribution at h
    split at h
    · cases h
    · cases h
    · rename_i key s hf
      have hf2 := hf
      rw [List.find?_eq_some_iff_append] at hf
      obtain ⟨hk, before, after, hat, hb⟩ := hf
      have hk : key = str "default" := by simpa using hk
      subst hk
      split at h
      · cases h
      · rename_i name p q hp
        obtain ⟨a, b, rfl, hn, ha, hwp, hwq⟩ := (parseSpec_iff _ _ _ _).1 hp
        split at h
        · cases h
        · rename_i d' hc
          cases h
          exact ⟨before, name, a, b, p, q, after, hat, fun x hx => by simpa using hb x hx, hn, (halpha _).1 ha, hwp, hwq, by rw [← choose_eq, hc]⟩
  · rintro ⟨before, name, a, b, p, q, after, rfl, hb, hn, ha, hp, hq, hm⟩
    have hf : (before ++ (str "default", some (name ++ [40] ++ a ++ [44] ++ b ++ [41])) :: after).find? (fun x => x.1 = str "default") =
        some (str "default", some (name ++ [40] ++ a ++ [44] ++ b ++ [41])) := by
      rw [List.find?_append, List.find?_eq_none.2 (fun x hx => by simpa using hb x hx)]
      simp
    unfold makeDistribution
    rw [hf]
    dsimp only
    rw [(parseSpec_iff _ name p q).2 ⟨a, b, rfl, hn, (halpha _).2 ha, hp, hq⟩]
    dsimp only
    rw [choose_eq, hm]

/-- It draws nothing exactly if there is no such attribute or the first one has no value; in all other cases the schema is refused. -/
theorem C152_null (k : Kind) (attrs : List Attr) : makeDistribution k attrs = .nothing ↔
    (∀ x ∈ attrs, x.1 ≠ str "default") ∨
      ∃ before after, attrs = before ++ (str "default", none) :: after ∧ ∀ x ∈ before, x.1 ≠ str "default" := by
  unfold makeDistribution
  constructor
  · intro h
    split at h
    · rename_i hf
      exact .inl fun x hx => by simpa using List.find?_eq_none.1 hf x hx
    · rename_i key hf
      rw [List.find?_eq_some_iff_append] at hf
      obtain ⟨hk, before, after, hat, hb⟩ := hf
      have hk : key = str "default" := by simpa using hk
      subst hk
      exact .inr ⟨before, after, hat, fun x hx => by simpa using hb x hx⟩
    · split at h
      · cases h
      · split at h <;> cases h
  · rintro (h | ⟨before, after, rfl, hb⟩)
    · rw [List.find?_eq_none.2 (fun x hx => by simpa using h x hx)]
    · rw [List.find?_append, List.find?_eq_none.2 (fun x hx => by simpa using hb x hx)]
      simp

/-- The 21st digit of a number is taken for its first decimal place. -/
theorem C152_digits_refuted : makeDistribution .int [(str "default", some (str "uniform(0,123456789012345678901)"))] =
    .dist (.uniformInt ⟨false, [0], []⟩ ⟨false, [1,2,3,4,5,6,7,8,9,0,1,2,3,4,5,6,7,8,9,0], [1]⟩) := by decide +kernel

example : Written (str "+.5") ⟨false, [], [5]⟩ := .mk false [43] (by simp) [] [5] (by simp) (by simp) (by simp) [46] (by simp)

example : makeDistribution .count [(str "default", some (str "uniform(+.5,7.)"))] = .dist (.uniformCount ⟨false, [], [5]⟩ ⟨false, [7], []⟩) := by
  decide +kernel

end Verif.TestGen
