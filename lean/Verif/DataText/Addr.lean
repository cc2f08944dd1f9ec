import Verif.DataText.Numbers
import Verif.DataText.Spec

/-!
Printed addresses are recognised: the grammar of addresses.
-/
namespace Verif.DataText
open Verif.Data Verif.Address Spec

/-! IPv4 -/

theorem decP_txt (n : Nat) (hn : n < 256) (r : Str) (hr : headNot isDigit r = true) :
    decP (printNat n ++ r) = some (n, r) := by
  have h1 := takeDigits_all 3 (digits n) (digits_lt n) (digits_length 3 n (by omega) (by omega)) r hr
  have h2 : 1 ≤ (digits n).length := List.length_pos_iff.mpr (digits_ne_nil n)
  have h3 : n % 2 ^ 16 = n := Nat.mod_eq_of_lt (by omega)
  rw [printNat_eq]
  simp only [decP, uintP, h1, h2, if_true, value_digits, h3, hn]

theorem v4P_ntop4 (a b c d : Nat) (ha : a < 256) (hb : b < 256) (hc : c < 256) (hd : d < 256) (r : Str)
    (hr : headNot isDigit r = true) : v4P (ntop4 [a, b, c, d] ++ r) = some ((a, b, c, d), r) := by
  have dot : ∀ s : Str, headNot isDigit (ch '.' :: s) = true := fun s => rfl
  simp only [ntop4, List.map, join, List.append_assoc, List.cons_append, List.nil_append, v4P]
  rw [decP_txt a ha _ (dot _)]
  simp only [eat_cons, Option.bind_some]
  rw [decP_txt b hb _ (dot _)]
  simp only [eat_cons, Option.bind_some]
  rw [decP_txt c hc _ (dot _)]
  simp only [eat_cons, Option.bind_some]
  rw [decP_txt d hd _ hr]

theorem ntop4_head (a b c d : Nat) (r : Str) :
    ntop4 [a, b, c, d] ++ r = printNat a ++ ch '.' :: (printNat b ++ (ch '.' :: (printNat c ++ ch '.' :: (printNat d ++ r)))) := by
  simp [ntop4, join]

/-- Digits, a dot, digits and another dot are no duration. -/
theorem durationP_v4 (env : Env) (a b c d : Nat) (ha : a < 256) (hb : b < 256) (r : Str) :
    durationP env (ntop4 [a, b, c, d] ++ r) = none := by
  have la := digits_length 20 a (by omega) (by omega)
  have lb := digits_length 20 b (by omega) (by omega)
  have h1 := takeDigits_all 20 (digits a) (digits_lt a) la (ch '.' :: (printNat b ++ (ch '.' :: (printNat c ++ ch '.' :: (printNat d ++ r))))) rfl
  have h2 := takeDigits_all 20 (digits b) (digits_lt b) lb (ch '.' :: (printNat c ++ ch '.' :: (printNat d ++ r))) rfl
  have hs := takeSign_txt (digits a) (digits_lt a) (digits_ne_nil a)
    (ch '.' :: (printNat b ++ (ch '.' :: (printNat c ++ ch '.' :: (printNat d ++ r)))))
  have hu : ∀ s : Str, lookup units (skipWs (ch '.' :: s)) = none := fun s => lookup_none _ _ units_names rfl
  rw [ntop4_head, printNat_eq a]
  have hr : realP false (txt (digits a) ++ ch '.' :: (printNat b ++ (ch '.' :: (printNat c ++ ch '.' :: (printNat d ++ r))))) =
      some (⟨false, digits a, digits b⟩, ch '.' :: (printNat c ++ ch '.' :: (printNat d ++ r))) := by
    rw [printNat_eq b] at *
    simp only [realP, hs, h1, eat_cons, h2, digits_ne_nil, false_and, if_false]
    rw [if_neg (txt_append_ne _ (digits_ne_nil a) _)]
  simp only [durationP, durOneP, hr, hu]

theorem timeP_v4 (env : Env) (a b c d : Nat) (ha : a < 256) (hb : b < 256) (r : Str) :
    timeP env (ntop4 [a, b, c, d] ++ r) = none := by
  have hd := durationP_v4 env a b c d ha hb r
  have la := digits_length 3 a (by omega) (by omega)
  have h1 := takeDigits_all 4 (digits a) (digits_lt a) (by omega)
    (ch '.' :: (printNat b ++ (ch '.' :: (printNat c ++ ch '.' :: (printNat d ++ r))))) rfl
  have hs := takeSign_txt (digits a) (digits_lt a) (digits_ne_nil a)
    (ch '.' :: (printNat b ++ (ch '.' :: (printNat c ++ ch '.' :: (printNat d ++ r)))))
  rw [ntop4_head, printNat_eq a] at *
  have hy : ymdhmsP env (txt (digits a) ++ ch '.' :: (printNat b ++ (ch '.' :: (printNat c ++ ch '.' :: (printNat d ++ r))))) = none := by
    have : ¬ (digits a).length = 4 := by omega
    simp [ymdhmsP, guarded, fixedP, hs, h1, this]
  have hh : ∀ x, isDigit (ch x) = false → eat x (txt (digits a) ++ ch '.' :: (printNat b ++ (ch '.' :: (printNat c ++ ch '.' :: (printNat d ++ r))))) = none := by
    intro x hx
    cases hds : digits a with
    | nil => exact absurd hds (digits_ne_nil a)
    | cons e ds =>
      have := digitChar_isDigit e (digits_lt a e (by simp [hds]))
      simp [txt, eat, digit_ne this x hx]
  simp [timeP, hy, unixP, hh '@' (by decide), nowShiftP, kw_none (hh 'n' (by decide)), inP, kw_none (hh 'i' (by decide)), agoP, hd]

/-! IPv6 -/

/-- One to four hexadecimal digits. -/
structure Group (g : Str) : Prop where
  pos : g ≠ []
  len : g.length ≤ 4
  hex : ∀ b ∈ g, isXDigit b = true

theorem dropX_hex (m : Nat) (g : Str) (hl : g.length ≤ m) (hx : ∀ b ∈ g, isXDigit b = true) (r : Str)
    (hr : headNot isXDigit r = true) : dropX m (g ++ r) = r := by
  induction g generalizing m with
  | nil =>
    cases m with
    | zero => rfl
    | succ m => cases r with
      | nil => rfl
      | cons b r => simp_all [dropX]
  | cons b g ih =>
    cases m with
    | zero => simp at hl
    | succ m =>
      simp only [List.cons_append, dropX, hx b (by simp), if_true]
      exact ih m (by simpa using hl) fun b hb => hx b (by simp [hb])

theorem h16_group {g : Str} (hg : Group g) (r : Str) (hr : headNot isXDigit r = true) : h16 (g ++ r) = some r := by
  cases g with
  | nil => exact absurd rfl hg.pos
  | cons b g =>
    have := hg.len
    simp only [List.cons_append, h16, hg.hex b (by simp), if_true]
    rw [dropX_hex 3 g (by simpa using this) (fun b hb => hg.hex b (by simp [hb])) r hr]

theorem h16c_group {g : Str} (hg : Group g) (r : Str) : h16c (g ++ ch ':' :: r) = some r := by
  rw [h16c, h16_group hg _ rfl]; exact eat_cons ':' r

/-- Groups with colons between them. -/
abbrev cj (gs : List Str) : Str := join [ch ':'] gs

theorem cj_two (g g' : Str) (gs : List Str) : cj (g :: g' :: gs) = g ++ ch ':' :: cj (g' :: gs) := by simp [cj, join]
theorem cj_one (g : Str) : cj [g] = g := rfl

/-- Neither a digit of an address nor its punctuation. -/
def stickyA (b : UInt8) : Bool := isXDigit b || b == ch ':' || b == ch '.'

section
variable {r : Str}

theorem stickyA_x (h : headNot stickyA r = true) : headNot isXDigit r = true :=
  headNot_mono h fun b hb => by simp [stickyA, hb]
theorem stickyA_d (h : headNot stickyA r = true) : headNot isDigit r = true :=
  headNot_mono h fun b hb => by simp [stickyA, isXDigit, hb]
theorem stickyA_colon (h : headNot stickyA r = true) : eat ':' r = none :=
  eat_none (headNot_mono h fun b hb => by simp_all [stickyA])
theorem stickyA_dot (h : headNot stickyA r = true) : eat '.' r = none :=
  eat_none (headNot_mono h fun b hb => by simp_all [stickyA])
theorem stickyA_h16 (h : headNot stickyA r = true) : h16 r = none := h16_none (stickyA_x h)
theorem stickyA_h16c (h : headNot stickyA r = true) : h16c r = none := by simp [h16c, stickyA_h16 h]
end

theorem headNot_hex {p : UInt8 → Bool} (hp : ∀ b, isXDigit b = true → p b = false) (g : Str)
    (hx : ∀ b ∈ g, isXDigit b = true) (r : Str) (h : headNot p r = true) : headNot p (g ++ r) = true := by
  cases g with
  | nil => exact h
  | cons b g => simp [hp b (hx b (by simp))]

theorem xdigit_ne {b : UInt8} (h : isXDigit b = true) (c : Char) (hc : isXDigit (ch c) = false) : b ≠ ch c := by
  intro hb; rw [hb, hc] at h; cases h

/-- After some digits of a group come others or what follows the group. -/
theorem takeDigits_hex (m : Nat) (g : Str) (hx : ∀ b ∈ g, isXDigit b = true) (r : Str) (hr : headNot isDigit r = true) :
    ∃ k, (takeDigits m (g ++ r)).2 = g.drop k ++ r := by
  induction g generalizing m with
  | nil => exact ⟨0, by rw [List.nil_append, takeDigits_stop m r hr]; rfl⟩
  | cons b g ih =>
    cases m with
    | zero => exact ⟨0, rfl⟩
    | succ m =>
      rw [List.cons_append, takeDigits]
      split
      · obtain ⟨k, hk⟩ := ih m fun b hb => hx b (by simp [hb])
        exact ⟨k + 1, hk⟩
      · exact ⟨0, rfl⟩

theorem v4P_group (g : Str) (hx : ∀ b ∈ g, isXDigit b = true) (r : Str) (hr : headNot isDigit r = true)
    (hdot : eat '.' r = none) : v4P (g ++ r) = none := by
  have h1 : ∀ k, eat '.' (g.drop k ++ r) = none := by
    intro k
    cases hg : g.drop k with
    | nil => exact hdot
    | cons b g' =>
      have : b ∈ g := List.mem_of_mem_drop (i := k) (by simp [hg])
      simp [eat, xdigit_ne (hx b this) '.' (by decide)]
  obtain ⟨k, hk⟩ := takeDigits_hex 3 g hx r hr
  have h2 : ∀ v x, decP (g ++ r) = some (v, x) → eat '.' x = none := by
    intro v x hx
    unfold decP at hx
    split at hx
    · cases hx
    · rename_i v' x' hx'
      unfold uintP at hx'
      split at hx'
      · injection hx' with hx'
        injection hx' with _ hx'
        split at hx
        · injection hx with hx
          injection hx with _ hx
          rw [← hx, ← hx', hk]; exact h1 k
        · cases hx
      · cases hx'
  unfold v4P
  split
  · rfl
  · rename_i v x hx
    simp [h2 v x hx]

theorem repC_ok (gs : List Str) (hg : ∀ g ∈ gs, Group g) (k : Nat) (hk : k < gs.length) (r : Str) :
    repC k (cj gs ++ r) = some (cj (gs.drop k) ++ r) := by
  induction k generalizing gs with
  | zero => rfl
  | succ k ih =>
    match gs with
    | [] => simp at hk
    | [g] => simp at hk
    | g :: g' :: gs =>
      rw [repC, cj_two, List.append_assoc, List.cons_append, h16c_group (hg g (by simp)), Option.bind_some,
        ih (g' :: gs) (fun x hx => hg x (by simp only [List.mem_cons] at *; exact .inr hx)) (by simpa using hk)]
      rfl

theorem repC_short (gs : List Str) (hg : ∀ g ∈ gs, Group g) (k : Nat) (h0 : 0 < k) (hk : gs.length ≤ k) (r : Str)
    (hr : headNot stickyA r = true) : repC k (cj gs ++ r) = none := by
  induction k generalizing gs with
  | zero => omega
  | succ k ih =>
    match gs with
    | [] => simp [repC, join, stickyA_h16c hr]
    | [g] =>
      rw [repC, cj_one, h16c, h16_group (hg g (by simp)) r (stickyA_x hr), Option.bind_some, stickyA_colon hr]; rfl
    | g :: g' :: gs =>
      simp only [List.length_cons] at hk
      rw [repC, cj_two, List.append_assoc, List.cons_append, h16c_group (hg g (by simp)), Option.bind_some,
        ih (g' :: gs) (fun x hx => hg x (by simp only [List.mem_cons] at *; exact .inr hx)) (by omega) (by simpa using hk)]

/-- Groups that end with a double colon. -/
theorem repC_gap (gs : List Str) (hg : ∀ g ∈ gs, Group g) (k : Nat) (h0 : 0 < k) (hk : gs.length ≤ k) (x : Str) :
    (repC k (cj gs ++ ch ':' :: ch ':' :: x)).bind ls32 = none := by
  have hcol : ∀ s : Str, h16c (ch ':' :: s) = none := fun s => rfl
  have hls : ∀ s : Str, ls32 (ch ':' :: s) = none := fun s => by
    simp [ls32, hcol, v4P_other (s := ch ':' :: s) rfl]
  induction k generalizing gs with
  | zero => omega
  | succ k ih =>
    match gs with
    | [] => simp [repC, join, hcol]
    | [g] =>
      rw [repC, cj_one, h16c_group (hg g (by simp)), Option.bind_some]
      cases k with
      | zero => exact hls x
      | succ k => simp [repC, hcol]
    | g :: g' :: gs =>
      simp only [List.length_cons] at hk
      rw [repC, cj_two, List.append_assoc, List.cons_append, h16c_group (hg g (by simp)), Option.bind_some,
        ih (g' :: gs) (fun x hx => hg x (by simp only [List.mem_cons] at *; exact .inr hx)) (by omega) (by simpa using hk)]

theorem ls32_two {g g' : Str} (hg : Group g) (hg' : Group g') (r : Str) (hr : headNot stickyA r = true) :
    ls32 (cj [g, g'] ++ r) = some r := by
  rw [cj_two, cj_one, List.append_assoc, List.cons_append, ls32, h16c_group hg, Option.bind_some, h16_group hg' r (stickyA_x hr)]
  rfl

theorem ls32_one {g : Str} (hg : Group g) (r : Str) (hr : headNot stickyA r = true) : ls32 (g ++ r) = none := by
  rw [ls32, h16c, h16_group hg r (stickyA_x hr), Option.bind_some, stickyA_colon hr,
    v4P_group g hg.hex r (stickyA_d hr) (stickyA_dot hr)]
  rfl

theorem ls32_zero (r : Str) (hr : headNot stickyA r = true) : ls32 r = none := by
  simp [ls32, stickyA_h16c hr, v4P_other (stickyA_d hr)]

/-- The right side of a double colon: exactly the number of groups that the alternative wants. -/
theorem right_ls32 (gs : List Str) (hg : ∀ g ∈ gs, Group g) (m : Nat) (hm : gs.length ≤ m + 2) (r : Str)
    (hr : headNot stickyA r = true) :
    (repC m (cj gs ++ r)).bind ls32 = if gs.length = m + 2 then some r else none := by
  split
  · rename_i h
    rw [repC_ok gs hg m (by omega) r, Option.bind_some]
    have h2 : (gs.drop m).length = 2 := by simp; omega
    match hd : gs.drop m, h2 with
    | [g, g'], _ =>
      have hmem : ∀ x ∈ [g, g'], Group x := fun x hx => hg x (List.mem_of_mem_drop (i := m) (by rw [hd]; exact hx))
      exact ls32_two (hmem g (by simp)) (hmem g' (by simp)) r hr
  · rename_i h
    by_cases h1 : gs.length = m + 1
    · rw [repC_ok gs hg m (by omega) r, Option.bind_some]
      have h2 : (gs.drop m).length = 1 := by simp; omega
      match hd : gs.drop m, h2 with
      | [g], _ =>
        have hmem : ∀ x ∈ [g], Group x := fun x hx => hg x (List.mem_of_mem_drop (i := m) (by rw [hd]; exact hx))
        exact ls32_one (hmem g (by simp)) r hr
    · by_cases h0 : m = 0
      · subst h0
        have : gs = [] := List.length_eq_zero_iff.mp (by omega)
        subst this
        simpa [repC, join] using ls32_zero r hr
      · rw [repC_short gs hg m (by omega) (by omega) r hr]; rfl

theorem right_h16 (gs : List Str) (hg : ∀ g ∈ gs, Group g) (hm : gs.length ≤ 1) (r : Str) (hr : headNot stickyA r = true) :
    (repC 0 (cj gs ++ r)).bind h16 = if gs.length = 1 then some r else none := by
  match gs with
  | [] => simpa [repC, join] using stickyA_h16 hr
  | [g] => simpa [repC, join] using h16_group (hg g (by simp)) r (stickyA_x hr)
  | _ :: _ :: _ => simp at hm

/-- Groups on the left side of a double colon. -/
theorem uptoC_left (n : Nat) (gs : List Str) (hg : ∀ g ∈ gs, Group g) (hne : gs ≠ []) (x : Str) :
    uptoC n (cj gs ++ ch ':' :: ch ':' :: x) = cj (gs.drop (min n (gs.length - 1))) ++ ch ':' :: ch ':' :: x := by
  induction n generalizing gs with
  | zero => simp [uptoC]
  | succ n ih =>
    match gs, hne with
    | [g], _ =>
      have : h16Colon (g ++ ch ':' :: ch ':' :: x) = none := by
        simp [h16Colon, h16c_group (hg g (by simp)), eat_cons]
      simp [uptoC, join, this]
    | g :: g' :: gs, _ =>
      have h1 : h16Colon (cj (g :: g' :: gs) ++ ch ':' :: ch ':' :: x) = some (cj (g' :: gs) ++ ch ':' :: ch ':' :: x) := by
        rw [cj_two, List.append_assoc, List.cons_append, h16Colon, h16c_group (hg g (by simp))]
        have : eat ':' (cj (g' :: gs) ++ ch ':' :: ch ':' :: x) = none := by
          have hg' := hg g' (by simp)
          cases g' with
          | nil => exact absurd rfl hg'.pos
          | cons b g' =>
            have := xdigit_ne (hg'.hex b (by simp)) ':' (by decide)
            cases gs <;> simp [join, eat, this]
        simp [this]
      rw [uptoC, h1]
      simp only
      rw [ih (g' :: gs) (fun x hx => hg x (by simp only [List.mem_cons] at *; exact .inr hx)) (by simp)]
      have : min (n + 1) ((g :: g' :: gs).length - 1) = min n ((g' :: gs).length - 1) + 1 := by
        simp only [List.length_cons]; omega
      rw [this]; rfl

theorem cj_head (gs : List Str) (hg : ∀ g ∈ gs, Group g) (hne : gs ≠ []) (r : Str) :
    ∃ b s, cj gs ++ r = b :: s ∧ isXDigit b = true := by
  match gs, hne with
  | g :: gs, _ =>
    have h := hg g (by simp)
    cases g with
    | nil => exact absurd rfl h.pos
    | cons b g => cases gs <;> exact ⟨b, _, by simp [join]; rfl, h.hex b (by simp)⟩

theorem leftPart_gap (n : Nat) (gs : List Str) (hg : ∀ g ∈ gs, Group g) (x : Str) :
    kw [':', ':'] (leftPart n (cj gs ++ ch ':' :: ch ':' :: x)) = if gs.length ≤ n + 1 then some x else none := by
  by_cases hne : gs = []
  · subst hne
    have h1 : h16c (ch ':' :: ch ':' :: x) = none := rfl
    have h2 : h16 (ch ':' :: ch ':' :: x) = none := rfl
    simp [leftPart, join, uptoC_none n h1, h2, kw, eat_cons]
  · rw [leftPart, uptoC_left n gs hg hne x]
    have hpos : 0 < gs.length := List.length_pos_iff.mpr hne
    split
    · rename_i h
      have h1 : (gs.drop (min n (gs.length - 1))).length = 1 := by simp; omega
      match hd : gs.drop (min n (gs.length - 1)), h1 with
      | [g], _ =>
        have hgr : Group g := hg g (List.mem_of_mem_drop (i := min n (gs.length - 1)) (by simp [hd]))
        rw [cj_one, h16_group hgr _ rfl]
        simp [kw, eat_cons]
    · rename_i h
      have h1 : 2 ≤ (gs.drop (min n (gs.length - 1))).length := by simp; omega
      match hd : gs.drop (min n (gs.length - 1)), h1 with
      | g :: g' :: gs', _ =>
        have hmem : ∀ y ∈ g :: g' :: gs', Group y := fun y hy => hg y (List.mem_of_mem_drop (by rw [hd]; exact hy))
        rw [cj_two, List.append_assoc, List.cons_append, h16_group (hmem g (by simp)) _ rfl]
        obtain ⟨b, s, e, hb⟩ := cj_head (g' :: gs') (fun y hy => hmem y (by simp only [List.mem_cons] at *; exact .inr hy)) (by simp)
          (ch ':' :: ch ':' :: x)
        rw [e]
        simp [kw, eat_cons]
        simp [eat, xdigit_ne hb ':' (by decide)]

theorem gapAlt_eq (n m : Nat) (last : Str → Option Str) (ls : List Str) (hl : ∀ g ∈ ls, Group g) (x : Str) :
    gapAlt n m last (cj ls ++ ch ':' :: ch ':' :: x) =
      if ls.length ≤ n + 1 then (repC m x).bind last else none := by
  rw [gapAlt, leftPart_gap n ls hl x]
  split <;> rfl

/-- The grammar recognises an address with a double colon. -/
theorem v6P_gap (ls rs : List Str) (hl : ∀ g ∈ ls, Group g) (hr : ∀ g ∈ rs, Group g) (hlen : ls.length + rs.length ≤ 6) (r : Str)
    (hs : headNot stickyA r = true) : v6P (cj ls ++ ch ':' :: ch ':' :: (cj rs ++ r)) = some r := by
  have h1 := repC_gap ls hl 6 (by omega) (by omega) (cj rs ++ r)
  have h2 : ((kw [':', ':'] (cj ls ++ ch ':' :: ch ':' :: (cj rs ++ r))).bind (repC 5)).bind ls32 = none := by
    by_cases hne : ls = []
    · subst hne
      have := right_ls32 rs hr 5 (by omega) r hs
      rw [if_neg (by omega)] at this
      simpa [join, kw, eat_cons] using this
    · obtain ⟨b, s, e, hb⟩ := cj_head ls hl hne (ch ':' :: ch ':' :: (cj rs ++ r))
      rw [e]
      simp [kw, eat, xdigit_ne hb ':' (by decide)]
  unfold v6P
  rw [h1, h2]
  simp only [gapAlt_eq _ _ _ ls hl]
  have hn : rs.length = 6 ∨ rs.length = 5 ∨ rs.length = 4 ∨ rs.length = 3 ∨ rs.length = 2 ∨ rs.length = 1 ∨ rs.length = 0 := by omega
  have r4 : rs.length ≤ 6 → (repC 4 (cj rs ++ r)).bind ls32 = if rs.length = 6 then some r else none :=
    fun h => right_ls32 rs hr 4 h r hs
  have r3 : rs.length ≤ 5 → (repC 3 (cj rs ++ r)).bind ls32 = if rs.length = 5 then some r else none :=
    fun h => right_ls32 rs hr 3 h r hs
  have r2 : rs.length ≤ 4 → (repC 2 (cj rs ++ r)).bind ls32 = if rs.length = 4 then some r else none :=
    fun h => right_ls32 rs hr 2 h r hs
  have r1 : rs.length ≤ 3 → (repC 1 (cj rs ++ r)).bind ls32 = if rs.length = 3 then some r else none :=
    fun h => right_ls32 rs hr 1 h r hs
  have r0 : rs.length ≤ 2 → (repC 0 (cj rs ++ r)).bind ls32 = if rs.length = 2 then some r else none :=
    fun h => right_ls32 rs hr 0 h r hs
  have rh : rs.length ≤ 1 → (repC 0 (cj rs ++ r)).bind h16 = if rs.length = 1 then some r else none :=
    fun h => right_h16 rs hr h r hs
  have rz : rs.length = 0 → (repC 0 (cj rs ++ r)).bind some = some r := by
    intro h
    have : rs = [] := List.length_eq_zero_iff.mp h
    subst this; rfl
  rcases hn with h | h | h | h | h | h | h
  · have e : ls.length ≤ 1 := by omega
    rw [r4 (by omega), h]; simp [e]
  · have e : ls.length ≤ 2 := by omega
    rw [r4 (by omega), r3 (by omega), h]; simp [e]
  · have e : ls.length ≤ 3 := by omega
    rw [r4 (by omega), r3 (by omega), r2 (by omega), h]; simp [e]
  · have e : ls.length ≤ 4 := by omega
    rw [r4 (by omega), r3 (by omega), r2 (by omega), r1 (by omega), h]; simp [e]
  · have e : ls.length ≤ 5 := by omega
    rw [r4 (by omega), r3 (by omega), r2 (by omega), r1 (by omega), r0 (by omega), h]; simp [e]
  · have e : ls.length ≤ 6 := by omega
    rw [r4 (by omega), r3 (by omega), r2 (by omega), r1 (by omega), r0 (by omega), rh (by omega), h]; simp [e]
  · have e : ls.length ≤ 7 := by omega
    rw [r4 (by omega), r3 (by omega), r2 (by omega), r1 (by omega), r0 (by omega), rh (by omega), rz h, h]; simp [e]

/-- The grammar recognises an address of eight groups. -/
theorem v6P_full (gs : List Str) (hg : ∀ g ∈ gs, Group g) (hlen : gs.length = 8) (r : Str) (hs : headNot stickyA r = true) :
    v6P (cj gs ++ r) = some r := by
  have h := right_ls32 gs hg 6 (by omega) r hs
  rw [if_pos hlen] at h
  simp [v6P, h]

/-- The grammar recognises an IPv4 address after a double colon. -/
theorem v6P_compat (a b c d : Nat) (ha : a < 256) (hb : b < 256) (hc : c < 256) (hd : d < 256) (r : Str)
    (hs : headNot stickyA r = true) : v6P (ch ':' :: ch ':' :: (ntop4 [a, b, c, d] ++ r)) = some r := by
  have hh : h16c (ntop4 [a, b, c, d] ++ r) = none := by
    have := h16_txt (digits a) (digits_lt a) (digits_ne_nil a) (ch '.' :: (printNat b ++ (ch '.' :: (printNat c ++ ch '.' :: (printNat d ++ r))))) rfl
    have hl := digits_length 3 a (by omega) (by omega)
    rw [List.drop_of_length_le (by omega)] at this
    rw [ntop4_head, printNat_eq a, h16c, this]; rfl
  have h1 : ∀ k, repC (k + 1) (ntop4 [a, b, c, d] ++ r) = none := fun k => by simp [repC, hh]
  have h2 : ls32 (ntop4 [a, b, c, d] ++ r) = some r := by
    simp [ls32, hh, v4P_ntop4 a b c d ha hb hc hd r (stickyA_d hs)]
  have h3 := gapAlt_eq (x := ntop4 [a, b, c, d] ++ r) (ls := []) (hl := by simp)
  simp only [join, List.nil_append, List.length_nil, Nat.zero_le, if_true] at h3
  have h4 : repC 6 (ch ':' :: ch ':' :: (ntop4 [a, b, c, d] ++ r)) = none := rfl
  have h5 : kw [':', ':'] (ch ':' :: ch ':' :: (ntop4 [a, b, c, d] ++ r)) = some (ntop4 [a, b, c, d] ++ r) := rfl
  unfold v6P
  rw [h4, h5]
  simp only [h3, h1, Option.bind_some, Option.bind_none, Option.none_or]
  simp [repC, h2]

end Verif.DataText
