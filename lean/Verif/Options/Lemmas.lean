import Verif.Options.Spec
import Verif.DataText.LiteralProps
/-! # Lemmas about options -/
namespace Verif.Options
open Verif.DataText Verif.Data Verif.DataText.Spec

/-! ## Lemmas -/

theorem skipWs_append : ∀ (ws t : Str), (∀ x ∈ ws, isSpace x = true) → headNot isSpace t = true → skipWs (ws ++ t) = t
  | [], t, _, h => skipWs_clean h
  | b :: ws, t, hw, h => by
    simp only [List.cons_append, skipWs, hw b (by simp), if_true]
    exact skipWs_append ws t (fun x hx => hw x (by simp [hx])) h

theorem skipWs_split : ∀ s : Str, ∃ ws, s = ws ++ skipWs s ∧ ∀ x ∈ ws, isSpace x = true
  | [] => ⟨[], rfl, by simp⟩
  | b :: s => by
    simp only [skipWs]
    split
    · rename_i h
      obtain ⟨ws, h1, h2⟩ := skipWs_split s
      refine ⟨b :: ws, by rw [List.cons_append, ← h1], ?_⟩
      intro x hx
      cases hx with
      | head => exact h
      | tail _ hx => exact h2 x hx
    · exact ⟨[], rfl, by simp⟩

theorem isSpace_iff (b : UInt8) : isSpace b = true ↔ Spec.Space b := by
  unfold isSpace Spec.Space
  have : b = 32 ↔ b.toNat = 32 := by
    constructor
    · rintro rfl; rfl
    · intro h; exact UInt8.toNat_inj.1 (by simpa using h)
  simp [this]

theorem kw_sound : ∀ (cs : List Char) (s r : Str), kw cs s = some r → s = cs.map ch ++ r
  | [], s, r, h => by simp only [kw, Option.some.injEq] at h; simpa using h
  | c :: cs, s, r, h => by
    simp only [kw] at h
    cases s with
    | nil => simp [eat] at h
    | cons b s =>
      simp only [eat] at h
      split at h
      · cases h
      · rename_i t ht
        split at ht
        · rename_i hb
          injection ht with ht
          subst ht; subst hb
          rw [kw_sound cs s r h]; rfl
        · cases ht

/-- The unit that is found. -/
def unitFound : List (List Char × Nat) → Str → Option (Nat × Str)
  | [], _ => none
  | (u, f) :: us, s => match kw u s with
    | some r => some (f, r)
    | none => unitFound us s

theorem unitP_eq (n : Nat) : ∀ (us : List (List Char × Nat)) (s : Str), unitP n us s = match unitFound us (skipWs s) with
    | some (f, r) => (n * f % 2 ^ 64, r)
    | none => (n, s)
  | [], s => rfl
  | (u, f) :: us, s => by
    simp only [unitP, unitFound]
    cases kw u (skipWs s) with
    | some r => rfl
    | none => exact unitP_eq n us s

theorem unitFound_sound : ∀ (us : List (List Char × Nat)) (s : Str) (f : Nat) (r : Str), unitFound us s = some (f, r) →
    ∃ u, (u, f) ∈ us ∧ s = u.map ch ++ r
  | [], s, f, r, h => by cases h
  | (u, g) :: us, s, f, r, h => by
    simp only [unitFound] at h
    cases hk : kw u s with
    | some r' =>
      rw [hk] at h
      simp only [Option.some.injEq, Prod.mk.injEq] at h
      obtain ⟨rfl, rfl⟩ := h
      exact ⟨u, by simp, kw_sound u s _ hk⟩
    | none =>
      rw [hk] at h
      obtain ⟨u', h1, h2⟩ := unitFound_sound us s f r h
      exact ⟨u', by simp [h1], h2⟩

theorem takeDigits_split : ∀ (n : Nat) (s : Str), s = txt (takeDigits n s).1 ++ (takeDigits n s).2 ∧
    (∀ d ∈ (takeDigits n s).1, d < 10) ∧ (takeDigits n s).1.length ≤ n
  | 0, s => by simp [takeDigits, txt]
  | n + 1, [] => by simp [takeDigits, txt]
  | n + 1, b :: s => by
    obtain ⟨h1, h2, h3⟩ := takeDigits_split n s
    simp only [takeDigits]
    split
    · rename_i hb
      simp only [isDigit, Bool.and_eq_true, decide_eq_true_eq] at hb
      refine ⟨?_, ?_, by simpa using h3⟩
      · have : digitChar (b.toNat - 48) = b := by
          apply UInt8.toNat_inj.1
          simp only [digitChar, Nat.toUInt8, UInt8.toNat_ofNat', Nat.reducePow]
          omega
        simp only [txt, List.map_cons, this, List.cons_append]
        exact congrArg (b :: ·) h1
      · intro d hd
        cases hd with
        | head => omega
        | tail _ hd => exact h2 d hd
    · simp [txt]

theorem number_bytesize (ds : List Nat) (hd : Digits ds) (hl : ds.length ≤ 20) (r : Str) (hr : headNot isDigit r = true) :
    bytesize (digitText ds ++ r) = match eat 'B' (unitP (value ds % 2 ^ 64) units r).2 with
      | some t => if t = [] then some (unitP (value ds % 2 ^ 64) units r).1 else none
      | none => if (unitP (value ds % 2 ^ 64) units r).2 = [] then some (unitP (value ds % 2 ^ 64) units r).1 else none := by
  have h := takeDigits_all 20 ds hd.2 hl r hr
  have e : digitText ds ++ r = txt ds ++ r := rfl
  have hlen : 1 ≤ ds.length := List.length_pos_iff.2 hd.1
  simp only [bytesize, countP, uintP, e, h, if_pos hlen, Option.map_some, Option.bind_some]
  rfl

end Verif.Options
