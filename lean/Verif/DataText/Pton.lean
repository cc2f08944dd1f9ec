import Verif.DataText.Addr

/-!
Printed addresses are read as the same address.
-/
namespace Verif.DataText
open Verif.Data Verif.Address Spec

theorem hexLower_ok : ∀ d, d < 16 → isXDigit (hexLower d) = true ∧ hexVal (hexLower d) = d := by decide

theorem ptonLoop_digit (d : Nat) (hd : d < 16) (s cur : Str) (seen val : Nat) (hs : seen < 4) (out : List Nat) (gap : Option Nat) :
    ptonLoop (hexLower d :: s) cur seen val out gap = ptonLoop s cur (seen + 1) (val * 16 + d) out gap := by
  have h := hexLower_ok d hd
  have : ¬ seen = 4 := by omega
  simp [ptonLoop, h.1, h.2, this]

theorem ptonLoop_group (w : Nat) (hw : w < 65536) (s cur : Str) (out : List Nat) (gap : Option Nat) :
    ∃ k, 0 < k ∧ ptonLoop (printHex w ++ s) cur 0 0 out gap = ptonLoop s cur k w out gap := by
  unfold printHex
  split
  · refine ⟨1, by omega, ?_⟩
    simp only [List.cons_append, List.nil_append]
    rw [ptonLoop_digit _ (by omega) _ _ _ _ (by omega)]
    congr 1; omega
  split
  · refine ⟨2, by omega, ?_⟩
    simp only [List.cons_append, List.nil_append]
    rw [ptonLoop_digit _ (by omega) _ _ _ _ (by omega), ptonLoop_digit _ (by omega) _ _ _ _ (by omega)]
    congr 1; omega
  split
  · refine ⟨3, by omega, ?_⟩
    simp only [List.cons_append, List.nil_append]
    rw [ptonLoop_digit _ (by omega) _ _ _ _ (by omega), ptonLoop_digit _ (by omega) _ _ _ _ (by omega),
      ptonLoop_digit _ (by omega) _ _ _ _ (by omega)]
    congr 1; omega
  · refine ⟨4, by omega, ?_⟩
    simp only [List.cons_append, List.nil_append]
    rw [ptonLoop_digit _ (by omega) _ _ _ _ (by omega), ptonLoop_digit _ (by omega) _ _ _ _ (by omega),
      ptonLoop_digit _ (by omega) _ _ _ _ (by omega), ptonLoop_digit _ (by omega) _ _ _ _ (by omega)]
    congr 1; omega

/-- The bytes of words. -/
def wbytes : List Nat → List Nat
  | [] => []
  | w :: ws => w / 256 :: w % 256 :: wbytes ws

theorem wbytes_length (ws : List Nat) : (wbytes ws).length = 2 * ws.length := by
  induction ws with
  | nil => rfl
  | cons w ws ih => simp [wbytes, ih]; omega

theorem wbytes_append (xs ys : List Nat) : wbytes (xs ++ ys) = wbytes xs ++ wbytes ys := by
  induction xs with
  | nil => rfl
  | cons w ws ih => simp [wbytes, ih]

theorem wbytes_zeros (n : Nat) : wbytes (List.replicate n 0) = List.replicate (2 * n) 0 := by
  induction n with
  | zero => rfl
  | succ n ih =>
    have : 2 * (n + 1) = 2 * n + 1 + 1 := by omega
    rw [this]
    simp [List.replicate_succ, wbytes, ih]

theorem wbytes_words (bs : List Nat) (hb : ∀ b ∈ bs, b < 256) (n : Nat) (hl : bs.length = 2 * n) :
    wbytes (wordsOf bs) = bs ∧ (wordsOf bs).length = n ∧ ∀ w ∈ wordsOf bs, w < 65536 := by
  induction n generalizing bs with
  | zero =>
    have : bs = [] := List.length_eq_zero_iff.mp (by omega)
    subst this; simp [wordsOf, wbytes]
  | succ n ih =>
    match bs, hl with
    | a :: b :: r, hl =>
      have ha := hb a (by simp)
      have hb' := hb b (by simp)
      obtain ⟨h1, h2, h3⟩ := ih r (fun x hx => hb x (by simp [hx])) (by simp at hl; omega)
      refine ⟨?_, by simp [wordsOf, h2], ?_⟩
      · have e1 : (a * 256 + b) / 256 = a := by omega
        have e2 : (a * 256 + b) % 256 = b := by omega
        simp [wordsOf, wbytes, h1, e1, e2]
      · intro w hw
        simp only [wordsOf, List.mem_cons] at hw
        rcases hw with rfl | hw
        · omega
        · exact h3 w hw
    | [], hl => simp at hl
    | [_], hl => simp at hl; omega

/-- Words with colons between them. -/
abbrev wj (ws : List Nat) : Str := cj (ws.map printHex)

theorem wj_two (w v : Nat) (ws : List Nat) : wj (w :: v :: ws) = printHex w ++ ch ':' :: wj (v :: ws) := by
  simp [wj, cj, join]

theorem printHex_ne (w : Nat) : printHex w ≠ [] := by
  unfold printHex; split <;> (try split) <;> (try split) <;> simp

theorem wj_ne (ws : List Nat) (h : ws ≠ []) : wj ws ≠ [] := by
  match ws, h with
  | [w], _ => simpa [wj, cj, join] using printHex_ne w
  | w :: v :: ws, _ => rw [wj_two]; simp

theorem ptonLoop_colon (s cur : Str) (k w : Nat) (hk : 0 < k) (hs : s ≠ []) (out : List Nat) (ho : out.length ≤ 14) (gap : Option Nat) :
    ptonLoop (ch ':' :: s) cur k w out gap = ptonLoop s s 0 0 (out ++ [w / 256, w % 256]) gap := by
  have h1 : isXDigit (ch ':') = false := by decide
  have h2 : ¬ k = 0 := by omega
  have h3 : ¬ 14 < out.length := by omega
  simp [ptonLoop, h1, h2, h3, hs]

theorem ptonLoop_words (ws : List Nat) (hw : ∀ w ∈ ws, w < 65536) (hne : ws ≠ []) (s cur : Str) (hs : s ≠ []) (out : List Nat)
    (gap : Option Nat) (ho : out.length + 2 * ws.length ≤ 16) :
    ∃ cur', ptonLoop (wj ws ++ ch ':' :: s) cur 0 0 out gap = ptonLoop s cur' 0 0 (out ++ wbytes ws) gap ∧ cur' = s := by
  induction ws generalizing cur out with
  | nil => exact absurd rfl hne
  | cons w ws ih =>
    simp only [List.length_cons] at ho
    cases ws with
    | nil =>
      obtain ⟨k, hk, e⟩ := ptonLoop_group w (hw w (by simp)) (ch ':' :: s) cur out gap
      refine ⟨s, ?_, rfl⟩
      show ptonLoop (printHex w ++ ch ':' :: s) _ _ _ _ _ = _
      rw [e, ptonLoop_colon s cur k w hk hs out (by omega) gap]; rfl
    | cons v ws =>
      obtain ⟨k, hk, e⟩ := ptonLoop_group w (hw w (by simp)) (ch ':' :: (wj (v :: ws) ++ ch ':' :: s)) cur out gap
      obtain ⟨c, hc, rfl⟩ := ih (fun x hx => hw x (by simp only [List.mem_cons] at *; exact .inr hx)) (by simp)
        (wj (v :: ws) ++ ch ':' :: s) (out ++ [w / 256, w % 256]) (by simp; simp at ho; omega)
      refine ⟨c, ?_, rfl⟩
      rw [wj_two, List.append_assoc, List.cons_append, e, ptonLoop_colon _ cur k w hk (by simp) out (by omega) gap, hc]
      simp [wbytes]

theorem ptonLoop_last (ws : List Nat) (hw : ∀ w ∈ ws, w < 65536) (cur : Str) (out : List Nat)
    (gap : Option Nat) (ho : out.length + 2 * ws.length ≤ 16) :
    ptonLoop (wj ws) cur 0 0 out gap = some (out ++ wbytes ws, gap) := by
  induction ws generalizing cur out with
  | nil => simp [wj, join, ptonLoop, wbytes]
  | cons w ws ih =>
    simp only [List.length_cons] at ho
    cases ws with
    | nil =>
      obtain ⟨k, hk, e⟩ := ptonLoop_group w (hw w (by simp)) [] cur out gap
      have h1 : ¬ k = 0 := by omega
      have h2 : ¬ 14 < out.length := by omega
      rw [List.append_nil] at e
      show ptonLoop (printHex w) _ _ _ _ _ = _
      rw [e]; simp [ptonLoop, h1, h2, wbytes]
    | cons v ws =>
      obtain ⟨k, hk, e⟩ := ptonLoop_group w (hw w (by simp)) (ch ':' :: wj (v :: ws)) cur out gap
      have := ih (fun x hx => hw x (by simp only [List.mem_cons] at *; exact .inr hx)) 
        (wj (v :: ws)) (out ++ [w / 256, w % 256]) (by simp; simp at ho; omega)
      rw [wj_two, e, ptonLoop_colon _ cur k w hk (wj_ne _ (by simp)) out (by omega) gap, this]
      simp [wbytes]

theorem printHex_group (w : Nat) (hw : w < 65536) : Group (printHex w) := by
  have h := fun d hd => (hexLower_ok d hd).1
  refine ⟨printHex_ne w, ?_, ?_⟩
  · unfold printHex; split <;> (try split) <;> (try split) <;> simp
  · unfold printHex
    intro b hb
    split at hb <;> (try split at hb) <;> (try split at hb) <;> simp at hb
    · exact hb ▸ h _ (by omega)
    · rcases hb with rfl | rfl <;> exact h _ (by omega)
    · rcases hb with rfl | rfl | rfl <;> exact h _ (by omega)
    · rcases hb with rfl | rfl | rfl | rfl <;> exact h _ (by omega)

theorem words_group {ws : List Nat} (hw : ∀ w ∈ ws, w < 65536) : ∀ g ∈ ws.map printHex, Group g := by
  intro g hg
  obtain ⟨w, h, rfl⟩ := List.mem_map.mp hg
  exact printHex_group w (hw w h)

theorem pton6_hex {s : Str} {b : UInt8} {t : Str} (e : s = b :: t) (hb : isXDigit b = true) :
    pton6 s = (ptonLoop s s 0 0 [] none).bind fillGap := by
  subst e
  have := xdigit_ne hb ':' (by decide)
  cases t <;> simp [pton6, this]

theorem pton6_full (ws : List Nat) (hw : ∀ w ∈ ws, w < 65536) (hl : ws.length = 8) : pton6 (wj ws) = some (wbytes ws) := by
  have hne : ws ≠ [] := by intro h; subst h; simp at hl
  obtain ⟨b, t, e, hb⟩ := cj_head (ws.map printHex) (words_group hw) (by simpa using hne) []
  rw [List.append_nil] at e
  rw [pton6_hex e hb, ptonLoop_last ws hw _ [] none (by simp; omega)]
  simp [fillGap, wbytes_length, hl]

theorem ptonLoop_gap (s cur : Str) (out : List Nat) : ptonLoop (ch ':' :: s) cur 0 0 out none = ptonLoop s s 0 0 out (some out.length) := by
  have h1 : isXDigit (ch ':') = false := by decide
  simp [ptonLoop, h1]

theorem pton6_gap (ls rs : List Nat) (hl : ∀ w ∈ ls, w < 65536) (hr : ∀ w ∈ rs, w < 65536) (hlen : ls.length + rs.length < 8) :
    pton6 (wj ls ++ ch ':' :: ch ':' :: wj rs) =
      some (wbytes ls ++ List.replicate (16 - 2 * (ls.length + rs.length)) 0 ++ wbytes rs) := by
  have hfill : fillGap (wbytes ls ++ wbytes rs, some (wbytes ls).length) =
      some (wbytes ls ++ List.replicate (16 - 2 * (ls.length + rs.length)) 0 ++ wbytes rs) := by
    have h1 : (wbytes ls ++ wbytes rs).length = 2 * (ls.length + rs.length) := by simp [wbytes_length]; omega
    simp only [fillGap, h1]
    rw [if_pos (by omega)]
    simp
  by_cases hne : ls = []
  · subst hne
    have h1 : pton6 (wj [] ++ ch ':' :: ch ':' :: wj rs) = (ptonLoop (ch ':' :: wj rs) (ch ':' :: wj rs) 0 0 [] none).bind fillGap := by
      simp [wj, join, pton6]
    rw [h1, ptonLoop_gap, ptonLoop_last rs hr _ [] _ (by simp; simp at hlen; omega)]
    exact hfill
  · obtain ⟨b, t, e, hb⟩ := cj_head (ls.map printHex) (words_group hl) (by simpa using hne) (ch ':' :: ch ':' :: wj rs)
    obtain ⟨c, h1, rfl⟩ := ptonLoop_words ls hl hne (ch ':' :: wj rs) (wj ls ++ ch ':' :: ch ':' :: wj rs) (by simp) [] none (by simp; omega)
    rw [pton6_hex e hb, h1, ptonLoop_gap, List.nil_append, ptonLoop_last rs hr _ _ _ (by rw [wbytes_length]; omega)]
    exact hfill

/-- The digits of the first octet before its dot. -/
theorem ptonLoop_dec (ds : List Nat) (hd : ∀ d ∈ ds, d < 10) (s cur : Str) (seen val : Nat) (hs : seen + ds.length ≤ 4) (out : List Nat)
    (gap : Option Nat) : ∃ k v, ptonLoop (txt ds ++ s) cur seen val out gap = ptonLoop s cur k v out gap := by
  induction ds generalizing seen val with
  | nil => exact ⟨seen, val, rfl⟩
  | cons d ds ih =>
    simp only [List.length_cons] at hs
    have h1 := hd d (by simp)
    have h2 : digitChar d = hexLower d := by simp [digitChar, hexLower, h1]
    obtain ⟨k, v, e⟩ := ih (fun x hx => hd x (by simp [hx])) (seen + 1) (val * 16 + d) (by omega)
    refine ⟨k, v, ?_⟩
    show ptonLoop (digitChar d :: (txt ds ++ s)) _ _ _ _ _ = _
    rw [h2, ptonLoop_digit d (by omega) _ _ _ _ (by omega), e]

theorem pton6_compat (a b c d : Nat) (ha : a < 256) (hb : b < 256) (hc : c < 256) (hd : d < 256) :
    pton6 (ch ':' :: ch ':' :: ntop4 [a, b, c, d]) = some (List.replicate 12 0 ++ [a, b, c, d]) := by
  have h1 : pton6 (ch ':' :: ch ':' :: ntop4 [a, b, c, d]) =
      (ptonLoop (ch ':' :: ntop4 [a, b, c, d]) (ch ':' :: ntop4 [a, b, c, d]) 0 0 [] none).bind fillGap := by simp [pton6]
  have h2 : pton4 (ntop4 [a, b, c, d]) = some [a, b, c, d] := by
    have := v4P_ntop4 a b c d ha hb hc hd [] rfl
    rw [List.append_nil] at this
    simp [pton4, this]
  have hx := ntop4_head a b c d []
  rw [List.append_nil, printNat_eq a] at hx
  have hl := digits_length 3 a (by omega) (by omega)
  obtain ⟨k, v, e⟩ := ptonLoop_dec (digits a) (digits_lt a)
    (ch '.' :: (printNat b ++ (ch '.' :: (printNat c ++ ch '.' :: (printNat d ++ []))))) (ntop4 [a, b, c, d]) 0 0 (by omega) [] (some 0)
  have hdot : isXDigit (ch '.') = false := by decide
  have hne : ch '.' ≠ ch ':' := by decide
  have h3 : ptonLoop (ntop4 [a, b, c, d]) (ntop4 [a, b, c, d]) 0 0 [] (some 0) = some ([a, b, c, d], some 0) := by
    rw [← hx] at e
    rw [e]
    simp [ptonLoop, hdot, hne, h2]
  rw [h1, ptonLoop_gap]
  show (ptonLoop (ntop4 [a, b, c, d]) (ntop4 [a, b, c, d]) 0 0 [] (some 0)).bind fillGap = _
  rw [h3]; rfl

/-! The longest run of zeros -/

/-- A run of zeros inside of a list. -/
def Run (ws : List Nat) (x : Nat × Nat) : Prop := ∃ p q, ws = p ++ List.replicate x.2 0 ++ q ∧ p.length = x.1

theorem zeros_run (ws : List Nat) : ∃ q, ws = List.replicate (zeros ws) 0 ++ q := by
  induction ws with
  | nil => exact ⟨[], rfl⟩
  | cons w ws ih =>
    cases w with
    | zero =>
      obtain ⟨q, hq⟩ := ih
      refine ⟨q, ?_⟩
      simp only [zeros, List.replicate_succ, List.cons_append]
      rw [← hq]
    | succ w => exact ⟨(w + 1) :: ws, by simp [zeros]⟩

theorem bestRun_run (full pre ws : List Nat) (e : full = pre ++ ws) (best : Nat × Nat) (hb : Run full best) :
    Run full (bestRun pre.length best ws) := by
  induction ws generalizing pre best with
  | nil => exact hb
  | cons w ws ih =>
    rw [bestRun]
    have h := ih (pre ++ [w]) (by simp [e]) (if best.2 < zeros (w :: ws) then (pre.length, zeros (w :: ws)) else best) (by
      split
      · obtain ⟨q, hq⟩ := zeros_run (w :: ws)
        exact ⟨pre, q, by rw [e, List.append_assoc, ← hq], rfl⟩
      · exact hb)
    simpa using h

end Verif.DataText
