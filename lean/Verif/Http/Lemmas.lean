import Verif.Http.Spec
import Verif.Http.UriText
import Verif.Uri.Only
import Verif.TestGen.Exact
/-! Lemmas on HTTP messages. -/
namespace Verif.Http
open Verif.Data Verif.DataText Verif.Uri.Spec Spec

theorem byte_ext {a b : UInt8} (h : a.toNat = b.toNat) : a = b := UInt8.toNat_inj.mp h

theorem cases_iff (a b : UInt8) : Cases a b ↔ 97 ≤ a.toNat ∧ a.toNat ≤ 122 ∧ b.toNat + 32 = a.toNat := by
  constructor
  · rintro ⟨n, hn, rfl, rfl⟩
    have h1 : (UInt8.ofNat (97 + n)).toNat = 97 + n := by simp; omega
    have h2 : (UInt8.ofNat (65 + n)).toNat = 65 + n := by simp; omega
    rw [h1, h2]; omega
  · rintro ⟨h1, h2, h3⟩
    refine ⟨a.toNat - 97, by omega, byte_ext ?_, byte_ext ?_⟩
    · simp; omega
    · simp; omega

theorem upper_nat (a : UInt8) : (upper a).toNat = if 97 ≤ a.toNat ∧ a.toNat ≤ 122 then a.toNat - 32 else a.toNat := by
  unfold upper
  split
  · have : (32 : UInt8) ≤ a := by rw [UInt8.le_iff_toNat_le]; show 32 ≤ a.toNat; omega
    rw [UInt8.toNat_sub_of_le _ _ this]; rfl
  · rfl

theorem up_iff (a b : UInt8) : Up a b ↔ upper a = b := by
  unfold Up
  constructor
  · rintro (h | ⟨rfl, h⟩)
    · obtain ⟨h1, h2, h3⟩ := (cases_iff a b).mp h
      apply byte_ext; rw [upper_nat, if_pos ⟨h1, h2⟩]; omega
    · unfold upper
      split
      · rename_i hc
        refine absurd ((cases_iff a (upper a)).mpr ⟨hc.1, hc.2, ?_⟩) (h _)
        rw [upper_nat, if_pos hc]; omega
      · rfl
  · rintro rfl
    by_cases hc : 97 ≤ a.toNat ∧ a.toNat ≤ 122
    · left
      refine (cases_iff a _).mpr ⟨hc.1, hc.2, ?_⟩
      rw [upper_nat, if_pos hc]; omega
    · right
      refine ⟨by unfold upper; rw [if_neg hc], fun c h => ?_⟩
      have := (cases_iff a c).mp h
      omega

theorem ups_iff : ∀ x y : Str, List.Forall₂ Up x y ↔ x.map upper = y
  | [], y => by cases y <;> simp
  | a :: x, [] => by simp
  | a :: x, b :: y => by
    rw [List.forall₂_cons, up_iff, ups_iff x y]; simp

theorem same_iff (a b : UInt8) : upper a = upper b ↔ a = b ∨ Cases a b ∨ Cases b a := by
  rw [cases_iff, cases_iff]
  constructor
  · intro h
    have := congrArg UInt8.toNat h
    rw [upper_nat, upper_nat] at this
    by_cases hab : a.toNat = b.toNat
    · exact .inl (byte_ext hab)
    · right
      split at this <;> split at this <;> omega
  · rintro (rfl | h | h)
    · rfl
    · apply byte_ext; rw [upper_nat, upper_nat, if_pos (by omega), if_neg (by omega)]; omega
    · apply byte_ext; rw [upper_nat, upper_nat, if_neg (by omega), if_pos (by omega)]; omega

theorem sameName_iff : ∀ x y : Str, sameName x y = true ↔ Same x y
  | [], [] => by simp [sameName, Same]
  | [], _ :: _ => by simp [sameName, Same]
  | _ :: _, [] => by simp [sameName, Same]
  | a :: x, b :: y => by
    rw [sameName, Bool.and_eq_true, beq_iff_eq, same_iff, sameName_iff x y]
    unfold Same
    rw [List.forall₂_cons]

/-! ### Parts -/

theorem wordChar_iff (b : UInt8) : wordChar b = true ↔ Printable b ∧ b ∉ ([32] : List UInt8) := by
  simp [wordChar, Uri.printable_iff]

theorem nameChar_iff (b : UInt8) : nameChar b = true ↔ Printable b ∧ b ∉ ([58] : List UInt8) := by
  simp [nameChar, Uri.printable_iff]

theorem alphaChar_iff (b : UInt8) : alphaChar b = true ↔ Alpha b := by simp [alphaChar, Alpha]

theorem headerP_back {s : Str} {h : Header} {r : Str} (e : headerP s = some (h, r)) (z : Str) (hr : r = 13 :: 10 :: z) :
    ∃ t, s = t ++ z ∧ HeaderText t h := by
  unfold headerP at e
  split at e
  · cases e
  · rename_i h1
    split at e
    · rename_i q hq
      dsimp only at e
      split at e
      · cases e
      · rename_i h2
        simp only [Option.some.injEq, Prod.mk.injEq] at e
        obtain ⟨rfl, rfl⟩ := e
        have e1 := (List.takeWhile_append_dropWhile (p := nameChar) (l := s)).symm
        have e2 := (List.takeWhile_append_dropWhile (p := fun b : UInt8 => b == 32) (l := q)).symm
        have e3 := (List.takeWhile_append_dropWhile (p := Escape.isPrint) (l := q.dropWhile fun b => b == 32)).symm
        have e4 : q.takeWhile (fun b : UInt8 => b == 32) = List.replicate (q.takeWhile fun b : UInt8 => b == 32).length 32 := by
          rw [List.eq_replicate_iff]
          exact ⟨rfl, fun b hb => by simpa using Uri.takeWhile_mem hb⟩
        refine ⟨_, ?_, s.takeWhile nameChar, (q.takeWhile fun b : UInt8 => b == 32).length, rfl, h1, h2, ?_, ?_, ?_, (ups_iff _ _).mpr rfl⟩
        · rw [← e4]
          rw [hr] at e3
          simp only [crlf, List.append_assoc, List.cons_append, List.nil_append]
          rw [← e3, ← e2, ← hq, ← e1]
        · exact fun b hb => (nameChar_iff b).mp (Uri.takeWhile_mem hb)
        · exact fun b hb => ⟨(Uri.printable_iff b).mp (Uri.takeWhile_mem hb), by simp⟩
        · intro hh
          cases hd : q.dropWhile (fun b : UInt8 => b == 32) with
          | nil => rw [hd] at hh; simp at hh
          | cons b w =>
            have := List.head_dropWhile_not (fun b : UInt8 => b == 32) (l := q) (by rw [hd]; simp)
            simp only [hd, List.head_cons] at this
            rw [hd, List.takeWhile_cons] at hh
            split at hh
            · simp only [List.head?_cons, Option.some.injEq] at hh
              subst hh; simp at this
            · simp at hh
    · cases e

theorem headersP_back : ∀ (fuel : Nat) (s : Str), ∃ hs : List Str, s = hs.flatten ++ (headersP fuel s).2 ∧
    List.Forall₂ HeaderText hs (headersP fuel s).1
  | 0, s => ⟨[], rfl, .nil⟩
  | fuel + 1, s => by
    rw [headersP.eq_def]
    dsimp only
    split
    · rename_i h r e
      obtain ⟨t, rfl, ht⟩ := headerP_back e r rfl
      obtain ⟨hs, e1, e2⟩ := headersP_back fuel r
      refine ⟨t :: hs, ?_, .cons ht e2⟩
      rw [List.flatten_cons, List.append_assoc, ← e1]
    · exact ⟨[], rfl, .nil⟩

theorem restP_back {s : Str} {hs : List Header} {b : Str} (e : restP s = some (hs, b)) :
    ∃ ts : List Str, s = ts.flatten ++ crlf ++ b ∧ List.Forall₂ HeaderText ts hs ∧ Only [] b := by
  unfold restP at e
  split at e
  · rename_i b' hb
    split at e
    · rename_i hd
      simp only [Option.some.injEq, Prod.mk.injEq] at e
      obtain ⟨rfl, rfl⟩ := e
      obtain ⟨ts, e1, e2⟩ := headersP_back s.length s
      refine ⟨ts, ?_, e2, ?_⟩
      · rw [hb] at e1; rw [List.append_assoc]; exact e1
      · have := (List.takeWhile_append_dropWhile (p := Escape.isPrint) (l := b')).symm
        rw [hd, List.append_nil] at this
        intro x hx
        rw [this] at hx
        exact ⟨(Uri.printable_iff x).mp (Uri.takeWhile_mem hx), by simp⟩
    · cases e
  · cases e

theorem version_back {s r : Str} {l : Lit} (h : realP true s = some (l, r)) : ∃ t, s = t ++ r ∧ VersionText t l := by
  unfold realP at h
  split at h
  · cases h
  obtain ⟨sign, hs1, hs2⟩ := TestGen.takeSign_back s
  obtain ⟨d1, d2, d3⟩ := Options.takeDigits_split 20 (takeSign s).2
  generalize hds : (takeDigits 20 (takeSign s).2).1 = ds at *
  generalize hr1 : (takeDigits 20 (takeSign s).2).2 = r1 at *
  generalize (takeSign s).1 = neg at *
  generalize (takeSign s).2 = s1 at *
  cases he : eat '.' r1 with
  | some r2 =>
    rw [he] at h
    dsimp only at h
    have hr2 := TestGen.eat_back he
    obtain ⟨f1, f2, f3⟩ := Options.takeDigits_split 20 r2
    generalize hfs : (takeDigits 20 r2).1 = fs at *
    generalize (takeDigits 20 r2).2 = r3 at *
    split at h
    · cases h
    · rename_i hne
      simp only [Option.some.injEq, Prod.mk.injEq] at h
      obtain ⟨rfl, rfl⟩ := h
      refine ⟨_, ?_, neg, sign, ds, fs, rfl, hs2, rfl, ?_, d3, f3, hne⟩
      · rw [hs1, d1, hr2, f1]
        have e1 : ch '.' = 46 := by decide
        have e2 : ∀ xs : List Nat, txt xs = xs.map fun d => UInt8.ofNat (48 + d) := fun _ => rfl
        rw [e1, e2, e2]
        simp
      · intro d hd; rcases List.mem_append.1 hd with h | h
        · exact d2 d h
        · exact f2 d h
  | none =>
    rw [he] at h
    simp at h

theorem version_read {t : Str} {l : Lit} (h : VersionText t l) (r : Str) (hr : headNot isDigit r = true) : realP true (t ++ r) = some (l, r) := by
  obtain ⟨neg, sign, ds, fs, rfl, hs, rfl, hd, hl, hlf, hne⟩ := h
  have hd1 : ∀ d ∈ ds, d < 10 := fun d h => hd d (by simp [h])
  have hf1 : ∀ d ∈ fs, d < 10 := fun d h => hd d (by simp [h])
  have e2 : ∀ xs : List Nat, (xs.map fun d => UInt8.ofNat (48 + d)) = txt xs := fun _ => rfl
  rw [e2, e2, show sign ++ txt ds ++ [46] ++ txt fs ++ r = sign ++ (txt ds ++ ([46] ++ (txt fs ++ r))) by simp]
  have hsign : takeSign (sign ++ (txt ds ++ ([46] ++ (txt fs ++ r)))) = (neg, txt ds ++ ([46] ++ (txt fs ++ r))) := by
    rcases hs with ⟨rfl, rfl⟩ | ⟨rfl, rfl⟩ | ⟨rfl, rfl⟩
    · simp [takeSign, ch]
    · have : (43 : UInt8) ≠ 45 := by decide
      simp [takeSign, ch, this]
    · by_cases hn : ds = []
      · subst hn
        have e1 : (46 : UInt8) ≠ 45 := by decide
        have e2 : (46 : UInt8) ≠ 43 := by decide
        simp [takeSign, txt, ch, e1, e2]
      · exact takeSign_txt ds hd1 hn _
  have hn : sign ++ (txt ds ++ ([46] ++ (txt fs ++ r))) ≠ [] := by simp
  unfold realP
  rw [if_neg hn, hsign]
  dsimp only
  rw [takeDigits_all 20 ds hd1 hl ([46] ++ (txt fs ++ r)) (by simp only [headNot, List.cons_append]; decide)]
  have : eat '.' ([46] ++ (txt fs ++ r)) = some (txt fs ++ r) := by simp [eat, ch]
  dsimp only
  rw [this]
  dsimp only
  rw [takeDigits_all 20 fs hf1 hlf r hr]
  rw [if_neg hne]

theorem protoP_back {s r : Str} {p : Str} {l : Lit} (h : protoP s = some ((p, l), r)) : ∃ v, s = [32] ++ p ++ [47] ++ v ++ crlf ++ r ∧ p ≠ [] ∧
    (∀ b ∈ p, Alpha b) ∧ VersionText v l := by
  unfold protoP at h
  split at h
  · rename_i q
    split at h
    · cases h
    · rename_i hne
      split at h
      · rename_i q' hq
        split at h
        · rename_i l' z hv
          simp only [Option.some.injEq, Prod.mk.injEq] at h
          obtain ⟨⟨rfl, rfl⟩, rfl⟩ := h
          obtain ⟨v, e, hv⟩ := version_back hv
          refine ⟨v, ?_, hne, fun b hb => (alphaChar_iff b).mp (Uri.takeWhile_mem hb), hv⟩
          have e1 := (List.takeWhile_append_dropWhile (p := alphaChar) (l := q)).symm
          rw [hq, e] at e1
          simp only [crlf, List.append_assoc, List.cons_append, List.nil_append]
          rw [← e1]
        · cases h
      · cases h
  · cases h

theorem uriP_back {s r : Str} {u : Uri.Uri} (h : uriP s = some (u, r)) : ∃ t, s = t ++ r ∧ Uri.Spec.Text t u := by
  unfold uriP at h
  dsimp only at h
  split at h
  · rename_i q hq
    simp only [Option.some.injEq, Prod.mk.injEq] at h
    obtain ⟨rfl, rfl⟩ := h
    obtain ⟨a, e1, h1⟩ := Uri.schemeP_only (s := s)
    obtain ⟨b, e2, h2⟩ := Uri.hostP_only (s := (Uri.schemeP s).2)
    obtain ⟨c, e3, h3⟩ := Uri.portP_only (s := (Uri.hostP (Uri.schemeP s).2).2)
    obtain ⟨d, e4, h4⟩ := Uri.pathP_only (q.length + 1) q (Nat.lt_succ_self _)
    obtain ⟨e, e5, h5⟩ := Uri.queryP_only (s := (Uri.pathP (q.length + 1) q).2)
    obtain ⟨f, e6, h6⟩ := Uri.fragmentP_only (s := (Uri.queryP (Uri.pathP (q.length + 1) q).2).2)
    refine ⟨a ++ b ++ c ++ d ++ e ++ f, ?_, a, b, c, d, e, f, rfl, h1, h2, h3, h4, h5, h6⟩
    rw [e6] at e5
    rw [e5] at e4
    rw [hq, e4] at e3
    rw [e3] at e2
    rw [e2] at e1
    simpa using e1
  · cases h

/-! ### Reading -/

theorem headerP_read {t : Str} {h : Header} (ht : HeaderText t h) (r : Str) : headerP (t ++ r) = some (h, 13 :: 10 :: r) := by
  obtain ⟨name, n, rfl, h1, h2, h3, h4, h5, h6⟩ := ht
  have e : name ++ [58] ++ List.replicate n 32 ++ h.value ++ crlf ++ r = name ++ (58 :: (List.replicate n 32 ++ (h.value ++ (13 :: 10 :: r)))) := by
    simp [crlf]
  rw [e]
  obtain ⟨a1, a2⟩ := Uri.takeWhile_run (p := nameChar) (x := name) (r := 58 :: (List.replicate n 32 ++ (h.value ++ (13 :: 10 :: r))))
    (fun b hb => (nameChar_iff b).mpr (h3 b hb)) (by simp [headNot, nameChar])
  obtain ⟨b1, b2⟩ := Uri.takeWhile_run (p := fun b : UInt8 => b == 32) (x := List.replicate n 32) (r := h.value ++ (13 :: 10 :: r))
    (fun b hb => by simp [List.eq_of_mem_replicate hb]) (by
      cases e : h.value with
      | nil => exact absurd e h2
      | cons b v => rw [e] at h5; simpa [headNot] using h5)
  obtain ⟨c1, c2⟩ := Uri.takeWhile_run (p := Escape.isPrint) (x := h.value) (r := 13 :: 10 :: r)
    (fun b hb => (Uri.printable_iff b).mpr (h4 b hb).1) (by simp only [headNot]; decide)
  unfold headerP
  simp only [a1, a2, if_neg h1, b2, c1, c2, if_neg h2, (ups_iff _ _).mp h6]

theorem headersP_read (z : Str) (hz : headerP z = none) : ∀ (fuel : Nat) (ts : List Str) (hs : List Header), List.Forall₂ HeaderText ts hs →
    ts.length ≤ fuel → headersP fuel (ts.flatten ++ z) = (hs, z)
  | fuel, [], _, .nil, _ => by
    cases fuel with
    | zero => rfl
    | succ n => rw [headersP.eq_def]; simp [hz]
  | 0, _ :: _, _, _, h => by simp at h
  | fuel + 1, t :: ts, _, .cons (b := h) (l₂ := hs) ht hts, hl => by
    rw [headersP.eq_def]
    dsimp only
    rw [List.flatten_cons, List.append_assoc]
    simp only [headerP_read ht, headersP_read z hz fuel ts hs hts (by simpa using hl)]

theorem restP_read {ts : List Str} {hs : List Header} {b : Str} (h : List.Forall₂ HeaderText ts hs) (hb : Only [] b) :
    restP (ts.flatten ++ crlf ++ b) = some (hs, b) := by
  have hlen : ts.length ≤ ts.flatten.length := by
    clear hb
    induction h with
    | nil => simp
    | cons ht _ ih =>
      obtain ⟨name, n, rfl, _⟩ := ht
      simp only [List.length_cons, List.flatten_cons, List.length_append] at ih ⊢
      simp only [List.length_nil]
      omega
  have hz : headerP (crlf ++ b) = none := by
    unfold headerP
    rw [if_pos]
    simp only [crlf, List.cons_append, List.takeWhile_cons]
    rfl
  unfold restP
  rw [List.append_assoc, headersP_read (crlf ++ b) hz _ ts hs h (by rw [List.length_append]; omega)]
  have : b.dropWhile Escape.isPrint = [] := by
    obtain ⟨_, h2⟩ := Uri.takeWhile_run (p := Escape.isPrint) (x := b) (r := []) (fun x hx => (Uri.printable_iff x).mpr (hb x hx).1) rfl
    rwa [List.append_nil] at h2
  simp [crlf, this]

theorem protoP_read {p v r : Str} {l : Lit} (hp : p ≠ []) (ha : ∀ b ∈ p, Alpha b) (hv : VersionText v l) :
    protoP ([32] ++ p ++ [47] ++ v ++ crlf ++ r) = some ((p, l), r) := by
  have e : [32] ++ p ++ [47] ++ v ++ crlf ++ r = 32 :: (p ++ (47 :: (v ++ (13 :: 10 :: r)))) := by simp [crlf]
  rw [e]
  obtain ⟨a1, a2⟩ := Uri.takeWhile_run (p := alphaChar) (x := p) (r := 47 :: (v ++ (13 :: 10 :: r)))
    (fun b hb => (alphaChar_iff b).mpr (ha b hb)) (by simp only [headNot]; decide)
  have hr := version_read hv (13 :: 10 :: r) (by simp only [headNot]; decide)
  unfold protoP
  simp only [a1, a2, if_neg hp, hr]

theorem printNat_no_cr (n : Nat) : ∀ b ∈ printNat n, b ≠ 13 := by
  rw [printNat_eq]
  intro b hb
  obtain ⟨d, hd, rfl⟩ := List.mem_map.mp hb
  have := digits_lt n d hd
  apply Uri.byte_ne
  show (UInt8.ofNat (48 + d)).toNat ≠ 13
  simp; omega

end Verif.Http
