import Verif.Client.Spec
import Verif.DataText.Lemmas
import Verif.Syslog.Back
import Verif.Bitmap.SearchLemmas
/-!
# Lemmas about client commands
-/
namespace Verif.Client
open Verif.Data Verif.DataText Verif.Client.Spec

theorem isDigit_iff (b : UInt8) : isDigit b = true ↔ 48 ≤ b.toNat ∧ b.toNat ≤ 57 := by
  simp [isDigit]

theorem takeDigits_run : ∀ (d : Str), (∀ b ∈ d, 48 ≤ b.toNat ∧ b.toNat ≤ 57) → ∀ (m : Nat), d.length ≤ m → ∀ r : Str, headNot isDigit r = true →
    takeDigits m (d ++ r) = (d.map (fun b => b.toNat - 48), r) := by
  intro d
  induction d with
  | nil => intro _ m _ r hr; exact takeDigits_stop m r hr
  | cons b d ih =>
    intro h m hm r hr
    cases m with
    | zero => simp at hm
    | succ m =>
      have hb : isDigit b = true := (isDigit_iff b).mpr (h b (by simp))
      have := ih (fun c hc => h c (List.mem_cons_of_mem _ hc)) m (by simpa using hm) r hr
      simp [takeDigits, hb, this]

theorem takeDigits_back : ∀ (m : Nat) (s : Str), ∃ d : Str, s = d ++ (takeDigits m s).2 ∧ (takeDigits m s).1 = d.map (fun b => b.toNat - 48) ∧
    (∀ b ∈ d, 48 ≤ b.toNat ∧ b.toNat ≤ 57) ∧ d.length ≤ m := by
  intro m
  induction m with
  | zero => intro s; exact ⟨[], rfl, rfl, by simp, by simp⟩
  | succ m ih =>
    intro s
    cases s with
    | nil => exact ⟨[], rfl, rfl, by simp, by simp⟩
    | cons b s =>
      by_cases hb : isDigit b = true
      · obtain ⟨d, h1, h2, h3, h4⟩ := ih s
        refine ⟨b :: d, ?_, ?_, ?_, ?_⟩
        · simp only [takeDigits, hb, if_true, List.cons_append]; rw [← h1]
        · simp only [takeDigits, hb, if_true, List.map_cons]; rw [← h2]
        · intro c hc
          rcases List.mem_cons.mp hc with rfl | hc
          · exact (isDigit_iff c).mp hb
          · exact h3 c hc
        · simpa using h4
      · refine ⟨[], ?_, ?_, by simp, by simp⟩ <;> simp [takeDigits, hb]

theorem value_map (d : Str) : value (d.map fun b => b.toNat - 48) = decimal d := by
  unfold value decimal
  rw [List.foldl_map]
  congr 1
  funext a b
  rw [Nat.mul_comm]

theorem uintP_run {d r : Str} (h : Digits d) {bits m : Nat} (hm : d.length ≤ m) (hr : headNot isDigit r = true) :
    uintP bits m 1 (d ++ r) = some (decimal d % 2 ^ bits, r) := by
  unfold uintP
  rw [takeDigits_run d h.2 m hm r hr]
  have : 1 ≤ (d.map (fun b => b.toNat - 48)).length := by
    rw [List.length_map]
    have := h.1
    cases d
    · exact absurd rfl this
    · simp
  rw [if_pos this, value_map]

theorem uintP_back {bits m : Nat} {s r : Str} {n : Nat} (h : uintP bits m 1 s = some (n, r)) :
    ∃ d, s = d ++ r ∧ Digits d ∧ d.length ≤ m ∧ n = decimal d % 2 ^ bits := by
  unfold uintP at h
  split at h
  · rename_i hl
    obtain ⟨d, h1, h2, h3, h4⟩ := takeDigits_back m s
    simp only [Option.some.injEq, Prod.mk.injEq] at h
    refine ⟨d, by rw [← h.2]; exact h1, ⟨?_, h3⟩, h4, ?_⟩
    · intro hd
      rw [h2, hd] at hl
      simp at hl
    · rw [← h.1, h2, value_map]
  · cases h

theorem kw_back : ∀ {cs : List Char} {s r : Str}, kw cs s = some r → s = cs.map ch ++ r := by
  intro cs
  induction cs with
  | nil => intro s r h; simpa [kw] using h
  | cons c cs ih =>
    intro s r h
    unfold kw at h
    split at h
    · cases h
    · rename_i r' he
      have := Syslog.eat_back he
      rw [this, ih h]; rfl

theorem protoP_text {q : Str} {t : Proto} (h : ProtoText q t) (hq : q ≠ []) : eat '/' q = some q.tail ∧ protoP q.tail = some (t, []) := by
  cases h
  · exact absurd rfl hq
  all_goals exact ⟨by decide, by decide⟩

theorem protoP_back {s r : Str} {t : Proto} (h : protoP s = some (t, r)) : ∃ q, ProtoText (ch '/' :: q) t ∧ s = q ++ r := by
  unfold protoP at h
  split at h
  · rename_i r' he; cases h
    refine ⟨_, ?_, kw_back he⟩; exact ProtoText.unknown
  split at h
  · rename_i r' he; cases h
    refine ⟨_, ?_, kw_back he⟩; exact ProtoText.icmp6
  split at h
  · rename_i r' he; cases h
    refine ⟨_, ?_, kw_back he⟩; exact ProtoText.icmp
  split at h
  · rename_i r' he; cases h
    refine ⟨_, ?_, kw_back he⟩; exact ProtoText.tcp
  split at h
  · rename_i r' he; cases h
    refine ⟨_, ?_, kw_back he⟩; exact ProtoText.udp
  split at h
  · rename_i r' he; cases h
    refine ⟨_, ?_, kw_back he⟩; exact ProtoText.sctp
  · cases h

theorem headNot_proto {q : Str} {t : Proto} (h : ProtoText q t) : headNot isDigit q = true := by
  cases h <;> decide

theorem portPart_text {d q : Str} {t : Proto} (hd : Digits d) (hl : d.length ≤ 5) (h : ProtoText q t) :
    portPart (str ":" ++ d ++ q) = some (⟨decimal d % 65536, t⟩, []) := by
  have e : str ":" ++ d ++ q = ch ':' :: (d ++ q) := rfl
  unfold portPart
  rw [e, show eat ':' (ch ':' :: (d ++ q)) = some (d ++ q) from eat_cons ':' (d ++ q)]
  have hu := uintP_run (bits := 16) hd hl (headNot_proto h)
  by_cases hq : q = []
  · subst hq
    have ht : t = .unknown := by cases h; rfl
    subst ht
    simp only [anyPortP, portP, hu, eat, Nat.reducePow]
  · obtain ⟨h1, h2⟩ := protoP_text h hq
    simp only [anyPortP, portP, hu, h1, h2, Nat.reducePow]

theorem portPart_back {s : Str} {p : Port} (h : portPart s = some (p, [])) :
    ∃ d q t, s = str ":" ++ d ++ q ∧ Digits d ∧ d.length ≤ 5 ∧ ProtoText q t ∧ p = ⟨decimal d % 65536, t⟩ := by
  unfold portPart at h
  split at h
  · cases h
  rename_i r he
  have hs := Syslog.eat_back he
  unfold anyPortP at h
  split at h
  · rename_i x hp
    simp only [Option.some.injEq] at h
    subst h
    unfold portP at hp
    split at hp
    · cases hp
    rename_i n r1 hu
    split at hp
    · cases hp
    rename_i r2 hsl
    split at hp
    · cases hp
    rename_i t r3 hpr
    cases hp
    obtain ⟨d, h1, h2, h3, h4⟩ := uintP_back hu
    obtain ⟨q, h5, h6⟩ := protoP_back hpr
    refine ⟨d, ch '/' :: q, t, ?_, h2, h3, h5, by simp only [h4, Nat.reducePow]⟩
    rw [hs, h1, Syslog.eat_back hsl, h6, List.append_nil]; simp; rfl
  · split at h
    · rename_i n r' hu
      cases h
      obtain ⟨d, h1, h2, h3, h4⟩ := uintP_back hu
      refine ⟨d, [], .unknown, ?_, h2, h3, .none, by simp only [h4, Nat.reducePow]⟩
      rw [hs, h1]; simp; rfl
    · cases h

theorem hostChar_iff (b : UInt8) : hostChar b = true ↔
    (48 ≤ b.toNat ∧ b.toNat ≤ 57) ∨ (65 ≤ b.toNat ∧ b.toNat ≤ 90) ∨ (97 ≤ b.toNat ∧ b.toNat ≤ 122) ∨ b = 45 ∨ b = 95 ∨ b = 46 := by
  have e1 : ch '-' = 45 := by decide
  have e2 : ch '_' = 95 := by decide
  have e3 : ch '.' = 46 := by decide
  unfold hostChar isAlnum
  rw [e1, e2, e3]
  simp [isDigit, or_assoc]

theorem takeWhile_host {h r : Str} (hh : ∀ b ∈ h, hostChar b = true) (hr : headNot hostChar r = true) :
    (h ++ r).takeWhile hostChar = h ∧ (h ++ r).dropWhile hostChar = r := by
  induction h with
  | nil =>
    cases r with
    | nil => exact ⟨rfl, rfl⟩
    | cons b r =>
      have : hostChar b = false := by simpa [headNot] using hr
      simp [this]
  | cons b h ih =>
    have := ih fun c hc => hh c (List.mem_cons_of_mem _ hc)
    have hb := hh b (by simp)
    simp [List.takeWhile, List.dropWhile, hb, this]

theorem takeWhile_all {h : Str} : ∀ b ∈ h.takeWhile hostChar, hostChar b = true := by
  induction h with
  | nil => simp
  | cons b h ih =>
    intro c hc
    rw [List.takeWhile_cons] at hc
    split at hc
    · rename_i hb
      rcases List.mem_cons.mp hc with rfl | hc
      · exact hb
      · exact ih c hc
    · cases hc

/-- The endpoint that is read for a text. -/
def wrap (e : Endpoint) : Endpoint := { e with port := e.port.map fun p => { p with number := p.number % 65536 } }

theorem parse_text {t : Str} {e : Endpoint} (h : EndpointText t e) : parseEndpoint t = some (wrap e) := by
  cases h with
  | host hh =>
    have hb : ∀ b ∈ t, hostChar b = true := fun b hb => (hostChar_iff b).mpr (hh.2 b hb)
    have := takeWhile_host (r := []) hb rfl
    rw [List.append_nil] at this
    unfold parseEndpoint
    simp only [this.1, this.2, portPart, eat]
    rw [if_pos hh.1]; rfl
  | @port d q p hd hl hp =>
    have e0 := takeWhile_host (h := []) (r := str ":" ++ d ++ q) (by simp) rfl
    rw [List.nil_append] at e0
    unfold parseEndpoint
    simp only [e0.1, portPart_text hd hl hp]
    rfl
  | @both h d q p hh hd hl hp =>
    have hb : ∀ b ∈ h, hostChar b = true := fun b hb => (hostChar_iff b).mpr (hh.2 b hb)
    have e0 := takeWhile_host (h := h) (r := str ":" ++ d ++ q) hb rfl
    have ea : h ++ str ":" ++ d ++ q = h ++ (str ":" ++ d ++ q) := by simp
    unfold parseEndpoint
    rw [ea]
    simp only [e0.1, e0.2, portPart_text hd hl hp]
    rw [if_pos hh.1]; rfl

theorem parse_back {t : Str} {e : Endpoint} (h : parseEndpoint t = some e) : ∃ e', EndpointText t e' ∧ e = wrap e' := by
  unfold parseEndpoint at h
  simp only at h
  have ht : t.takeWhile hostChar ++ t.dropWhile hostChar = t := List.takeWhile_append_dropWhile
  split at h
  · rename_i hne
    have hh : HostName (t.takeWhile hostChar) := ⟨hne, fun b hb => (hostChar_iff b).mp (takeWhile_all b hb)⟩
    split at h
    · rename_i p hp
      cases h
      obtain ⟨d, q, u, h1, h2, h3, h4, h5⟩ := portPart_back hp
      refine ⟨⟨t.takeWhile hostChar, some ⟨decimal d, u⟩⟩, ?_, by rw [h5]; rfl⟩
      have := EndpointText.both hh h2 h3 h4
      rw [List.append_assoc, List.append_assoc, ← List.append_assoc (str ":"), ← h1, ht] at this
      exact this
    · cases h
    · split at h
      · rename_i hr
        cases h
        rw [hr, List.append_nil] at ht
        refine ⟨⟨t.takeWhile hostChar, none⟩, ?_, rfl⟩
        rw [ht] at hh ⊢
        exact EndpointText.host hh
      · cases h
  · split at h
    · rename_i p hp
      cases h
      obtain ⟨d, q, u, h1, h2, h3, h4, h5⟩ := portPart_back hp
      refine ⟨⟨[], some ⟨decimal d, u⟩⟩, ?_, by rw [h5]; rfl⟩
      rw [h1]
      exact EndpointText.port h2 h3 h4
    · cases h

theorem toIds_get (x : Nat) : ∃ ids, toIds x = some ids ∧ ∀ i, ids.get? i = some true ↔ i = x := by
  obtain ⟨s, h1, h2⟩ := Bitmap.appendBits_rep (s := {}) (l := []) (Or.inl ⟨rfl, rfl⟩) false x
  obtain ⟨s', h3, h4⟩ := Bitmap.appendBit_rep h2 true
  refine ⟨s', ?_, fun i => ?_⟩
  · unfold toIds; rw [h1]; exact h3
  · obtain ⟨r1, -, -⟩ := Bitmap.bitRange_spec h4
    rw [Bitmap.EwahBitmap.get?, Bitmap.getGo_spec _ _ _ (Nat.zero_le _), r1]
    simp only [List.nil_append, Nat.sub_zero]
    rw [List.getElem?_append]
    simp only [List.length_replicate]
    by_cases hi : i < x
    · simp [hi]; omega
    · rw [if_neg hi]
      by_cases he : i = x
      · subst he; simp
      · have : i - x ≠ 0 := by omega
        rw [List.getElem?_eq_none (by simp; omega)]
        simp [he]

theorem answer_events {E : Type} (db : List (Nat × E)) (x : Nat) (ids : Bitmap.EwahBitmap) (h : ∀ i, ids.get? i = some true ↔ i = x) :
    answer db ids = events db x := by
  unfold answer events
  congr 1
  apply List.filter_congr
  intro p _
  rw [Bool.eq_iff_iff]
  simp [h]

theorem readId_text {t : Str} {i : Nat} (h : IdText t i) : readId t = some i := by
  obtain ⟨h1, h2, h3, h4⟩ := h
  have := uintP_run (bits := 64) (r := []) h1 h2 rfl
  rw [List.append_nil] at this
  unfold readId
  rw [this]
  simp only [h3, Option.some.injEq]
  exact Nat.mod_eq_of_lt h4

theorem getLoop_append {E : Type} (db : List (Nat × E)) (ts : List Str) (is : List Nat) (h : List.Forall₂ IdText ts is) (rest : List Str) :
    getLoop db (ts ++ rest) = (is.flatMap (events db) ++ (getLoop db rest).1, (getLoop db rest).2) := by
  induction h with
  | nil => simp
  | @cons t i ts is h1 h2 ih =>
    obtain ⟨ids, e1, e2⟩ := toIds_get i
    simp only [List.cons_append, getLoop, readId_text h1, e1, ih, answer_events db i ids e2, List.flatMap_cons, List.append_assoc]

end Verif.Client
