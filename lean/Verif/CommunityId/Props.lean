import Verif.CommunityId.Lemmas
/-!
# C77: Community IDs

The ID is the published one, opposite directions have the same ID, and different connections different ones.
-/
namespace Verif.CommunityId

open Verif.Sha1

/-- The specification determines the message. -/
theorem isMessage_unique (seed : UInt16) (x : Flow) {m1 m2 : List UInt8} (h1 : IsMessage seed x m1)
    (h2 : IsMessage seed x m2) : m1 = m2 := by
  have hq : ∀ {q q' : UInt16}, ((¬ IsIcmp x.proto ∧ q = x.dport) ∨
      (∃ t u, Counterparts x.proto t u ∧ x.sport = t.toUInt16 ∧ q = u.toUInt16)) →
      ((¬ IsIcmp x.proto ∧ q' = x.dport) ∨
      (∃ t u, Counterparts x.proto t u ∧ x.sport = t.toUInt16 ∧ q' = u.toUInt16)) → q = q' := by
    rintro q q' (⟨i, e⟩ | ⟨t, u, hc, e1, e2⟩) (⟨i', e'⟩ | ⟨t', u', hc', e1', e2'⟩)
    · rw [e, e']
    · exact absurd (counterparts_icmp hc') i
    · exact absurd (counterparts_icmp hc) i'
    · have ha := normalize_pair x hc e1
      have hb := normalize_pair x hc' e1'
      rw [ha] at hb
      rw [e2, e2']
      exact (Prod.mk.inj hb).1
  have hone : ∀ {q : UInt16} {t : UInt8}, ((¬ IsIcmp x.proto ∧ q = x.dport) ∨
      (∃ t u, Counterparts x.proto t u ∧ x.sport = t.toUInt16 ∧ q = u.toUInt16)) → IsIcmp x.proto →
      x.sport = t.toUInt16 → (∀ u, ¬ Counterparts x.proto t u) → False := by
    rintro q t (⟨i, e⟩ | ⟨t', u, hc, e1, e2⟩) hi ht hn
    · exact i hi
    · rw [ht] at e1
      have := toUInt16_inj e1
      subst this
      exact hn u hc
  cases h1 with
  | ordered q hq1 h1 =>
    cases h2 with
    | ordered q' hq2 h2 => rw [hq hq1 hq2]
    | exchanged q' hq2 h2 => rw [hq hq1 hq2] at h1; exact absurd h2 h1
    | oneWay hi t ht hn => exact (hone hq1 hi ht hn).elim
  | exchanged q hq1 h1 =>
    cases h2 with
    | ordered q' hq2 h2 => rw [hq hq1 hq2] at h1; exact absurd h1 h2
    | exchanged q' hq2 h2 => rw [hq hq1 hq2]
    | oneWay hi t ht hn => exact (hone hq1 hi ht hn).elim
  | oneWay hi t ht hn =>
    cases h2 with
    | ordered q' hq2 h2 => exact (hone hq2 hi ht hn).elim
    | exchanged q' hq2 h2 => exact (hone hq2 hi ht hn).elim
    | oneWay => rfl

/-- The ID of every flow is the text `1:` followed by the Base64 encoding of the SHA-1 digest of the message the
specification prescribes.  (An ICMP type is a byte.) -/
theorem C77_spec (junk : List UInt8) (hj : junk.length = 64) (seed : UInt16) (x : Flow)
    (h : IsIcmp x.proto → x.sport.toNat < 256) :
    ∃ m enc, IsMessage seed x m ∧ Base64.encode (sha1 m) = some enc ∧ computeBase64 junk x seed = [49, 58] ++ enc := by
  obtain ⟨enc, he, _⟩ := Base64.C45_length (sha1 (netOrder seed :: hashAppend x).flatten)
  refine ⟨_, enc, isMessage seed x h, he, ?_⟩
  have : enc = Base64.encodeBytes (sha1 (netOrder seed :: hashAppend x).flatten) := by
    simp only [Base64.encode] at he
    split at he
    · exact (Option.some.inj he).symm
    · cases he
  rw [computeBase64, C76_sha1 junk hj, this]

theorem nibbles : ∀ n : Fin 256, ((UInt8.ofNat n.val >>> 4) &&& 0x0f).toNat = n.val / 16 ∧
    (UInt8.ofNat n.val &&& 0x0f).toNat = n.val % 16 := by decide +kernel

/-- The same with the digest in hexadecimal digits: those of 16ths and units of every byte. -/
theorem C77_spec_hex (junk : List UInt8) (hj : junk.length = 64) (seed : UInt16) (x : Flow)
    (h : IsIcmp x.proto → x.sport.toNat < 256) :
    ∃ m, IsMessage seed x m ∧ computeAscii junk x seed = [49, 58] ++
      (sha1 m).flatMap fun b => [hexDigits.getD (b.toNat / 16) 0, hexDigits.getD (b.toNat % 16) 0] := by
  refine ⟨_, isMessage seed x h, ?_⟩
  rw [computeAscii, C76_sha1 junk hj, hexify]
  congr 2
  funext b
  have := nibbles ⟨b.toNat, b.toNat_lt⟩
  simp only [UInt8.ofNat_toNat] at this
  rw [this.1, this.2]

/-- Both directions of a connection have the same ID, and so have the messages of an ICMP request/reply pair. -/
theorem C77_opposite (junk : List UInt8) (hj : junk.length = 64) (seed : UInt16) (x y : Flow) (h : Opposite x y) :
    computeBase64 junk x seed = computeBase64 junk y seed ∧ computeAscii junk x seed = computeAscii junk y seed := by
  simp only [computeBase64, computeAscii, C76_sha1 junk hj, opposite_message seed x y h, and_self]

/-- The mapping of ICMP types is symmetric. -/
theorem C77_dual (t u : UInt8) : (dualIcmp t = some u ↔ dualIcmp u = some t) ∧ (dualIcmp6 t = some u ↔ dualIcmp6 u = some t) := by
  rw [dualIcmp_iff, dualIcmp_iff, dualIcmp6_iff, dualIcmp6_iff]
  exact ⟨or_comm, or_comm⟩

theorem flow_ext {x y : Flow} (h1 : x.src = y.src) (h2 : x.dst = y.dst) (h3 : x.sport = y.sport) (h4 : x.dport = y.dport)
    (h5 : x.proto = y.proto) : x = y := by
  cases x; cases y; simp at *; exact ⟨h1, h2, h3, h4, h5⟩

/-- Two flows between ports with the same ID are the same flow, or its two directions, or SHA-1 collides on their
messages.  Hypothesis: the two addresses of a flow are of the same family. -/
theorem C77_distinct_partial (junk : List UInt8) (hj : junk.length = 64) (s1 s2 : UInt16) (x y : Flow)
    (hx : ¬ IsIcmp x.proto) (hy : ¬ IsIcmp y.proto) (fx : x.src.isV4 = x.dst.isV4) (fy : y.src.isV4 = y.dst.isV4)
    (h : computeBase64 junk x s1 = computeBase64 junk y s2) :
    (s1 = s2 ∧ (y = x ∨ y = x.reverse)) ∨
    ∃ m1 m2, IsMessage s1 x m1 ∧ IsMessage s2 y m2 ∧ m1 ≠ m2 ∧ sha1 m1 = sha1 m2 := by
  simp only [computeBase64, C76_sha1 junk hj] at h
  have h' := List.append_cancel_left h
  have hd : sha1 (netOrder s1 :: hashAppend x).flatten = sha1 (netOrder s2 :: hashAppend y).flatten := by
    rw [← Base64.decode_encodeBytes (sha1 (netOrder s1 :: hashAppend x).flatten), h', Base64.decode_encodeBytes]
  by_cases hm : (netOrder s1 :: hashAppend x).flatten = (netOrder s2 :: hashAppend y).flatten
  · left
    rw [hashAppend_two s1 x _ (normalize_other x hx), hashAppend_two s2 y _ (normalize_other y hy)] at hm
    split at hm <;> split at hm
    · obtain ⟨a1, a2, a3, a4, a5, a6⟩ := message_inj _ _ _ _ _ _ _ _ _ _ _ _ fx fy hm
      exact ⟨a1, .inl (flow_ext a3.symm a4.symm a5.symm a6.symm a2.symm)⟩
    · obtain ⟨a1, a2, a3, a4, a5, a6⟩ := message_inj _ _ _ _ _ _ _ _ _ _ _ _ fx fy.symm hm
      exact ⟨a1, .inr (flow_ext a4.symm a3.symm a6.symm a5.symm a2.symm)⟩
    · obtain ⟨a1, a2, a3, a4, a5, a6⟩ := message_inj _ _ _ _ _ _ _ _ _ _ _ _ fx.symm fy hm
      exact ⟨a1, .inr (flow_ext a3.symm a4.symm a5.symm a6.symm a2.symm)⟩
    · obtain ⟨a1, a2, a3, a4, a5, a6⟩ := message_inj _ _ _ _ _ _ _ _ _ _ _ _ fx.symm fy.symm hm
      exact ⟨a1, .inl (flow_ext a4.symm a3.symm a6.symm a5.symm a2.symm)⟩
  · right
    have i : ∀ (z : Flow), ¬ IsIcmp z.proto → IsIcmp z.proto → z.sport.toNat < 256 := fun _ a b => absurd b a
    exact ⟨_, _, isMessage s1 x (i x hx), isMessage s2 y (i y hy), hm, hd⟩

/-- An address from its bytes. -/
def addr4 (a b c d : UInt8) : Addr := ⟨v4Prefix ++ [a, b, c, d], rfl⟩

/-- The flow of the example in the specification, and its ID: TCP from 128.232.110.120:34855 to
66.35.250.204:80. -/
def demoFlow : Flow := ⟨addr4 128 232 110 120, addr4 66 35 250 204, 34855, 80, 6⟩

/-- `1:LQU9qZlK+B5F3KDmev6m5PMibrg=`. -/
example : computeBase64 (List.replicate 64 7) demoFlow 0 =
    [49, 58, 76, 81, 85, 57, 113, 90, 108, 75, 43, 66, 53, 70, 51, 75, 68, 109, 101, 118, 54, 109, 53, 80, 77, 105, 98, 114,
      103, 61] := by
  decide +kernel

/-- The example meets the hypotheses, and so does its reverse. -/
example : ¬ IsIcmp demoFlow.proto ∧ demoFlow.src.isV4 = demoFlow.dst.isV4 ∧ Opposite demoFlow demoFlow.reverse := by
  have h : ¬ IsIcmp demoFlow.proto := by simp [IsIcmp, demoFlow]
  exact ⟨h, by decide, rfl, rfl, rfl, .inl ⟨h, rfl, rfl⟩⟩

/-- An echo request and its reply. -/
example : Opposite ⟨addr4 1 2 3 4, addr4 5 6 7 8, 8, 0, 1⟩ ⟨addr4 5 6 7 8, addr4 1 2 3 4, 0, 0, 1⟩ :=
  ⟨rfl, rfl, rfl, .inr ⟨8, 0, .inl ⟨rfl, by decide⟩, rfl, rfl⟩⟩

/-- Flows with addresses of both families: two different connections have the same ID. -/
theorem C77_family_refuted : ∃ x y : Flow, x.proto = 6 ∧ y.proto = 6 ∧ y ≠ x ∧ y ≠ x.reverse ∧
    ∀ junk seed, junk.length = 64 → computeBase64 junk x seed = computeBase64 junk y seed := by
  let x : Flow := ⟨addr4 0 0 0 0, ⟨[0, 0, 0, 0, 0, 0, 1, 0, 0, 0, 0, 0, 1, 2, 3, 4], rfl⟩, 10, 20, 6⟩
  let y : Flow := ⟨⟨[0, 0, 0, 0, 0, 0, 0, 0, 0, 0, 1, 0, 0, 0, 0, 0], rfl⟩, addr4 1 2 3 4, 10, 20, 6⟩
  refine ⟨x, y, rfl, rfl, ?_, ?_, ?_⟩
  · intro h
    have := congrArg (fun f : Flow => f.src.bytes) h
    revert this
    decide
  · intro h
    have := congrArg (fun f : Flow => f.src.bytes) h
    revert this
    decide
  · intro junk seed hj
    have hf : (hashAppend x).flatten = (hashAppend y).flatten := by decide
    rw [computeBase64, computeBase64, C76_chunks junk junk hj hj _ (netOrder seed :: hashAppend y)
      (by simp only [List.flatten_cons, hf])]

end Verif.CommunityId
