import Verif.Reader.Lemmas
/-! Helper lemmas about `readImpl` and sequences of calls. -/
namespace Verif.Reader

variable {L R : Type} [DecidableEq L]

/-- Everything a layout has had, has, and will have. -/
def account (classify : List UInt8 → Parsed L R) (k : L) (s : State L R) : List R :=
  rowsIn k s.out ++ rowsOf s.builders k ++ eventsIn classify k (pending s.lines)

theorem eventsIn_append (classify : List UInt8 → Parsed L R) (k : L) (a b : List (List UInt8)) :
    eventsIn classify k (a ++ b) = eventsIn classify k a ++ eventsIn classify k b := by
  simp [eventsIn]

omit [DecidableEq L] in
theorem eventCount_append (classify : List UInt8 → Parsed L R) (a b : List (List UInt8)) :
    eventCount classify (a ++ b) = eventCount classify a + eventCount classify b := by
  simp [eventCount]

/-- What a call of `loop` establishes. -/
structure After (m : Nat) (classify : List UInt8 → Parsed L R) (lim : Nat) (s s' : State L R) (res : Res) : Prop where
  lines : Inv s'.lines
  binv : BInv m s'
  account : ∀ k, account classify k s' = account classify k s
  grows : s.out <+: s'.out
  limit : total s'.out + buffered s' ≤ total s.out + buffered s + lim
  ended : res = .endOfInput → s'.lines.done = true
  flushed : res ≠ .stalled → res ≠ .running → buffered s' = 0 ∧ ∀ k, rowsOf s'.builders k = []
  full : res = .ok → total s'.out + buffered s' = total s.out + buffered s + lim
  tally : total s'.out + buffered s' + eventCount classify (pending s'.lines) =
    total s.out + buffered s + eventCount classify (pending s.lines)

theorem After.trans {m : Nat} {classify : List UInt8 → Parsed L R} {l1 l2 : Nat} {s s1 s2 : State L R} {res : Res}
    (hl : Inv s1.lines → BInv m s1 → After m classify l2 s1 s2 res) (h1 : Inv s1.lines) (h2 : BInv m s1)
    (h3 : ∀ k, Reader.account classify k s1 = Reader.account classify k s) (h4 : s.out <+: s1.out)
    (h5 : total s1.out + buffered s1 + l2 = total s.out + buffered s + l1)
    (h6 : total s1.out + buffered s1 + eventCount classify (pending s1.lines) =
      total s.out + buffered s + eventCount classify (pending s.lines)) : After m classify l1 s s2 res := by
  have a := hl h1 h2
  refine ⟨a.lines, a.binv, fun k => (a.account k).trans (h3 k), h4.trans a.grows, ?_, a.ended, a.flushed, ?_, a.tally.trans h6⟩
  · have := a.limit; omega
  · intro h; have := a.full h; omega

theorem after_finishAll {m : Nat} (hm : 0 < m) (classify : List UInt8 → Parsed L R) (lim : Nat) (s : State L R)
    (hl : Inv s.lines) (hb : BInv m s) (res : Res) (hd : res = .endOfInput → s.lines.done = true)
    (hf : res = .ok → lim = 0) : After m classify lim s (finishAll s) res := by
  obtain ⟨a1, a2, a3, a4, a5, a6, _, a8, a9⟩ := finishAll_spec s m hb.nodup (fun k => Nat.le_of_lt (hb.room k)) hb.size
  refine ⟨by rw [a1]; exact hl, finishAll_binv hm hb, ?_, a8, by omega, by rw [a1]; exact hd, fun _ _ => ⟨a6, a5⟩, ?_, by rw [a1]; omega⟩
  · intro k
    simp only [account, a1, a2, a5]
    simp
  · intro h; have := hf h; omega

theorem loop_spec {m : Nat} (hm : 0 < m) (classify : List UInt8 → Parsed L R)
    {onEvent : State L R → L → R → State L R} (ht : Takes m onEvent) (maxEvents : Nat) (clock : Nat → Bool) :
    ∀ (f i produced : Nat) (s : State L R), produced ≤ maxEvents → Inv s.lines → BInv m s →
    After m classify (maxEvents - produced) s (loop classify onEvent maxEvents clock f i produced s).1
      (loop classify onEvent maxEvents clock f i produced s).2 ∧
    (measure s.lines < f → (loop classify onEvent maxEvents clock f i produced s).2 ≠ .running) := by
  intro f
  induction f with
  | zero =>
    intro i produced s _ hl hb
    refine ⟨⟨hl, hb, fun _ => rfl, List.prefix_refl _, by simp only [loop]; omega, ?_, ?_, ?_, rfl⟩, by omega⟩ <;> simp [loop]
  | succ f ih =>
    intro i produced s hp hl hb
    by_cases hlt : produced < maxEvents
    · by_cases hd : s.lines.done = true
      · simp only [loop, hlt, hd, ↓reduceIte]
        exact ⟨after_finishAll hm classify _ s hl hb _ (fun _ => hd) (by simp), by simp⟩
      · have hd' : s.lines.done = false := by simpa using hd
        by_cases hc : (decide (s.batch > 0) && clock i) = true
        · simp only [loop, hlt, hd', hc, ↓reduceIte, Bool.false_eq_true]
          exact ⟨after_finishAll hm classify _ s hl hb _ (by simp) (by simp), by simp⟩
        · obtain ⟨n1, n2, n3, n4⟩ := nextTimeout_spec s.lines hl hd'
          simp only [loop, hlt, hd', hc, ↓reduceIte, Bool.false_eq_true]
          generalize nextTimeout s.lines = q at *
          obtain ⟨t, r⟩ := q
          simp only at *
          have hb1 : BInv m { s with lines := r } := ⟨hb.nodup, hb.room, hb.size, hb.batch⟩
          cases t with
          | true =>
            simp only [↓reduceIte] at n4 ⊢
            refine ⟨⟨n1, hb1, ?_, List.prefix_refl _, by simp only [buffered]; omega, ?_, ?_, ?_, by simp only [n4, buffered]⟩, ?_⟩
            · intro k; simp only [account, n4]
            all_goals simp
          | false =>
            simp only [↓reduceIte, Bool.false_eq_true] at n4 ⊢
            by_cases he : r.line = []
            · simp only [he, List.isEmpty_nil, ↓reduceIte]
              rw [he, nonEmpty_nil, List.nil_append] at n4
              obtain ⟨i1, i2⟩ := ih (i + 1) produced { s with lines := r } hp n1 hb1
              refine ⟨After.trans (fun _ _ => i1) n1 hb1 ?_ (List.prefix_refl _) rfl (by simp only [n4, buffered]), fun h => i2 (by simp only; omega)⟩
              intro k; simp only [account, n4]
            · have he' : r.line.isEmpty = false := by simpa using he
              simp only [he', ↓reduceIte, Bool.false_eq_true]
              rw [nonEmpty_ne he] at n4
              cases hcl : classify r.line with
              | event l x =>
                simp only
                have hev : ∀ k, eventsIn classify k [r.line] = if k = l then [x] else [] := by
                  intro k
                  by_cases hk : l = k
                  · simp [eventsIn, hcl, hk]
                  · simp [eventsIn, hcl, hk, Ne.symm hk]
                have e1 := ht.lines { s with lines := r } l x hb1
                have e2 := ht.binv { s with lines := r } l x hb1
                have e3 := ht.rows { s with lines := r } l x hb1
                have e4 := ht.count { s with lines := r } l x hb1
                have e5 := ht.grows { s with lines := r } l x hb1
                obtain ⟨i1, i2⟩ := ih (i + 1) (produced + 1) (onEvent { s with lines := r } l x) (by omega)
                  (by rw [e1]; exact n1) e2
                refine ⟨After.trans (fun _ _ => i1) (by rw [e1]; exact n1) e2 ?_ e5 ?_ ?_, fun h => i2 ?_⟩
                · intro k
                  simp only [account, e3, e1, n4, eventsIn_append, hev]
                  simp [List.append_assoc]
                · rw [e4]
                  show total s.out + buffered s + 1 + _ = _
                  omega
                · rw [e4, e1, n4, eventCount_append]
                  have : eventCount classify [r.line] = 1 := by simp [eventCount, hcl]
                  show total s.out + buffered s + 1 + eventCount classify (pending r) = _
                  omega
                · rw [e1]; simp only; omega
              | invalid =>
                simp only
                have hev : ∀ k, eventsIn classify k [r.line] = [] := by intro k; simp [eventsIn, hcl]
                have hct : eventCount classify [r.line] = 0 := by simp [eventCount, hcl]
                obtain ⟨i1, i2⟩ := ih (i + 1) produced { s with lines := r } hp n1 hb1
                refine ⟨After.trans (fun _ _ => i1) n1 hb1 ?_ (List.prefix_refl _) rfl (by simp only [n4, eventCount_append, hct, buffered]; omega), fun h => i2 (by simp only; omega)⟩
                intro k; simp only [account, n4, eventsIn_append, hev, List.nil_append]
              | fatal =>
                simp only
                have hev : ∀ k, eventsIn classify k [r.line] = [] := by intro k; simp [eventsIn, hcl]
                have hct : eventCount classify [r.line] = 0 := by simp [eventCount, hcl]
                refine ⟨After.trans (fun _ _ => after_finishAll hm classify _ { s with lines := r } n1 hb1 _ (by simp) (by simp)) n1 hb1 ?_ (List.prefix_refl _) rfl (by simp only [n4, eventCount_append, hct, buffered]; omega), by simp⟩
                intro k; simp only [account, n4, eventsIn_append, hev, List.nil_append]
    · simp only [loop, hlt, ↓reduceIte]
      exact ⟨after_finishAll hm classify _ s hl hb _ (by simp) (fun _ => by omega), by simp⟩

theorem measure_le (r : LineRange) : measure r ≤ r.input.arrivals.length + 2 := by
  simp only [measure]; split
  · split <;> omega
  · omega

theorem readImpl_spec {m : Nat} (hm : 0 < m) (classify : List UInt8 → Parsed L R)
    {onEvent : State L R → L → R → State L R} (ht : Takes m onEvent) (maxEvents : Nat) (clock : Nat → Bool)
    (s : State L R) (hl : Inv s.lines) (hb : BInv m s) :
    After m classify maxEvents s (readImpl classify onEvent maxEvents clock s).1
      (readImpl classify onEvent maxEvents clock s).2 ∧
    (readImpl classify onEvent maxEvents clock s).2 ≠ .running := by
  obtain ⟨h1, h2⟩ := loop_spec hm classify ht maxEvents clock (s.lines.input.arrivals.length + 4) 0 0 s (by omega) hl hb
  have := measure_le s.lines
  exact ⟨h1, h2 (by omega)⟩

theorem init_inv (a : List Arr) (h : CrOk a) : Inv (State.init (L := L) (R := R) a).lines := inv_init a h

theorem init_binv {m : Nat} (hm : 0 < m) (a : List Arr) : BInv m (State.init (L := L) (R := R) a) :=
  ⟨by simp [State.init], fun k => by simpa [State.init, rowsOf] using hm, by simp [State.init], by simp [State.init, buffered]⟩

theorem init_account (classify : List UInt8 → Parsed L R) (a : List Arr) (k : L) :
    account classify k (.init a) = eventsIn classify k (linesOf (bytes a)) := by
  simp [account, State.init, rowsIn, rowsOf, pending_init]

theorem calls_spec {m : Nat} (hm : 0 < m) (classify : List UInt8 → Parsed L R)
    {onEvent : State L R → L → R → State L R} (ht : Takes m onEvent) :
    ∀ (cs : List Call) (q : State L R × Res), Inv q.1.lines → BInv m q.1 →
    Inv (calls classify onEvent cs q).1.lines ∧ BInv m (calls classify onEvent cs q).1 ∧
    (∀ k, account classify k (calls classify onEvent cs q).1 = account classify k q.1) ∧
    (cs ≠ [] → ((calls classify onEvent cs q).2 = .endOfInput → (calls classify onEvent cs q).1.lines.done = true) ∧
      ((calls classify onEvent cs q).2 ≠ .running) ∧
      ((calls classify onEvent cs q).2 ≠ .stalled → ∀ k, rowsOf (calls classify onEvent cs q).1.builders k = [])) := by
  intro cs
  induction cs with
  | nil => intro q hl hb; exact ⟨hl, hb, fun _ => rfl, fun h => absurd rfl h⟩
  | cons c cs ih =>
    intro q hl hb
    obtain ⟨a, a'⟩ := readImpl_spec hm classify ht c.maxEvents c.clock q.1 hl hb
    obtain ⟨b1, b2, b3, b4⟩ := ih (readImpl classify onEvent c.maxEvents c.clock q.1) a.lines a.binv
    refine ⟨b1, b2, fun k => (b3 k).trans (a.account k), fun _ => ?_⟩
    by_cases hc : cs = []
    · subst hc
      exact ⟨a.ended, a', fun h k => (a.flushed h a').2 k⟩
    · exact b4 hc

end Verif.Reader
