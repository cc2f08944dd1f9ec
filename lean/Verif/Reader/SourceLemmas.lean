import Verif.Reader.Loop
import Verif.Reader.Source
/-! Helper lemmas about inputs that never stall, and about the source. -/
namespace Verif.Reader

variable {L R : Type} [DecidableEq L]

/-- The input does not stall. -/
def NoStall (a : List Arr) : Prop := ∀ x ∈ a, x ≠ Arr.timeout

theorem crOk_of_noStall {a : List Arr} (h : NoStall a) : CrOk a := by
  induction a with
  | nil => trivial
  | cons x r ih =>
    cases x with
    | timeout => exact absurd rfl (h .timeout (by simp))
    | byte c =>
      refine ⟨fun _ r' e => ?_, ih fun y hy => h y (by simp [hy])⟩
      subst e
      exact absurd rfl (h .timeout (by simp))

theorem absorbLoop_noStall (a : List Arr) : ∀ n line, NoStall a →
    (absorbLoop n line a).1.timeoutFail = false ∧ NoStall (absorbLoop n line a).1.arrivals := by
  induction a with
  | nil => intro n line h; exact ⟨rfl, h⟩
  | cons x r ih =>
    intro n line h
    have hr : NoStall r := fun y hy => h y (by simp [hy])
    cases x with
    | timeout => exact absurd rfl (h .timeout (by simp))
    | byte c =>
      by_cases h10 : c = 10
      · simp [absorbLoop, h10, hr]
      · by_cases h13 : c = 13
        · subst h13
          cases r with
          | nil => exact ⟨rfl, hr⟩
          | cons y r' =>
            cases y with
            | timeout => exact absurd rfl (h .timeout (by simp))
            | byte d =>
              have : NoStall r' := fun y hy => hr y (by simp [hy])
              by_cases hd : d = 10 <;> simp [absorbLoop, hd, hr, this]
        · simpa [absorbLoop, h10, h13] using ih (n + 1) (line ++ [c]) hr

theorem nextLoop_noStall : ∀ (f : Nat) (s : Stream) line k, NoStall s.arrivals → s.timeoutFail = false →
    (nextLoop f s line k).1.timeoutFail = false ∧ NoStall (nextLoop f s line k).1.arrivals := by
  intro f
  induction f with
  | zero => intro s line k h ht; exact ⟨ht, h⟩
  | succ f ih =>
    intro s line k h ht
    have hab : (absorb s line).1.timeoutFail = false ∧ NoStall (absorb s line).1.arrivals := by
      simp only [absorb]
      split
      · exact ⟨ht, h⟩
      · exact absorbLoop_noStall _ _ _ h
    simp only [nextLoop]
    split
    · exact hab
    · split
      · exact ih _ _ _ hab.2 hab.1
      · exact hab

/-- What holds of a `line_range` on an input that never stalls. -/
def Quiet (r : LineRange) : Prop := NoStall r.input.arrivals ∧ r.input.timeoutFail = false

theorem nextTimeout_quiet (r : LineRange) (h : Quiet r) : (nextTimeout r).1 = false ∧ Quiet (nextTimeout r).2 := by
  obtain ⟨h1, h2⟩ := h
  have main : ∀ q : LineRange, q.input = r.input →
      (nextImpl q).input.timeoutFail = false ∧ NoStall (nextImpl q).input.arrivals := by
    intro q hq
    simp only [nextImpl]
    split
    · rw [hq]; exact ⟨h2, h1⟩
    · rw [hq]; exact nextLoop_noStall _ _ _ _ h1 h2
  have := main (if r.timedOut then r else { r with line := [] }) (by split <;> rfl)
  simp [nextTimeout, this.1, Quiet, this.2]

theorem loop_quiet (classify : List UInt8 → Parsed L R) {m : Nat} {onEvent : State L R → L → R → State L R}
    (ht : Takes m onEvent) (maxEvents : Nat) (clock : Nat → Bool) (hm : 0 < m) :
    ∀ (f i produced : Nat) (s : State L R), BInv m s → Quiet s.lines →
    (loop classify onEvent maxEvents clock f i produced s).2 ≠ .stalled ∧
    Quiet (loop classify onEvent maxEvents clock f i produced s).1.lines := by
  have hfin : ∀ s : State L R, BInv m s → (finishAll s).lines = s.lines := fun s hb =>
    (finishAll_spec s m hb.nodup (fun k => Nat.le_of_lt (hb.room k)) hb.size).1
  intro f
  induction f with
  | zero => intro i produced s _ hq; exact ⟨by simp [loop], hq⟩
  | succ f ih =>
    intro i produced s hb hq
    obtain ⟨n1, n2⟩ := nextTimeout_quiet s.lines hq
    have hb1 : BInv m { s with lines := (nextTimeout s.lines).2 } := ⟨hb.nodup, hb.room, hb.size, hb.batch⟩
    simp only [loop]
    split
    · split
      · exact ⟨by simp, by rw [hfin s hb]; exact hq⟩
      · split
        · exact ⟨by simp, by rw [hfin s hb]; exact hq⟩
        · simp only [n1, Bool.false_eq_true, ↓reduceIte]
          split
          · exact ih _ _ _ hb1 n2
          · split
            · exact ih _ _ _ (ht.binv _ _ _ hb1) (by rw [ht.lines _ _ _ hb1]; exact n2)
            · exact ih _ _ _ hb1 n2
            · exact ⟨by simp, by rw [hfin _ hb1]; exact n2⟩
    · exact ⟨by simp, by rw [hfin s hb]; exact hq⟩

theorem loop_error (classify : List UInt8 → Parsed L R) (hf : ∀ x, classify x ≠ .fatal)
    {onEvent : State L R → L → R → State L R} (maxEvents : Nat) (clock : Nat → Bool) :
    ∀ (f i produced : Nat) (s : State L R), (loop classify onEvent maxEvents clock f i produced s).2 ≠ .error := by
  intro f
  induction f with
  | zero => intro i produced s; simp [loop]
  | succ f ih =>
    intro i produced s
    simp only [loop]
    split
    · split
      · simp
      · split
        · simp
        · split
          · simp
          · split
            · exact ih _ _ _
            · split
              · exact ih _ _ _
              · exact ih _ _ _
              · rename_i h; exact absurd h (hf _)
    · simp

/-- The frames a list of slices turns into. -/
def forwarded (cfg : Cfg L R) (out : List (Slice L R)) : List (Frame L R) := out.flatMap (push cfg)

omit [DecidableEq L] in
theorem slicesOf_append (a b : List (Frame L R)) : slicesOf (a ++ b) = slicesOf a ++ slicesOf b := by
  simp [slicesOf]

omit [DecidableEq L] in
theorem eofs_append (a b : List (Frame L R)) : eofs (a ++ b) = eofs a + eofs b := by simp [eofs]

theorem slicesOf_forwarded (cfg : Cfg L R) (out : List (Slice L R)) (k : L) :
    rowsIn k (slicesOf (forwarded cfg out)) = (rowsIn k out).filter (cfg.keep k) := by
  induction out with
  | nil => rfl
  | cons x r ih =>
    obtain ⟨l, rows⟩ := x
    have e : forwarded cfg ((l, rows) :: r) = push cfg (l, rows) ++ forwarded cfg r := by simp [forwarded]
    have e2 : rowsIn k ((l, rows) :: r) = (if l = k then rows else []) ++ rowsIn k r := by simp [rowsIn]
    rw [e, slicesOf_append, rowsIn_append, ih, e2, List.filter_append]
    congr 1
    by_cases hk : l = k
    · subst hk
      by_cases hr : rows.filter (cfg.keep l) = []
      · simp [push, hr, slicesOf, rowsIn]
      · simp [push, hr, slicesOf, rowsIn]
    · by_cases hr : rows.filter (cfg.keep l) = []
      · simp [push, hr, slicesOf, rowsIn, hk]
      · simp [push, hr, slicesOf, rowsIn, hk]

theorem eofs_forwarded (cfg : Cfg L R) (out : List (Slice L R)) : eofs (forwarded cfg out) = 0 := by
  induction out with
  | nil => rfl
  | cons x r ih =>
    have e : forwarded cfg (x :: r) = push cfg x ++ forwarded cfg r := by simp [forwarded]
    rw [e, eofs_append, ih]
    simp only [push]
    split <;> simp [eofs]

theorem total_forwarded (cfg : Cfg L R) (out : List (Slice L R)) : total (slicesOf (forwarded cfg out)) ≤ total out := by
  induction out with
  | nil => simp [forwarded, slicesOf, total]
  | cons x r ih =>
    have e : forwarded cfg (x :: r) = push cfg x ++ forwarded cfg r := by simp [forwarded]
    have e2 : total (x :: r) = x.2.length + total r := by simp [total]
    rw [e, slicesOf_append, total_append, e2]
    have : total (slicesOf (push cfg x)) ≤ x.2.length := by
      simp only [push]
      split
      · simp [slicesOf, total]
      · simpa [slicesOf, total] using List.length_filter_le _ _
    omega

/-- What holds of a source. -/
structure SInv (cfg : Cfg L R) (a : List Arr) (s : Src L R) : Prop where
  lines : Inv s.reader.lines
  binv : BInv cfg.sliceSize s.reader
  count : s.count = total s.reader.out
  account : ∀ k, account cfg.classify k s.reader = eventsIn cfg.classify k (linesOf (bytes a))
  sent : s.sent = forwarded cfg s.reader.out ++ (if s.quit then [.eof] else [])
  below : s.quit = false → s.abort = false → ∀ q, cfg.requested = some q → s.count < q ∨ q = 0

theorem sinv_init (cfg : Cfg L R) (a : List Arr) (h : CrOk a) (hm : 0 < cfg.sliceSize) :
    SInv cfg a (.init a) := by
  refine ⟨init_inv a h, init_binv hm a, by simp [Src.init, State.init, total], init_account cfg.classify a, rfl, ?_⟩
  intro _ _ q _
  simp only [Src.init]
  omega

/-- A run of the handler that does not abort. -/
theorem run_spec (cfg : Cfg L R) (a : List Arr) (hm : 0 < cfg.sliceSize) (num : Nat) (clock : Nat → Bool)
    (s : Src L R) (h : SInv cfg a s) (hq : s.quit = false) :
    SInv cfg a (run cfg num clock s) ∧
    (budget cfg s num ≠ 0 →
      (run cfg num clock s).reader = (readImpl cfg.classify (jsonEvent cfg.sliceSize) (budget cfg s num) clock s.reader).1 ∧
      (run cfg num clock s).abort = s.abort ∧
      ((run cfg num clock s).quit = true →
        (∃ q, cfg.requested = some q ∧ q ≤ (run cfg num clock s).count) ∨
        (readImpl cfg.classify (jsonEvent cfg.sliceSize) (budget cfg s num) clock s.reader).2 = .endOfInput ∨
        (readImpl cfg.classify (jsonEvent cfg.sliceSize) (budget cfg s num) clock s.reader).2 = .error)) := by
  by_cases hb : budget cfg s num = 0
  · have e : run cfg num clock s = { s with abort := true } := by simp [run, hb]
    rw [e]
    exact ⟨⟨h.lines, h.binv, h.count, h.account, h.sent, by simp⟩, fun c => absurd hb c⟩
  · obtain ⟨A, A'⟩ := readImpl_spec hm cfg.classify (json_takes hm) (budget cfg s num) clock s.reader h.lines h.binv
    obtain ⟨w, hw⟩ := A.grows
    simp only [run, hb, ↓reduceIte]
    generalize readImpl cfg.classify (jsonEvent cfg.sliceSize) (budget cfg s num) clock s.reader = p at *
    obtain ⟨r, res⟩ := p
    simp only at *
    have hdrop : r.out.drop s.reader.out.length = w := by rw [← hw]; simp
    have hcount : s.count + total w = total r.out := by rw [← hw, total_append, h.count]
    have hsent : s.sent ++ w.flatMap (push cfg) = forwarded cfg r.out := by
      rw [h.sent, hq, ← hw]; simp [forwarded]
    rw [hdrop]
    rw [hcount, hsent]
    have hacc : ∀ k, account cfg.classify k r = eventsIn cfg.classify k (linesOf (bytes a)) :=
      fun k => (A.account k).trans (h.account k)
    by_cases hany : (cfg.requested.any fun q => decide (total r.out ≥ q)) = true
    · simp only [hany, ↓reduceIte]
      refine ⟨⟨A.lines, A.binv, rfl, hacc, by simp [Src.finish], by simp [Src.finish]⟩, fun _ => ⟨rfl, rfl, fun _ => .inl ?_⟩⟩
      cases hr : cfg.requested with
      | none => simp [hr] at hany
      | some q => simp only [hr, Option.any_some, decide_eq_true_eq] at hany; exact ⟨q, rfl, hany⟩
    · have hlt : ∀ q, cfg.requested = some q → total r.out < q := by
        intro q hq'
        simp only [hq', Option.any_some, decide_eq_true_eq] at hany
        omega
      simp only [hany, Bool.false_eq_true, ↓reduceIte]
      cases res with
      | running => exact absurd rfl A'
      | ok =>
        exact ⟨⟨A.lines, A.binv, rfl, hacc, by simp [hq], fun _ _ q hq' => .inl (hlt q hq')⟩,
          fun _ => ⟨rfl, rfl, fun c => absurd c (by simp [hq])⟩⟩
      | timeout =>
        exact ⟨⟨A.lines, A.binv, rfl, hacc, by simp [hq], fun _ _ q hq' => .inl (hlt q hq')⟩,
          fun _ => ⟨rfl, rfl, fun c => absurd c (by simp [hq])⟩⟩
      | stalled =>
        exact ⟨⟨A.lines, A.binv, rfl, hacc, by simp [hq], fun _ _ q hq' => .inl (hlt q hq')⟩,
          fun _ => ⟨rfl, rfl, fun c => absurd c (by simp [hq])⟩⟩
      | endOfInput =>
        exact ⟨⟨A.lines, A.binv, rfl, hacc, by simp [Src.finish], by simp [Src.finish]⟩,
          fun _ => ⟨rfl, rfl, fun _ => .inr (.inl rfl)⟩⟩
      | error =>
        exact ⟨⟨A.lines, A.binv, rfl, hacc, by simp [Src.finish], by simp [Src.finish]⟩,
          fun _ => ⟨rfl, rfl, fun _ => .inr (.inr rfl)⟩⟩

theorem step_sinv (cfg : Cfg L R) (a : List Arr) (hm : 0 < cfg.sliceSize) (m : Msg) (s : Src L R) (h : SInv cfg a s) :
    SInv cfg a (step cfg s m) := by
  simp only [step]
  by_cases hq : s.quit = true
  · simpa [hq] using h
  · have hq' : s.quit = false := by simpa using hq
    by_cases ha : s.abort = true
    · simpa [ha] using h
    · simp only [hq', ha, Bool.false_or, Bool.false_eq_true, ↓reduceIte]
      cases m with
      | run num clock => exact (run_spec cfg a hm num clock s h hq').1
      | exit =>
        refine ⟨h.lines, h.binv, h.count, h.account, ?_, by simp [Src.finish]⟩
        simp [Src.finish, h.sent, hq']

theorem history_append (cfg : Cfg L R) (a : List Arr) (ms : List Msg) (m : Msg) :
    history cfg a (ms ++ [m]) = step cfg (history cfg a ms) m := by simp [history]

theorem history_sinv (cfg : Cfg L R) (a : List Arr) (h : CrOk a) (hm : 0 < cfg.sliceSize) (ms : List Msg) :
    SInv cfg a (history cfg a ms) := by
  have : ∀ (ms : List Msg) (s : Src L R), SInv cfg a s → SInv cfg a (ms.foldl (step cfg) s) := by
    intro ms
    induction ms with
    | nil => exact fun _ h => h
    | cons m ms ih => exact fun s hs => ih _ (step_sinv cfg a hm m s hs)
  exact this ms _ (sinv_init cfg a h hm)

end Verif.Reader
