import Verif.Logging.Spec
namespace Verif.Logging
open Spec

theorem level?_names (s : List Char) (v : Level) : level? s = some v ↔ Names s v := by
  unfold level? Names
  dsimp only
  constructor
  · intro h
    repeat' (split at h; (rename_i e; cases h; exact ⟨by decide, e⟩))
    cases h
  · rintro ⟨h1, h2⟩
    rw [h2]
    cases v <;> first | exact absurd rfl h1 | decide

theorem pick_some {t : Option (List Char)} {d v : Level} (h : pick t d = some v) :
    (t = none ∧ v = d) ∨ ∃ s, t = some s ∧ Names s v := by
  cases t with
  | none => left; simp [pick] at h; exact ⟨rfl, h.symm⟩
  | some s => right; exact ⟨s, rfl, (level?_names s v).mp h⟩

/-- What `setup` has found. -/
theorem setup_some {o : Options} {l : Logger} (h : setup o = some l) :
    ∃ c f, ConsoleVerbosity o c ∧ FileVerbosity o f ∧ c ≠ .critical ∧ f ≠ .critical ∧
      l = ⟨(if f.toNat < c.toNat then c else f).toSpd, c.toSpd, (fileName o f).map (·, f.toSpd)⟩ := by
  unfold setup at h
  simp only [Option.bind_eq_bind, Option.bind_eq_some_iff, Option.pure_def, Option.some.injEq] at h
  obtain ⟨c0, h0, c, h1, f, h2, rfl⟩ := h
  refine ⟨c, f, ?_, ?_, ?_, ?_, rfl⟩
  · unfold ConsoleVerbosity
    rcases pick_some h1 with ⟨e, rfl⟩ | ⟨s, e, hn⟩
    · rcases pick_some h0 with ⟨e', rfl⟩ | ⟨s, e', hn⟩
      · rw [e, e']
      · rw [e, e']; exact hn
    · rw [e]; exact hn
  · unfold FileVerbosity
    rcases pick_some h2 with ⟨e, rfl⟩ | ⟨s, e, hn⟩
    · rw [e]
    · rw [e]; exact hn
  · rcases pick_some h1 with ⟨e, rfl⟩ | ⟨s, e, hn⟩
    · rcases pick_some h0 with ⟨e', rfl⟩ | ⟨s, e', hn⟩
      · decide
      · exact hn.1
    · exact hn.1
  · rcases pick_some h2 with ⟨e, rfl⟩ | ⟨s, e, hn⟩
    · decide
    · exact hn.1

theorem names_unique {s : List Char} {v w : Level} (h : Names s v) (h' : Names s w) : v = w := by
  have a := (level?_names s v).mpr h
  have b := (level?_names s w).mpr h'
  rw [a] at b
  exact Option.some.inj b

theorem console_unique {o : Options} {v w : Level} (h : ConsoleVerbosity o v) (h' : ConsoleVerbosity o w) : v = w := by
  unfold ConsoleVerbosity at h h'
  split at h
  · rename_i s _ e; rw [e] at h'; exact names_unique h h'
  · rename_i s e e'; rw [e, e'] at h'; exact names_unique h h'
  · rename_i e e'; rw [e, e'] at h'; exact h.trans h'.symm

theorem file_unique {o : Options} {v w : Level} (h : FileVerbosity o v) (h' : FileVerbosity o w) : v = w := by
  unfold FileVerbosity at h h'
  split at h
  · rename_i s e; rw [e] at h'; exact names_unique h h'
  · rename_i e; rw [e] at h'; exact h.trans h'.symm

theorem default_eq : defaultLogFile = "server.log".toList := by decide +kernel

theorem slash_default (d : List Char) : d ++ '/' :: defaultLogFile = d ++ "/server.log".toList := by
  have : '/' :: defaultLogFile = "/server.log".toList := by decide +kernel
  rw [this]

theorem fileName_quiet (o : Options) : fileName o .quiet = none := by
  unfold fileName
  dsimp only
  split
  · rfl
  · split <;> rfl

theorem fileName_iff (o : Options) (v : Level) (hv : v ≠ .quiet) (g : List Char) : fileName o v = some g ↔ LogFile o g := by
  unfold fileName LogFile Given
  rw [← default_eq]
  simp only [hv, if_false, ← slash_default]
  cases o.server with
  | false =>
    cases o.cmdClientLogFile <;> cases o.clientLogFile <;> simp
  | true =>
    simp only [if_true]
    cases o.cmdLogFile with
    | some x =>
      by_cases hx : x = defaultLogFile
      · subst hx; simp [eq_comm]
      · simp [hx, eq_comm]
    | none =>
      cases o.logFile with
      | some x =>
        by_cases hx : x = defaultLogFile
        · subst hx; simp [eq_comm]
        · simp [hx, eq_comm]
      | none => simp [eq_comm]

/-- What passes a logger for two sinks and the sink `v`, for all levels. -/
theorem passes (built v w m : Level) (hm : m ≠ .quiet) (ht : ¬ (m = .trace ∧ v = .debug)) (hv : v ≠ .critical) (hw : w ≠ .critical) :
    (m.toNat ≤ built.toNat ∧ (if w.toNat < v.toNat then v else w).toSpd ≤ macroSpd m ∧ v.toSpd ≤ macroSpd m ↔
      rank m ≤ rank v ∧ rank m ≤ rank built) ∧
    (m.toNat ≤ built.toNat ∧ (if v.toNat < w.toNat then w else v).toSpd ≤ macroSpd m ∧ v.toSpd ≤ macroSpd m ↔
      rank m ≤ rank v ∧ rank m ≤ rank built) := by
  revert hm ht hv hw
  cases v <;> cases w <;> cases m <;> cases built <;> decide

end Verif.Logging
