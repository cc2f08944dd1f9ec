import Verif.Logging.Lemmas
/-!
# Properties of logging
-/
namespace Verif.Logging
open Spec

/-! ## C193: messages are logged up to the verbosity that is configured -/

/-- C193: on the console one sees exactly the messages up to the verbosity, if VAST is built with them; the verbosity of the file
makes no difference.  What is missing: messages for tracing with the verbosity `debug`. -/
theorem C193_console_partial (built v m : Level) (o : Options) (l : Logger) (h : setup o = some l)
    (hv : ConsoleVerbosity o v) (hm : Message m) (ht : ¬ (m = .trace ∧ v = .debug)) :
    onConsole built l m = true ↔ rank m ≤ rank v ∧ rank m ≤ rank built := by
  obtain ⟨c, f, hc, -, nc, nf, rfl⟩ := setup_some h
  cases console_unique hv hc
  rw [← (passes built v f m hm ht nc nf).1]
  simp [onConsole, and_assoc]

/-- In the log file, and in no other, there are exactly the messages up to its verbosity, whatever the verbosity of the console. -/
theorem C193_file_partial (built v m : Level) (o : Options) (l : Logger) (g : List Char) (h : setup o = some l)
    (hv : FileVerbosity o v) (hm : Message m) (ht : ¬ (m = .trace ∧ v = .debug)) :
    inFile built l m = some g ↔ LogFile o g ∧ rank m ≤ rank v ∧ rank m ≤ rank built := by
  suffices hh : inFile built l m = some g ↔ fileName o v = some g ∧ rank m ≤ rank v ∧ rank m ≤ rank built by
    rw [hh]
    by_cases hq : v = .quiet
    · subst hq
      have : ¬ rank m ≤ rank .quiet := by cases m <;> first | exact absurd rfl hm | decide
      simp [this]
    · rw [fileName_iff o v hq]
  obtain ⟨c, f, -, hf, nc, nf, rfl⟩ := setup_some h
  cases file_unique hv hf
  unfold inFile
  cases e : fileName o v with
  | none => simp
  | some n =>
    have key : (decide (m.toNat ≤ built.toNat) &&
        decide ((if v.toNat < c.toNat then c else v).toSpd ≤ macroSpd m) && decide (v.toSpd ≤ macroSpd m)) = true ↔
        rank m ≤ rank v ∧ rank m ≤ rank built := by
      rw [← (passes built v c m hm ht nf nc).2]
      simp [and_assoc]
    simp only [Option.map_some, Option.ite_none_right_eq_some, Option.some.injEq]
    rw [key]
    exact and_comm

/-- With the verbosity `debug`, one gets the messages for tracing, too, if VAST is built with them. -/
theorem C193_trace_refuted (o : Options) (l : Logger) (h : setup o = some l) (hv : ConsoleVerbosity o .debug) :
    onConsole .trace l .trace = true := by
  obtain ⟨c, f, hc, -, nc, nf, rfl⟩ := setup_some h
  cases console_unique hv hc
  have key : ∀ f : Level, (if f.toNat < Level.debug.toNat then Level.debug else f).toSpd ≤ macroSpd .trace ∨ f = .critical := by
    intro f; cases f <;> decide
  have := (key f).resolve_right nf
  simp only [onConsole, this, Bool.and_eq_true, decide_eq_true_eq]
  decide

/-- Logging starts exactly if all verbosities that are given are names of levels. -/
theorem C193_starts (o : Options) :
    (∃ l, setup o = some l) ↔
      ∀ s, (o.consoleVerbosity = some s ∨ o.verbosity = some s ∨ o.fileVerbosity = some s) → ∃ v, Names s v := by
  constructor
  · rintro ⟨l, h⟩ s hs
    unfold setup at h
    simp only [Option.bind_eq_bind, Option.bind_eq_some_iff, Option.pure_def, Option.some.injEq] at h
    obtain ⟨c0, h0, c, h1, f, h2, -⟩ := h
    rcases hs with hs | hs | hs
    · rw [hs] at h0; exact ⟨_, (level?_names s _).mp h0⟩
    · rw [hs] at h1; exact ⟨_, (level?_names s _).mp h1⟩
    · rw [hs] at h2; exact ⟨_, (level?_names s _).mp h2⟩
  · intro h
    have key : ∀ (t : Option (List Char)) (d : Level), (∀ s, t = some s → ∃ v, Names s v) → ∃ v, pick t d = some v := by
      intro t d ht
      cases t with
      | none => exact ⟨d, rfl⟩
      | some s =>
        obtain ⟨v, hv⟩ := ht s rfl
        exact ⟨v, (level?_names s v).mpr hv⟩
    obtain ⟨c0, h0⟩ := key o.consoleVerbosity .info fun s e => h s (.inl e)
    obtain ⟨c, h1⟩ := key o.verbosity c0 fun s e => h s (.inr (.inl e))
    obtain ⟨f, h2⟩ := key o.fileVerbosity .debug fun s e => h s (.inr (.inr e))
    exact ⟨_, by simp [setup, h0, h1, h2]; rfl⟩

/-- A client that is not given a log file of its own writes none; the file of the server is never used. -/
theorem C193_client (o : Options) (l : Logger) (built m : Level) (h : setup o = some l) (hs : o.server = false)
    (h1 : o.cmdClientLogFile = none) (h2 : o.clientLogFile = none) : inFile built l m = none := by
  obtain ⟨c, f, -, -, -, -, rfl⟩ := setup_some h
  simp [inFile, fileName, hs, h1, h2]

/-- The options of a server, with a verbosity on the command line. -/
def sample : Options := ⟨true, some ['D', 'e', 'b', 'u', 'g'], some ['e', 'r', 'r', 'o', 'r'], none, none, none, none, none, ['d', 'b']⟩

example : setup sample = some ⟨0, 4, some (['d', 'b', '/'] ++ defaultLogFile, 0)⟩ := by decide +kernel
example : ConsoleVerbosity sample .error := ⟨by decide, by decide +kernel⟩
example : ConsoleVerbosity { sample with verbosity := none } .debug := ⟨by decide, by decide +kernel⟩
example : FileVerbosity sample .debug := rfl
example : LogFile sample "db/server.log".toList := by
  refine .inr ⟨?_, by decide +kernel⟩
  rintro f (h | ⟨-, h⟩) <;> cases h
example : setup { sample with fileVerbosity := some ['l', 'o', 'u', 'd'] } = none := by decide +kernel

/-- The options of a client, which knows of the file of a server. -/
def client : Options := ⟨false, none, none, none, some ['x'], none, none, none, ['d', 'b']⟩

example : setup client = some ⟨0, 2, none⟩ := by decide +kernel

end Verif.Logging
