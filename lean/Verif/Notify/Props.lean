import Verif.Notify.Lemmas
/-!
# Properties of readiness
-/
namespace Verif.Notify
open Spec

/-! ## C191: the service manager is told once that the node is ready -/

/-- C191: if the service manager listens at a path that fits into an address, it gets exactly one message, and there is no error.
What is missing: abstract sockets. -/
theorem C191_ready_partial (w : World) (p : List Nat) (a : Address) (listens : Address → Bool)
    (he : w.notifySocket = some (47 :: p)) (ht : Text p) (hl : p.length < 107)
    (ha : Listens (47 :: p) a) (hs : listens a = true) :
    (notifyReady true listens w).1 = true ∧ (notifyReady true listens w).2.sent = w.sent ++ [(a, readyText)] := by
  cases ha
  have ht' : Text (47 :: p) := by
    intro b hb
    rcases List.mem_cons.mp hb with rfl | hb
    · decide
    · exact ht b hb
  have hd := destination_path ht' (by simp) (by simp only [List.length_cons, pathSize]; omega)
  simp [notifyReady, he, hd, hs]

/-- An abstract socket never gets the message: the `@` is not replaced by NUL, so the message goes to a path that starts with `@`. -/
theorem C191_abstract_refuted (w : World) (n : List Nat) (canOpen : Bool) (listens : Address → Bool)
    (he : w.notifySocket = some (64 :: n)) (ht : Text n) (m : List Nat) (hw : (.abstract m, readyText) ∉ w.sent) :
    (.abstract m, readyText) ∉ (notifyReady canOpen listens w).2.sent := by
  have ht' : Text (64 :: n) := by
    intro b hb
    rcases List.mem_cons.mp hb with rfl | hb
    · decide
    · exact ht b hb
  by_cases hl : (64 :: n).length < pathSize
  · have hd := destination_path ht' (by simp) hl
    cases canOpen with
    | false => simpa [notifyReady, he] using hw
    | true =>
      cases hs : listens (.path (64 :: n)) <;> simp [notifyReady, he, hd, hs, hw]
  · have hd : destination (64 :: n) = none := by
      have : decide ((64 :: n).length ≥ pathSize) = true := by simp only [decide_eq_true_eq]; omega
      simp only [destination, this, Bool.or_true, if_true]
    cases canOpen <;> simpa [notifyReady, he, hd] using hw

/-- A name that does not fit into an address is an error; nothing is sent to a part of it. -/
theorem C191_long (w : World) (d : List Nat) (canOpen : Bool) (listens : Address → Bool)
    (he : w.notifySocket = some d) (hl : 108 ≤ d.length) :
    (notifyReady canOpen listens w).1 = false ∧ (notifyReady canOpen listens w).2.sent = w.sent := by
  have hd : destination d = none := by
    have : decide (d.length ≥ pathSize) = true := by simpa [pathSize] using hl
    simp only [destination, this, Bool.or_true, if_true]
  cases canOpen <;> simp [notifyReady, he, hd]

/-- The variable is gone afterwards, so that no child inherits it and a second call sends nothing. -/
theorem C191_once (w : World) (canOpen canOpen' : Bool) (listens listens' : Address → Bool) :
    (notifyReady canOpen listens w).2.notifySocket = none ∧
      notifyReady canOpen' listens' (notifyReady canOpen listens w).2 = (true, (notifyReady canOpen listens w).2) := by
  have h : (notifyReady canOpen listens w).2.notifySocket = none := by
    unfold notifyReady
    dsimp only
    split
    · rfl
    · split
      · rfl
      · split
        · rfl
        · split <;> rfl
  refine ⟨h, ?_⟩
  generalize (notifyReady canOpen listens w).2 = v at h
  cases v
  simp only at h
  subst h
  rfl

/-- An error is reported exactly if there is a variable and nothing was sent. -/
theorem C191_error (w : World) (canOpen : Bool) (listens : Address → Bool) :
    (notifyReady canOpen listens w).1 = false ↔
      w.notifySocket ≠ none ∧ (notifyReady canOpen listens w).2.sent = w.sent := by
  unfold notifyReady
  dsimp only
  split
  · rename_i h; simp [h]
  · rename_i d h
    split
    · simp [h]
    · split
      · simp [h]
      · split <;> simp [h]

/-- The socket stays open. -/
theorem C191_socket_refuted (w : World) (d : List Nat) (listens : Address → Bool) (he : w.notifySocket = some d) :
    (notifyReady true listens w).2.sockets = w.sockets + 1 := by
  unfold notifyReady
  rw [he]
  dsimp only
  split
  · rename_i h; simp at h
  · split
    · rfl
    · split <;> rfl

-- `/run/n`
example : notifyReady true (fun a => a == .path [47, 114, 117, 110, 47, 110]) ⟨some [47, 114, 117, 110, 47, 110], [], 3⟩ =
    (true, ⟨none, [(.path [47, 114, 117, 110, 47, 110], readyText)], 4⟩) := by decide +kernel
-- `@n`, with a service manager that listens at this abstract socket
example : Listens [64, 110] (.abstract [110]) := .abstract [110]
example : notifyReady true (fun a => a == .abstract [110]) ⟨some [64, 110], [], 3⟩ = (false, ⟨none, [], 4⟩) := by decide +kernel

/-! ## C192: logs go to the journal if the standard error does -/

/-- C192: if `JOURNAL_STREAM` names the device and the inode of the standard error, in decimal, this is recognized. -/
theorem C192_recognized (d i : List Nat) (dev ino : Nat) (hd : Decimal d dev) (hi : Decimal i ino)
    (bd : dev < 2 ^ 64) (bi : ino < 2 ^ 64) : connectedToJournal (some (d ++ 58 :: i)) (some (dev, ino)) = true := by
  have h1 := number_decimal hd bd (58 :: i) (by simp [isDigit])
  have h2 := number_decimal hi bi [] (by simp)
  rw [List.append_nil] at h2
  simp [connectedToJournal, h1, h2]

/-- And only such texts are, up to numbers that do not fit into 64 bits and zeros in front. -/
theorem C192_only (s : Option (List Nat)) (stat : Option (Nat × Nat)) (h : connectedToJournal s stat = true) :
    ∃ d i, s = some (d ++ 58 :: i) ∧ Digits d ∧ Digits i ∧
      stat = some (value d % 2 ^ 64, value i % 2 ^ 64) := by
  match s, h with
  | some s, h =>
    unfold connectedToJournal at h
    dsimp only at h
    split at h
    · rename_i dev r e1
      split at h
      · rename_i ino e2
        obtain ⟨d, hs, hd, rfl⟩ := number_digits e1
        obtain ⟨i, hr, hi, rfl⟩ := number_digits e2
        refine ⟨d, i, ?_, hd, hi, by simpa using h⟩
        rw [hs, hr, List.append_nil]
      · cases h
    · cases h

/-- Another device is taken for the one of the standard error if its number is too large by 2^64: `18446744073709551616:7`. -/
theorem C192_wrapped_refuted : ∃ d i, Digits d ∧ value d ≠ 0 ∧
    connectedToJournal (some (d ++ 58 :: i)) (some (0, 7)) = true :=
  ⟨[49, 56, 52, 52, 54, 55, 52, 52, 48, 55, 51, 55, 48, 57, 53, 53, 49, 54, 49, 54], [55],
    by constructor <;> decide, by decide +kernel, by decide +kernel⟩

-- `8:1324919`
example : connectedToJournal (some [56, 58, 49, 51, 50, 52, 57, 49, 57]) (some (8, 1324919)) = true := by decide +kernel
example : connectedToJournal (some [56, 58, 49]) (some (8, 2)) = false := by decide +kernel
example : connectedToJournal (some [56, 58, 49, 32]) (some (8, 1)) = false := by decide +kernel
example : Decimal [49, 51, 50] 132 := ⟨⟨by simp, by decide⟩, .inl (by decide), rfl⟩

end Verif.Notify
