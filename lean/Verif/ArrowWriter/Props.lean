import Verif.ArrowWriter.Spec
/-!
# The output of the Arrow writer (C157)
-/
namespace Verif.ArrowWriter
open Spec

/-! ## Lemmas -/

/-- The stream that is open at the end of an output. -/
def openAt : Option Layout → List Out → Option (Option Layout)
  | c, [] => some c
  | none, .schema l :: r => openAt (some l) r
  | some l, .batch _ :: r => openAt (some l) r
  | some _, .eos :: r => openAt none r
  | _, _ => none

theorem read_append : ∀ (a b : List Out) (c d : Option Layout), openAt c a = some d →
    readFrom c (a ++ b) = (readFrom c a).bind fun x => (readFrom d b).map (x ++ ·)
  | [], b, c, d, h => by
    simp only [openAt, Option.some.injEq] at h
    subst h
    cases c <;> simp [readFrom]
  | .schema l :: r, b, none, d, h => by simpa [readFrom] using read_append r b (some l) d h
  | .schema l :: r, b, some _, d, h => by simp [openAt] at h
  | .batch n :: r, b, some l, d, h => by
    simp only [List.cons_append, readFrom, read_append r b (some l) d h]
    cases readFrom (some l) r <;> cases readFrom d b <;> simp
  | .batch n :: r, b, none, d, h => by simp [openAt] at h
  | .eos :: r, b, some l, d, h => by simpa [readFrom] using read_append r b none d h
  | .eos :: r, b, none, d, h => by simp [openAt] at h

theorem open_append : ∀ (a b : List Out) (c d : Option Layout), openAt c a = some d → openAt c (a ++ b) = openAt d b
  | [], b, c, d, h => by
    simp only [openAt, Option.some.injEq] at h
    subst h; rfl
  | .schema l :: r, b, none, d, h => open_append r b (some l) d h
  | .schema l :: r, b, some _, d, h => by simp [openAt] at h
  | .batch n :: r, b, some l, d, h => open_append r b (some l) d h
  | .batch n :: r, b, none, d, h => by simp [openAt] at h
  | .eos :: r, b, some l, d, h => open_append r b none d h
  | .eos :: r, b, none, d, h => by simp [openAt] at h

theorem schemas_append (a b : List Out) : schemas (a ++ b) = schemas a ++ schemas b := by simp [schemas]

theorem runs_snoc : ∀ (ls : List Layout) (l m : Layout), runs (ls ++ [l] ++ [m]) = if l = m then runs (ls ++ [l]) else runs (ls ++ [l]) ++ [m]
  | [], l, m => by simp only [List.nil_append, List.cons_append, runs]; split <;> simp_all
  | [a], l, m => by
    simp only [List.cons_append, List.nil_append, runs]
    split <;> split <;> simp_all
  | a :: b :: ls, l, m => by
    have := runs_snoc (b :: ls) l m
    simp only [List.cons_append] at this ⊢
    simp only [runs]
    split
    · exact this
    · rw [this]; split <;> simp

/-- Before any slice, or after some: the output is read as the slices so far and the stream of the last one is open. -/
def Inv (s : State) (done : List Slice) : Prop :=
  (done = [] ∧ s.out = [] ∧ s.writer = false ∧ s.current.fields = []) ∨
  (∃ ds x, done = ds ++ [x] ∧ s.writer = true ∧ s.current = x.layout ∧ openAt none s.out = some (some x.layout) ∧
    read s.out = some done ∧ schemas s.out = runs (done.map (·.layout)))

theorem Inv.read {s : State} {done : List Slice} (h : Inv s done) : Spec.read s.out = some done := by
  rcases h with ⟨rfl, h, _⟩ | ⟨_, _, _, _, _, _, h, _⟩
  · rw [h]; rfl
  · exact h

theorem write_inv (ok : Nat → Bool) (s : State) (x : Slice) (done : List Slice) (h : Inv s done) (hx : x.layout.fields ≠ []) :
    match write ok s x with
    | .ok s' => Inv s' (done ++ [x])
    | .error s' => Spec.read s'.out = some done
    | .crash => False := by
  have hread := h.read
  unfold write setLayout
  rcases h with ⟨rfl, h1, h2, h3⟩ | ⟨ds, y, rfl, h1, h2, h3, h4, h5⟩
  · have hne : s.current ≠ x.layout := fun e => hx (by rw [← e]; exact h3)
    simp only [hne, if_false, h2, Bool.false_eq_true, hx]
    cases ha : ok s.ops with
    | false => simpa using hread
    | true =>
      simp only [if_true, Bool.not_true, Bool.false_eq_true, if_false]
      cases hb : ok (s.ops + 1) with
      | false => simp [h1, Spec.read, readFrom]
      | true =>
        simp only [if_true]
        refine .inr ⟨[], x, rfl, rfl, rfl, ?_, ?_, ?_⟩
        · simp [h1, openAt]
        · simp [h1, Spec.read, readFrom]
        · simp [h1, schemas, runs]
  · by_cases he : s.current = x.layout
    · have hyx : y.layout = x.layout := h2.symm.trans he
      simp only [he, if_true, h1, Bool.not_true, Bool.false_eq_true, if_false]
      cases ha : ok s.ops with
      | false => simpa using hread
      | true =>
        simp only [if_true]
        refine .inr ⟨ds ++ [y], x, rfl, rfl, rfl, ?_, ?_, ?_⟩
        · rw [open_append _ _ _ _ h3, hyx]; rfl
        · rw [Spec.read, read_append _ _ _ _ h3]
          rw [Spec.read] at h4
          rw [h4, hyx]; rfl
        · rw [schemas_append, h5]
          simp only [List.map_append, List.map_cons, List.map_nil]
          rw [runs_snoc, if_pos hyx]
          simp [schemas]
    · have hyx : y.layout ≠ x.layout := fun e => he (h2.trans e)
      simp only [he, if_false, h1, if_true]
      have hclosed : Spec.read (s.out ++ [.eos]) = some (ds ++ [y]) := by
        rw [Spec.read, read_append _ _ _ _ h3]
        rw [Spec.read] at h4
        rw [h4]; simp [readFrom]
      have hopen : openAt none (s.out ++ [.eos]) = some none := by rw [open_append _ _ _ _ h3]; rfl
      cases ha : ok s.ops with
      | false => simpa using hread
      | true =>
        simp only [if_true, hx, if_false]
        cases hb : ok (s.ops + 1) with
        | false => simpa using hclosed
        | true =>
          simp only [if_true, Bool.not_true, Bool.false_eq_true, if_false]
          have hopen2 : openAt none (s.out ++ [.eos] ++ [.schema x.layout]) = some (some x.layout) := by
            rw [open_append _ _ _ _ hopen]; rfl
          have hread2 : Spec.read (s.out ++ [.eos] ++ [.schema x.layout]) = some (ds ++ [y]) := by
            rw [Spec.read, read_append _ _ _ _ hopen]
            rw [Spec.read] at hclosed
            rw [hclosed]; simp [readFrom]
          cases hc : ok (s.ops + 1 + 1) with
          | false => simpa using hread2
          | true =>
            simp only [if_true]
            refine .inr ⟨ds ++ [y], x, rfl, rfl, rfl, ?_, ?_, ?_⟩
            · rw [open_append _ _ _ _ hopen2]; rfl
            · rw [Spec.read, read_append _ _ _ _ hopen2]
              rw [Spec.read] at hread2
              rw [hread2]; rfl
            · rw [schemas_append, schemas_append, schemas_append, h5]
              simp only [List.map_append, List.map_cons, List.map_nil]
              rw [runs_snoc, if_neg hyx]
              simp [schemas]

theorem session_inv (ok : Nat → Bool) : ∀ (xs : List Slice) (s : State) (done : List Slice), Inv s done → (∀ x ∈ xs, x.layout.fields ≠ []) →
    match session ok s xs with
    | (.ok s', n) => n = xs.length ∧ Inv s' (done ++ xs)
    | (.error s', n) => n < xs.length ∧ Spec.read s'.out = some (done ++ xs.take n)
    | (.crash, _) => False
  | [], s, done, h, _ => by simpa [session] using h
  | x :: xs, s, done, h, hx => by
    have hw := write_inv ok s x done h (hx x (by simp))
    simp only [session]
    cases hr : write ok s x with
    | crash => rw [hr] at hw; exact hw
    | error s' => rw [hr] at hw; simpa using hw
    | ok s' =>
      rw [hr] at hw
      have ih := session_inv ok xs s' (done ++ [x]) hw (fun y hy => hx y (by simp [hy]))
      simp only []
      rcases hs : session ok s' xs with ⟨r, n⟩
      rw [hs] at ih
      cases r with
      | ok s'' => simpa using ih
      | error s'' => simpa using ih
      | crash => exact ih

/-! ## C157 -/

/-- Whatever operation fails, the output is read back as exactly the slices that were written, in order and each with its layout. -/
theorem C157_read_partial (ok : Nat → Bool) (xs : List Slice) (hx : ∀ x ∈ xs, x.layout.fields ≠ []) :
    ∃ o, output (session ok {} xs).1 = some o ∧ read o = some (xs.take (session ok {} xs).2) := by
  have h := session_inv ok xs {} [] (.inl ⟨rfl, rfl, rfl, rfl⟩) hx
  rcases hs : session ok {} xs with ⟨r, n⟩
  rw [hs] at h
  cases r with
  | ok s => exact ⟨_, rfl, by rw [h.1, List.take_length]; simpa using h.2.read⟩
  | error s => exact ⟨_, rfl, by simpa using h.2⟩
  | crash => exact h.elim

/-- If nothing fails, all slices are written, with one stream for each run of slices of the same layout. -/
theorem C157_all_partial (xs : List Slice) (hx : ∀ x ∈ xs, x.layout.fields ≠ []) :
    ∃ s, session (fun _ => true) {} xs = (.ok s, xs.length) ∧ read s.out = some xs ∧ schemas s.out = runs (xs.map (·.layout)) := by
  have hok : ∀ (xs : List Slice) (s : State) (done : List Slice), Inv s done → (∀ x ∈ xs, x.layout.fields ≠ []) →
      ∃ s', session (fun _ => true) s xs = (.ok s', xs.length) := by
    intro xs
    induction xs with
    | nil => intro s _ _ _; exact ⟨s, rfl⟩
    | cons x xs ih =>
      intro s done h hx
      have hw := write_inv (fun _ => true) s x done h (hx x (by simp))
      have : ∃ s', write (fun _ => true) s x = .ok s' := by
        have hc : write (fun _ => true) s x ≠ .crash := by intro e; rw [e] at hw; exact hw
        unfold write setLayout at hc ⊢
        have hf := hx x (by simp)
        by_cases h1 : s.current = x.layout <;> cases h2 : s.writer <;> simp [h1, h2, hf] at hc ⊢
      obtain ⟨s', e⟩ := this
      rw [e] at hw
      obtain ⟨s'', e'⟩ := ih s' _ hw (fun y hy => hx y (by simp [hy]))
      exact ⟨s'', by simp [session, e, e']⟩
  have h0 : Inv {} [] := .inl ⟨rfl, rfl, rfl, rfl⟩
  obtain ⟨s, e⟩ := hok xs {} [] h0 hx
  have h := session_inv (fun _ => true) xs {} [] h0 hx
  rw [e] at h
  refine ⟨s, e, by simpa using h.2.read, ?_⟩
  rcases h.2 with ⟨h1, h2, _⟩ | ⟨ds, x, h1, _, _, _, _, h2⟩
  · simp only [List.nil_append] at h1; subst h1; rw [h2]; rfl
  · simpa using h2

/-- The last stream is never ended: an output of at least one slice does not end with the end of a stream. -/
theorem C157_end_refuted (ok : Nat → Bool) (xs : List Slice) (hx : ∀ x ∈ xs, x.layout.fields ≠ []) (hne : xs ≠ []) (s : State)
    (h : (session ok {} xs).1 = .ok s) : s.out.getLast? ≠ some .eos := by
  have h' := session_inv ok xs {} [] (.inl ⟨rfl, rfl, rfl, rfl⟩) hx
  rcases hs : session ok {} xs with ⟨r, n⟩
  rw [hs] at h h'
  simp only at h
  subst h
  rcases h'.2 with ⟨h1, _⟩ | ⟨ds, x, _, _, _, h3, _⟩
  · simp only [List.nil_append] at h1; exact (hne h1).elim
  · intro hl
    obtain ⟨o, ho⟩ : ∃ o, s.out = o ++ [.eos] := by
      obtain ⟨o, ho⟩ := List.getLast?_eq_some_iff.1 hl
      exact ⟨o, ho⟩
    rw [ho] at h3
    have : ∀ (o : List Out) (c : Option Layout) (l : Layout), openAt c (o ++ [.eos]) ≠ some (some l) := by
      intro o
      induction o with
      | nil => intro c l; cases c <;> simp [openAt]
      | cons a o ih =>
        intro c l
        cases a <;> cases c <;> simp [openAt, ih]
    exact this _ _ _ h3

/-- A slice without columns dereferences a null pointer, be it the first or not. -/
theorem C157_empty_refuted : (session (fun _ => true) {} [⟨⟨"empty", []⟩, 1⟩]).1 = .crash ∧
    (session (fun _ => true) {} [⟨⟨"conn", ["ts"]⟩, 1⟩, ⟨⟨"empty", []⟩, 2⟩]).1 = .crash := by decide

example : session (fun _ => true) {} [⟨⟨"conn", ["ts"]⟩, 1⟩, ⟨⟨"conn", ["ts"]⟩, 2⟩, ⟨⟨"dns", ["ts", "q"]⟩, 3⟩, ⟨⟨"conn", ["ts"]⟩, 4⟩] =
    (.ok ⟨⟨"conn", ["ts"]⟩, true, [.schema ⟨"conn", ["ts"]⟩, .batch 1, .batch 2, .eos, .schema ⟨"dns", ["ts", "q"]⟩, .batch 3, .eos,
      .schema ⟨"conn", ["ts"]⟩, .batch 4], 9⟩, 4) := by decide

example : (session (fun n => n ≠ 3) {} [⟨⟨"conn", ["ts"]⟩, 1⟩, ⟨⟨"conn", ["ts"]⟩, 2⟩, ⟨⟨"dns", ["ts", "q"]⟩, 3⟩]).2 = 2 := by decide

end Verif.ArrowWriter
