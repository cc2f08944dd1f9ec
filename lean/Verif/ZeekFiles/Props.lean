import Verif.ZeekFiles.Spec
/-! # C179: which rows are in which Zeek log -/
namespace Verif.ZeekFiles
open Verif.Data Spec
variable {F : Type}

theorem write_ok (rs : List Row) : ∀ (c : Child F), c.good = true → c.buf = [] → (c.write rs).1.good = true ∧
    (c.write rs).1.lines = c.lines ++ ((rs.takeWhile Row.ok).map Row.text).map Line.row ∧ ((c.write rs).2 = true ↔ ∀ r ∈ rs, r.ok = true) ∧
    ((∀ r ∈ rs, r.ok = true) → (c.write rs).1.buf = []) := by
  induction rs with
  | nil => intro c hg hb; simp [Child.write, hg, hb]
  | cons r rs ih =>
    intro c hg hb
    rw [Child.write]
    by_cases h : r.ok = true
    · rw [if_pos h]
      have e : ({ c with buf := [] } : Child F).put (.row (c.buf ++ r.text)) = { c with buf := [], lines := c.lines ++ [.row r.text] } := by
        simp [Child.put, hg, hb]
      rw [e]
      obtain ⟨h1, h2, h3, h4⟩ := ih { c with buf := [], lines := c.lines ++ [.row r.text] } hg rfl
      refine ⟨h1, ?_, ?_, ?_⟩
      · rw [h2]; simp [h]
      · rw [h3]; simp [h]
      · intro hall; exact h4 fun r hr => hall r (List.mem_cons_of_mem _ hr)
    · rw [if_neg h]
      simp [hg, h]

theorem write_result (rs : List Row) : ∀ c : Child F, (c.write rs).2 = rs.all Row.ok := by
  induction rs with
  | nil => intro c; rfl
  | cons r rs ih =>
    intro c
    rw [Child.write]
    by_cases h : r.ok = true
    · rw [if_pos h, ih]; simp [h]
    · rw [if_neg h]; simp [h]

theorem runOut_result [DecidableEq F] : ∀ (xs : List (Slice F)) (w : Writer F), (runOut w xs).2 = xs.map fun y => y.rows.all Row.ok
  | [], _ => rfl
  | x :: xs, w => by
    rw [runOut, List.map_cons, runOut_result xs]
    exact congrArg (· :: _) (write_result _ _)

theorem runFiles_result (opens : Str → Bool) : ∀ (xs : List (Slice F)) (w : Writer F), (runFiles true opens w xs).2 = xs.map fun y => y.rows.all Row.ok
  | [], _ => rfl
  | x :: xs, w => by
    rw [runFiles, List.map_cons, runFiles_result opens xs]
    have e : (w.writeFile true opens x).2 = x.rows.all Row.ok := by
      unfold Writer.writeFile
      split <;> exact write_result _ _
    exact congrArg (· :: _) e

/-- The header that counts at the end. -/
def last : Option (Layout F) → List (Line F) → Option (Layout F)
  | h, [] => h
  | _, .header l :: ls => last (some l) ls
  | h, .row _ :: ls => last h ls

theorem read_append : ∀ (a b : List (Line F)) (h : Option (Layout F)), readLog h (a ++ b) = readLog h a ++ readLog (last h a) b
  | [], _, _ => rfl
  | .header l :: a, b, _ => by simp only [List.cons_append, readLog, last]; exact read_append a b _
  | .row t :: a, b, h => by simp only [List.cons_append, readLog, last, List.cons_append]; rw [read_append a b]

theorem last_append : ∀ (a b : List (Line F)) (h : Option (Layout F)), last h (a ++ b) = last (last h a) b
  | [], _, _ => rfl
  | .header l :: a, b, _ => by simp only [List.cons_append, last]; exact last_append a b _
  | .row t :: a, b, h => by simp only [List.cons_append, last]; exact last_append a b _

theorem read_rows (h : Option (Layout F)) : ∀ ts : List Str, readLog h (ts.map Line.row) = ts.map (h, ·) ∧ last h (ts.map Line.row) = h
  | [] => ⟨rfl, rfl⟩
  | t :: ts => by simp [readLog, last, read_rows h ts]

structure OutInv (w : Writer F) : Prop where
  good : ∀ c, w.out = some c → c.good = true ∧ c.buf = []
  header : last none (lines w) = w.previous

theorem writeOut_step [DecidableEq F] (w : Writer F) (x : Slice F) (hw : OutInv w) :
    readLog none (lines (w.writeOut x).1) = readLog none (lines w) ++ (printed x).map (some x.layout, ·) ∧ (Printable x → OutInv (w.writeOut x).1) := by
  obtain ⟨c, hc, hg, hb⟩ : ∃ c : Child F, (if some x.layout ≠ w.previous then (w.out.getD { good := true }).put (.header x.layout) else w.out.getD { good := true }) = c ∧
      c.good = true ∧ c.buf = [] := by
    refine ⟨_, rfl, ?_⟩
    have : (w.out.getD { good := true } : Child F).good = true ∧ (w.out.getD { good := true } : Child F).buf = [] := by
      cases e : w.out with
      | none => exact ⟨rfl, rfl⟩
      | some c => exact hw.good c e
    split
    · simp [Child.put, this]
    · exact this
  have hl : last none c.lines = some x.layout ∧ readLog none c.lines = readLog none (lines w) := by
    have e0 : (w.out.getD { good := true } : Child F).lines = lines w := by
      unfold lines
      cases w.out <;> rfl
    have g0 : (w.out.getD { good := true } : Child F).good = true := by
      cases e : w.out with
      | none => rfl
      | some c => exact (hw.good c e).1
    rw [← hc]
    split
    · simp only [Child.put, g0, if_true]
      rw [last_append, read_append, e0]
      simp [last, readLog]
    · rename_i h
      rw [e0, hw.header]
      exact ⟨(Decidable.not_not.mp h).symm, rfl⟩
  obtain ⟨h1, h2, h3, h4⟩ := write_ok x.rows c hg hb
  have ho : (w.writeOut x).1.out = some (c.write x.rows).1 := by
    rw [← hc]; rfl
  have hlines : lines (w.writeOut x).1 = c.lines ++ (printed x).map Line.row := by
    unfold lines; rw [ho]; exact h2
  refine ⟨?_, fun hp => ⟨?_, ?_⟩⟩
  · rw [hlines, read_append, hl.1, hl.2, (read_rows _ _).1]
  · intro d hd
    rw [ho] at hd
    cases hd
    exact ⟨h1, h4 hp⟩
  · rw [hlines, last_append, hl.1, (read_rows _ _).2]
    rfl

theorem runOut_ok [DecidableEq F] : ∀ (xs : List (Slice F)) (w : Writer F), OutInv w → (∀ x ∈ xs, Printable x) →
    OutInv (runOut w xs).1 ∧ readLog none (lines (runOut w xs).1) = readLog none (lines w) ++ xs.flatMap fun y => (printed y).map (some y.layout, ·)
  | [], w, hw, _ => ⟨hw, by simp [runOut]⟩
  | x :: xs, w, hw, h => by
    obtain ⟨h1, h2⟩ := writeOut_step w x hw
    obtain ⟨h3, h4⟩ := runOut_ok xs _ (h2 (h x List.mem_cons_self)) (fun y hy => h y (List.mem_cons_of_mem _ hy))
    refine ⟨h3, ?_⟩
    rw [runOut, h4, h1]
    simp

theorem runOut_append [DecidableEq F] : ∀ (xs ys : List (Slice F)) (w : Writer F), (runOut w (xs ++ ys)).1 = (runOut (runOut w xs).1 ys).1
  | [], _, _ => rfl
  | x :: xs, ys, w => by rw [List.cons_append, runOut, runOut]; exact runOut_append xs ys _

/-- **C179 (partial).**  On the standard output, every row that can be printed comes behind the header of its own layout, in the order of the slices, whatever the layouts and the
order of the slices; and exactly the slices all of whose rows can be printed are reported as written.  Missing: slices after one that could not be printed, for which this fails (the sink does not write any). -/
theorem C179_output_partial [DecidableEq F] (xs : List (Slice F)) (x : Slice F) (h : ∀ y ∈ xs, Printable y) :
    readLog none (lines (runOut {} (xs ++ [x])).1) = ((xs ++ [x]).flatMap fun y => (printed y).map (some y.layout, ·)) ∧
    (runOut {} (xs ++ [x])).2 = (xs ++ [x]).map fun y => y.rows.all Row.ok := by
  refine ⟨?_, runOut_result _ _⟩
  obtain ⟨h1, h2⟩ := runOut_ok xs ({} : Writer F) ⟨fun c hc => (by cases hc), rfl⟩ h
  rw [runOut_append, runOut, runOut, (writeOut_step _ x h1).1, h2]
  simp [lines, readLog]

/-- The rows of a name. -/
def rowsOf (n : Str) (xs : List (Slice F)) : List Str := (xs.filter fun y => decide (y.layout.name = n)).flatMap printed

structure FileInv (done : List (Slice F)) (w : Writer F) : Prop where
  none : ∀ n, w.files n = none → ∀ x ∈ done, x.layout.name ≠ n
  some : ∀ n c, w.files n = some c → c.good = true ∧ c.buf = [] ∧ ∃ x ∈ done, x.layout.name = n ∧ c.lines = .header x.layout :: (rowsOf n done).map Line.row

/-- What is in the files after one more slice. -/
structure FileEnd (done : List (Slice F)) (w : Writer F) : Prop where
  none : ∀ n, w.files n = none → ∀ x ∈ done, x.layout.name ≠ n
  some : ∀ n c, w.files n = some c → ∃ x ∈ done, x.layout.name = n ∧ c.lines = .header x.layout :: (rowsOf n done).map Line.row

theorem rowsOf_same (n : Str) (xs : List (Slice F)) (x : Slice F) (h : x.layout.name = n) : rowsOf n (xs ++ [x]) = rowsOf n xs ++ printed x := by
  simp [rowsOf, List.filter_append, h]

theorem rowsOf_other (n : Str) (xs : List (Slice F)) (x : Slice F) (h : x.layout.name ≠ n) : rowsOf n (xs ++ [x]) = rowsOf n xs := by
  simp [rowsOf, List.filter_append, h]

theorem rowsOf_none (n : Str) (xs : List (Slice F)) (h : ∀ x ∈ xs, x.layout.name ≠ n) : rowsOf n xs = [] := by
  unfold rowsOf
  rw [List.filter_eq_nil_iff.mpr (by simpa using h)]; rfl

theorem writeFile_step (done : List (Slice F)) (w : Writer F) (x : Slice F) (hw : FileInv done w) :
    FileEnd (done ++ [x]) (w.writeFile true (fun _ => true) x).1 ∧ (Printable x → FileInv (done ++ [x]) (w.writeFile true (fun _ => true) x).1) := by
  have key : ∃ c : Child F, c.good = true ∧ c.buf = [] ∧ (w.writeFile true (fun _ => true) x).1.files = (fun n => if n = x.layout.name then some (c.write x.rows).1 else w.files n) ∧
      ∃ y ∈ done ++ [x], y.layout.name = x.layout.name ∧ c.lines = .header y.layout :: (rowsOf x.layout.name done).map Line.row := by
    unfold Writer.writeFile
    cases e : w.files x.layout.name with
    | some c =>
      obtain ⟨h1, h2, y, hy, h3, h4⟩ := hw.some _ _ e
      exact ⟨c, h1, h2, rfl, y, List.mem_append_left _ hy, h3, h4⟩
    | none =>
      refine ⟨{ good := true, lines := [.header x.layout] }, rfl, rfl, ?_, x, by simp, rfl, ?_⟩
      · simp [Child.put]
      · rw [rowsOf_none _ _ (hw.none _ e)]; rfl
  obtain ⟨c, hg, hb, hf, y, hy, hyn, hl⟩ := key
  obtain ⟨h1, h2, h3, h4⟩ := write_ok x.rows c hg hb
  have hnone : ∀ n, (w.writeFile true (fun _ => true) x).1.files n = none → ∀ z ∈ done ++ [x], z.layout.name ≠ n := by
    intro n hn z hz
    rw [hf] at hn
    dsimp only at hn
    split at hn
    · cases hn
    · rename_i hne
      rcases List.mem_append.mp hz with hz | hz
      · exact hw.none n hn z hz
      · cases List.mem_singleton.mp hz
        exact fun h => hne h.symm
  have hsome : ∀ n c', (w.writeFile true (fun _ => true) x).1.files n = some c' →
      (∃ z ∈ done ++ [x], z.layout.name = n ∧ c'.lines = .header z.layout :: (rowsOf n (done ++ [x])).map Line.row) ∧
      (Printable x → c'.good = true ∧ c'.buf = []) := by
    intro n c' hn
    rw [hf] at hn
    dsimp only at hn
    split at hn
    · rename_i he
      cases hn
      refine ⟨⟨y, hy, hyn.trans he.symm, ?_⟩, fun hp => ⟨h1, h4 hp⟩⟩
      rw [h2, hl, he, rowsOf_same _ _ _ rfl, List.map_append]
      rfl
    · rename_i hne
      obtain ⟨g1, g2, z, hz, g3, g4⟩ := hw.some n c' hn
      exact ⟨⟨z, List.mem_append_left _ hz, g3, by rw [g4, rowsOf_other _ _ _ (fun h => hne h.symm)]⟩, fun _ => ⟨g1, g2⟩⟩
  refine ⟨⟨hnone, fun n c' h => (hsome n c' h).1⟩, fun hp => ⟨hnone, fun n c' h => ?_⟩⟩
  obtain ⟨a, b⟩ := hsome n c' h
  exact ⟨(b hp).1, (b hp).2, a⟩

theorem runFiles_ok : ∀ (xs done : List (Slice F)) (w : Writer F), FileInv done w → (∀ x ∈ xs, Printable x) →
    FileInv (done ++ xs) (runFiles true (fun _ => true) w xs).1
  | [], done, w, hw, _ => by simpa [runFiles] using hw
  | x :: xs, done, w, hw, h => by
    have h1 := (writeFile_step done w x hw).2 (h x List.mem_cons_self)
    have h2 := runFiles_ok xs (done ++ [x]) _ h1 fun y hy => h y (List.mem_cons_of_mem _ hy)
    rw [List.append_assoc] at h2
    exact h2

theorem runFiles_append (dir : Bool) (opens : Str → Bool) : ∀ (xs ys : List (Slice F)) (w : Writer F),
    (runFiles dir opens w (xs ++ ys)).1 = (runFiles dir opens (runFiles dir opens w xs).1 ys).1
  | [], _, _ => rfl
  | x :: xs, ys, w => by rw [List.cons_append, runFiles, runFiles]; exact runFiles_append dir opens xs ys _

/-- **C179 (partial).**  With a directory whose files can be opened, there is a file exactly for every name among the layouts, which has one header and behind it the rows of all slices
of this name, in order; and the header is theirs.  Exactly the slices all of whose rows can be printed are reported as written.  Missing: layouts that share a name, files that cannot be opened, and slices after one that could not be printed, for
which this fails. -/
theorem C179_files_partial (xs : List (Slice F)) (x : Slice F) (h : ∀ y ∈ xs, Printable y) (h1 : OneLayout (xs ++ [x])) (n : Str) :
    ((runFiles true (fun _ => true) {} (xs ++ [x])).1.files n = none ↔ ∀ y ∈ xs ++ [x], y.layout.name ≠ n) ∧
    (∀ c, (runFiles true (fun _ => true) {} (xs ++ [x])).1.files n = some c → ∀ y ∈ xs ++ [x], y.layout.name = n →
      c.lines = .header y.layout :: (((xs ++ [x]).filter fun y => decide (y.layout.name = n)).flatMap printed).map Line.row) ∧
    (runFiles true (fun _ => true) {} (xs ++ [x])).2 = (xs ++ [x]).map fun y => y.rows.all Row.ok := by
  refine (fun (a : _ ∧ _) => ⟨a.1, a.2, runFiles_result _ _ _⟩) ?_
  have hi := runFiles_ok xs [] ({} : Writer F) ⟨fun _ _ _ h => (by cases h), fun _ _ h => (by cases h)⟩ h
  rw [List.nil_append] at hi
  have he := (writeFile_step xs _ x hi).1
  have e : (runFiles true (fun _ => true) ({} : Writer F) (xs ++ [x])).1 = (Writer.writeFile true (fun _ => true) (runFiles true (fun _ => true) {} xs).1 x).1 := by
    rw [runFiles_append]; rfl
  rw [e]
  refine ⟨⟨he.none n, fun hn => ?_⟩, fun c hc y hy hyn => ?_⟩
  · cases hc : (Writer.writeFile true (fun _ => true) (runFiles true (fun _ => true) {} xs).1 x).1.files n with
    | none => rfl
    | some c =>
      obtain ⟨y, hy, hyn, _⟩ := he.some n c hc
      exact absurd hyn (hn y hy)
  · obtain ⟨z, hz, hzn, hl⟩ := he.some n c hc
    rw [hl, h1 z hz y hy (hzn.trans hyn.symm)]
    rfl

/-- **C179.**  Without a directory to write to, every call fails and there are no files. -/
theorem C179_directory (opens : Str → Bool) (xs : List (Slice F)) :
    (∀ b ∈ (runFiles false opens {} xs).2, b = false) ∧ (runFiles false opens {} xs).2.length = xs.length ∧
    ∀ n, ((runFiles false opens {} xs).1.files n).isNone := by
  induction xs with
  | nil => exact ⟨fun b hb => (by cases hb), rfl, fun _ => rfl⟩
  | cons x xs ih =>
    have e : (({} : Writer F).writeFile false opens x) = ({}, false) := rfl
    rw [runFiles, e]
    refine ⟨?_, by simp [ih.2.1], ih.2.2⟩
    intro b hb
    rcases List.mem_cons.mp hb with rfl | hb
    · rfl
    · exact ih.1 b hb

/-- Layouts for the examples. -/
def conn : Layout Nat := ⟨str "conn", 1⟩
/-- The same name, other columns. -/
def conn2 : Layout Nat := ⟨str "conn", 2⟩
/-- Another name. -/
def dns : Layout Nat := ⟨str "dns", 3⟩

example : OneLayout [(⟨conn, [⟨str "a", true⟩]⟩ : Slice Nat), ⟨dns, [⟨str "b", true⟩, ⟨str "c", true⟩]⟩, ⟨conn, [⟨str "d", true⟩, ⟨str "e", false⟩]⟩] ∧
    ((runFiles true (fun _ => true) {} [(⟨conn, [⟨str "a", true⟩]⟩ : Slice Nat), ⟨dns, [⟨str "b", true⟩, ⟨str "c", true⟩]⟩, ⟨conn, [⟨str "d", true⟩, ⟨str "e", false⟩]⟩]).1.files
      (str "conn")).map Child.lines = some [.header conn, .row (str "a"), .row (str "d")] := by
  refine ⟨?_, by decide +kernel⟩
  intro x hx y hy h
  simp only [List.mem_cons, List.not_mem_nil, or_false] at hx hy
  rcases hx with rfl | rfl | rfl <;> rcases hy with rfl | rfl | rfl <;> first | rfl | (revert h; decide)

example : (∀ y ∈ [(⟨conn, [⟨str "a", true⟩]⟩ : Slice Nat), ⟨conn2, [⟨str "b", true⟩]⟩, ⟨conn2, [⟨str "c", true⟩]⟩], Printable y) ∧
    lines (runOut {} [(⟨conn, [⟨str "a", true⟩]⟩ : Slice Nat), ⟨conn2, [⟨str "b", true⟩]⟩, ⟨conn2, [⟨str "c", true⟩]⟩, ⟨conn, [⟨str "d", true⟩]⟩]).1 =
      [.header conn, .row (str "a"), .header conn2, .row (str "b"), .row (str "c"), .header conn, .row (str "d")] :=
  ⟨by simp [Printable], by decide +kernel⟩

/-- **C179 (refuted).**  Rows of a second layout with the same name are written behind the header of the first. -/
theorem C179_layouts_refuted : let r := runFiles true (fun _ => true) {} [(⟨conn, [⟨str "a", true⟩]⟩ : Slice Nat), ⟨conn2, [⟨str "b", true⟩]⟩]
    r.2 = [true, true] ∧ (r.1.files (str "conn")).map (fun c => readLog none c.lines) = some [(some conn, str "a"), (some conn, str "b")] := by
  decide +kernel

/-- **C179 (refuted).**  If a file cannot be opened, all calls succeed and nothing is written. -/
theorem C179_open_refuted : let r := runFiles true (fun _ => false) {} [(⟨conn, [⟨str "a", true⟩]⟩ : Slice Nat), ⟨conn, [⟨str "b", true⟩]⟩]
    r.2 = [true, true] ∧ (r.1.files (str "conn")).map Child.lines = some [] := by
  decide +kernel

/-- **C179 (refuted).**  The beginning of a row that could not be printed is put in front of the next row. -/
theorem C179_glued_refuted : let r := runOut {} [(⟨conn, [⟨str "a", false⟩]⟩ : Slice Nat), ⟨conn, [⟨str "b", true⟩]⟩]
    r.2 = [false, true] ∧ lines r.1 = [.header conn, .row (str "ab")] := by
  decide +kernel

end Verif.ZeekFiles
