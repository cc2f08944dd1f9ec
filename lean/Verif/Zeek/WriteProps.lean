import Verif.Zeek.Writing
import Verif.Zeek.ReadProps
/-!
# C97: writing Zeek logs

Rows that are written, under a header as Zeek writes it, are read again as the same rows, up to the precision of the format.  The
header that the writer itself writes cannot be read.
-/
namespace Verif.Zeek
open Verif.Data Verif.DataText Verif.Calendar Verif.Escape

/-- C97 (rows): every row of the kinds named in the specification has a line, and the lines are read, behind a header of Zeek with
the columns of the rows, as as many rows, in the same order, with the same values up to the precision. -/
theorem C97_rows_partial (env : Env) (m : Nat) (h : Spec.Head) (sepText : Str) (hk : Spec.HeadOk h sepText)
    (hz : h.sep = [9] ∧ h.setSep = [44] ∧ h.empty = DataText.Spec.ascii "(empty)" ∧ h.unset = DataText.Spec.ascii "-")
    (rows : List (List Data)) (hr : ∀ r ∈ rows, Spec.RowOk h.cols r) :
    ∃ lines, rows.map printRow = lines.map some ∧ ∀ items, linesIn items = Spec.headLines h sepText ++ lines →
      List.Forall₂ (fun r e => e.1 = DataText.Spec.ascii "zeek." ++ h.path ∧ e.2.1 = h.cols.map (fun c => (c.name, c.ty)) ∧ List.Forall₂ Spec.Near r e.2.2)
        rows (delivered (run env m items).out) ∧ ∀ w, (run env m items).mode ≠ .stopped w := by
  obtain ⟨lines, wss, e1, e2, e3⟩ := rows_lines env hk hz rows hr
  refine ⟨lines, e1, fun items hl => ?_⟩
  obtain ⟨h1, h2⟩ := head_reads (l := ⟨h, sepText, []⟩) hk env (.start, []) (.inl rfl)
  have hall : (linesIn items).foldl (absLine env) (.start, []) = (.body (headerOf h), label (headerOf h) wss) := by
    rw [hl, List.foldl_append, h1, (e3 _).1]; rfl
  obtain ⟨r1, r2⟩ := run_abs env m items (by
    intro pre x hp
    rw [hl] at hp
    rcases prefix_append hp with hp | ⟨q, rfl, hq⟩
    · exact h2 pre x hp
    · rw [List.foldl_append, h1]
      exact (e3 _).2 q x hq)
  rw [r1, r2, hall]
  refine ⟨?_, fun w => by simp⟩
  clear r1 r2 hall e1 e3 hr hl
  induction e2 with
  | nil => exact .nil
  | cons h _ ih => exact .cons ⟨rfl, rfl, h⟩ ih

/-- A header. -/
def writeHead : Spec.Head :=
  ⟨[9], [44], str "(empty)", str "-", str "x", str "2014",
    [⟨str "a", str "string", .string⟩, ⟨str "b", str "vector[int]", .list .int⟩, ⟨str "c", str "time", .time⟩, ⟨str "d", str "double", .real⟩]⟩

theorem writeHead_ok : Spec.HeadOk writeHead (str "\\x09") := by
  refine ⟨⟨by decide, ?_⟩, ?_, ⟨44, [], by decide⟩, by decide, by decide, by decide, ?_⟩
  · exact .cons 9 48 57 0 9 [] [] (.inl (by decide)) (.inl (by decide)) (by decide) .nil
  · intro p hp
    simp only [List.mem_cons, List.not_mem_nil, or_false] at hp
    rcases hp with rfl | rfl | rfl | rfl | rfl | rfl | rfl <;> (intro b hb; injection hb with hb; subst hb; decide)
  · intro c hc
    simp only [writeHead, List.mem_cons, List.not_mem_nil, or_false] at hc
    rcases hc with rfl | rfl | rfl | rfl
    · exact ⟨⟨by decide, fun b hb => by injection hb with hb; subst hb; decide⟩, ⟨by decide, fun b hb => by injection hb with hb; subst hb; decide⟩, .string⟩
    · exact ⟨⟨by decide, fun b hb => by injection hb with hb; subst hb; decide⟩, ⟨by decide, fun b hb => by injection hb with hb; subst hb; decide⟩,
        .vector _ _ .int⟩
    · exact ⟨⟨by decide, fun b hb => by injection hb with hb; subst hb; decide⟩, ⟨by decide, fun b hb => by injection hb with hb; subst hb; decide⟩, .time⟩
    · exact ⟨⟨by decide, fun b hb => by injection hb with hb; subst hb; decide⟩, ⟨by decide, fun b hb => by injection hb with hb; subst hb; decide⟩, .double⟩

/-- A row with a tab and a comma in a string, a list, a point in time with microseconds, and a negative number. -/
example : Spec.RowOk writeHead.cols [.string [97, 9, 44], .list [.int (-5), .int 7], .time 1258531221486539000, .real (.fin (-5 / 2))] := by
  refine ⟨.cons (.one _ _ (.string _ (by decide) (by decide)) (fun e => absurd (Data.string.inj e) (by decide)) (fun e => absurd (Data.string.inj e) (by decide))) (.cons (.list _ _ ?_ (by simp) (by simp))
    (.cons (.one _ _ (.time _ (by decide) (.inr (by decide))) (by simp) (by simp)) (.cons (.one _ _ (.real _ ?_ ?_) (by simp) (by simp)) .nil))), ?_⟩
  · intro v hv
    simp only [List.mem_cons, List.not_mem_nil, or_false] at hv
    rcases hv with rfl | rfl <;> exact .int _ (by decide) (by decide)
  · rw [abs_lt]; constructor <;> norm_num
  · have e : |(-5 / 2 : Rat)| = 5 / 2 := by rw [abs_of_neg (by norm_num)]; norm_num
    have f : (5 / 2 : Rat).floor = 2 := by decide +kernel
    rw [e, f]; norm_num
  · intro v hv
    simp at hv
    subst hv
    exact (by decide : (97 : UInt8) ≠ 35)

example : printRow [.string [97, 9, 44], .list [.int (-5), .int 7]] = some (str "a\\x09\\x2C\t-5,+7") := by decide +kernel
example : printReal (.fin (-5 / 2)) = some (str "-2.500000") := by decide +kernel
example : printReal (.fin (toSeconds 1258531221486539000)) = some (str "1258531221.486539") := by decide +kernel

/-! ### What the writer writes cannot be read -/

theorem content_empty {p x : Str} (hp : p ≠ []) : content [] p (p ++ x) = some (p ++ x) := by
  have h1 : p.isPrefixOf (p ++ x) = true := List.isPrefixOf_iff_prefix.mpr ⟨x, rfl⟩
  have h2 : find [] (p ++ x) = some ([], p ++ x) := by
    cases p with
    | nil => exact absurd rfl hp
    | cons b p => simp [find, List.isPrefixOf]
  simp [content, h1, h2, hp]

theorem head_step (env : Env) (m : Nat) (got : List Str) (p : String) (x : Str) (hp : str p ≠ []) (hg : prefixes.getD got.length [] = str p) :
    step env m ⟨.header [] got, [], []⟩ (.line (str p ++ x))
      = if got.length + 1 < prefixes.length then ⟨.header [] (got ++ [str p ++ x]), [], []⟩
        else match assemble [] (got ++ [str p ++ x]) with
          | .ok h => ⟨.body h, [], []⟩
          | .error e => ⟨.stopped e, [], []⟩ := by
  simp only [step, line, headerLine, hg, content_empty hp]
  rfl

/-- C97 (header): but for its first line, the header that is written for a layout is that of a Zeek log with these columns, under the
name without `zeek.`, from which the name of the layout is made again.  Other names are kept. -/
theorem C97_header_partial (path now : Str) (fields : List (Str × Ty)) (hf : fields ≠ []) :
    (printHeader (DataText.Spec.ascii "zeek." ++ path) (some now) fields).tail =
      (Spec.headLines ⟨[9], [44], DataText.Spec.ascii "(empty)", DataText.Spec.ascii "-", path, now,
        fields.map fun f => ⟨f.1, typeName f.2, f.2⟩⟩ (DataText.Spec.ascii "\\x09")).tail ∧
    ∀ name, ¬ DataText.Spec.ascii "zeek." <+: name → (printHeader name (some now) fields).tail =
      (Spec.headLines ⟨[9], [44], DataText.Spec.ascii "(empty)", DataText.Spec.ascii "-", name, now,
        fields.map fun f => ⟨f.1, typeName f.2, f.2⟩⟩ (DataText.Spec.ascii "\\x09")).tail := by
  have hj : ∀ (g : Str × Ty → Str) (l : List (Str × Ty)), l ≠ [] → (l.flatMap fun f => 9 :: g f) = [9] ++ Spec.joined [9] (l.map g) := by
    intro g l
    induction l with
    | nil => intro h; exact absurd rfl h
    | cons x l ih =>
      intro _
      cases l with
      | nil => simp [Spec.joined]
      | cons y l =>
        rw [List.flatMap_cons, ih (by simp)]
        simp [Spec.joined]
  have h1 := hj (·.1) fields hf
  have h2 := hj (fun f => typeName f.2) fields hf
  have hs : ∀ s : String, str s = DataText.Spec.ascii s := fun _ => rfl
  have e1 : stripName (DataText.Spec.ascii "zeek." ++ path) = path := by
    unfold stripName
    rw [hs, if_pos (List.isPrefixOf_iff_prefix.mpr ⟨path, rfl⟩)]
    rfl
  constructor
  · simp only [printHeader, h1, h2, e1, Spec.headLines, List.map_map]
    rfl
  · intro name hn
    have e2 : stripName name = name := by
      unfold stripName
      rw [hs, if_neg (fun h => hn (List.isPrefixOf_iff_prefix.mp h))]
    simp only [printHeader, h1, h2, e2, Spec.headLines, List.map_map]
    rfl

/-- The name of a Zeek log, and another one. -/
example : (printHeader (str "zeek.conn") (some (str "2014")) [(str "ts", .time), (str "id", .string)]).getD 4 [] = str "#path\tconn" ∧
    (printHeader (str "suricata.flow") (some (str "2014")) [(str "ts", .time), (str "id", .string)]).getD 4 [] = str "#path\tsuricata.flow" := by
  decide +kernel

/-- C97 (refuted): an exported log cannot be imported, whatever it is named and whichever columns it has: the separator is written as
it is, so the reader takes it to be empty, and an assertion fails. -/
theorem C97_header_refuted (env : Env) (m : Nat) (name now : Str) (fields : List (Str × Ty)) (lines : List Str) :
    run env m ((printHeader name (some now) fields ++ lines).map Item.line) = ⟨.stopped .abort, [], []⟩ := by
  have hrest : ∀ ls : List Str, (ls.map Item.line).foldl (step env m) ⟨.stopped .abort, [], []⟩ = ⟨.stopped .abort, [], []⟩ := by
    intro ls
    induction ls with
    | nil => rfl
    | cons l ls ih => exact ih
  have h0 : step env m ⟨.start, [], []⟩ (.line (str "#separator " ++ [9])) = ⟨.header [] [], [], []⟩ := rfl
  have hs := fun got p x hp hg => head_step env m got p x hp hg
  have key : ((printHeader name (some now) fields).map Item.line).foldl (step env m) ⟨.start, [], []⟩ = ⟨.stopped .abort, [], []⟩ := by
    simp only [printHeader, List.cons_append, List.nil_append, List.map_cons, List.map_nil, List.foldl_cons, List.foldl_nil, h0]
    rw [hs [] "#set_separator" _ (by decide) rfl, if_pos (by simp [prefixes])]; simp only [List.nil_append, List.cons_append]
    rw [hs [_] "#empty_field" _ (by decide) rfl, if_pos (by simp [prefixes])]; simp only [List.nil_append, List.cons_append]
    rw [hs [_, _] "#unset_field" _ (by decide) rfl, if_pos (by simp [prefixes])]; simp only [List.nil_append, List.cons_append]
    rw [hs [_, _, _] "#path" _ (by decide) rfl, if_pos (by simp [prefixes])]; simp only [List.nil_append, List.cons_append]
    rw [hs [_, _, _, _] "#open" _ (by decide) rfl, if_pos (by simp [prefixes])]; simp only [List.nil_append, List.cons_append]
    rw [hs [_, _, _, _, _] "#fields" _ (by decide) rfl, if_pos (by simp [prefixes])]; simp only [List.nil_append, List.cons_append]
    rw [hs [_, _, _, _, _, _] "#types" _ (by decide) rfl, if_neg (by simp [prefixes])]
    rfl
  rw [run, List.map_append, List.foldl_append, key, hrest]
  rfl

/-- C97 (refuted): without time stamps, the import ends at the header with an error. -/
theorem C97_open_refuted (env : Env) (m : Nat) (name : Str) (fields : List (Str × Ty)) (lines : List Str) :
    run env m ((printHeader name none fields ++ lines).map Item.line) = ⟨.stopped .error, [], []⟩ := by
  have hrest : ∀ ls : List Str, (ls.map Item.line).foldl (step env m) ⟨.stopped .error, [], []⟩ = ⟨.stopped .error, [], []⟩ := by
    intro ls
    induction ls with
    | nil => rfl
    | cons l ls ih => exact ih
  have h0 : step env m ⟨.start, [], []⟩ (.line (str "#separator " ++ [9])) = ⟨.header [] [], [], []⟩ := rfl
  have hs := fun got p x hp hg => head_step env m got p x hp hg
  have key : ((printHeader name none fields).map Item.line).foldl (step env m) ⟨.start, [], []⟩ = ⟨.stopped .error, [], []⟩ := by
    simp only [printHeader, List.cons_append, List.nil_append, List.append_nil, List.map_cons, List.map_nil, List.foldl_cons, List.foldl_nil, h0]
    rw [hs [] "#set_separator" _ (by decide) rfl, if_pos (by simp [prefixes])]; simp only [List.nil_append, List.cons_append]
    rw [hs [_] "#empty_field" _ (by decide) rfl, if_pos (by simp [prefixes])]; simp only [List.nil_append, List.cons_append]
    rw [hs [_, _] "#unset_field" _ (by decide) rfl, if_pos (by simp [prefixes])]; simp only [List.nil_append, List.cons_append]
    rw [hs [_, _, _] "#path" _ (by decide) rfl, if_pos (by simp [prefixes])]; simp only [List.nil_append, List.cons_append]
    rfl
  rw [run, List.map_append, List.foldl_append, key, hrest]
  rfl

/-- C97 (refuted): strings that are read as something else: `-` as nothing, `(empty)` as an empty string, a backslash with `x41` as
a letter. -/
theorem C97_string_refuted (env : Env) :
    printCell (.string (str "-")) = some (str "-") ∧ field env (headerOf writeHead) .string (str "-") = some .none
    ∧ printCell (.string (str "(empty)")) = some (str "(empty)") ∧ field env (headerOf writeHead) .string (str "(empty)") = some (.string [])
    ∧ printCell (.string (str "\\x41")) = some (str "\\x41") ∧ field env (headerOf writeHead) .string (str "\\x41") = some (.string (str "A")) := by
  refine ⟨by decide, rfl, by decide, rfl, by decide, rfl⟩

/-- C97 (refuted): an empty string is written as an empty text, with which a row can have one field less. -/
theorem C97_empty_refuted : printRow [.count 1, .string []] = some (str "1\t") ∧ splitAll (str "1\t") [9] = [str "1"] := by
  refine ⟨by decide +kernel, by decide⟩

/-- C97 (refuted): a row that begins with `#` is read as a comment. -/
theorem C97_hash_refuted (env : Env) (m : Nat) (s : State) (h : Header) (hm : s.mode = .body h) :
    printRow [.string (str "#a")] = some (str "#a") ∧ line env m s (str "#a") = s := by
  refine ⟨by decide, ?_⟩
  have e1 : (str "#separator").isPrefixOf (str "#a") = false := by decide
  have e2 : (str "#").isPrefixOf (str "#a") = true := by decide
  have e3 : str "#a" ≠ [] := by decide
  simp [line, hm, e1, e2, e3]

/-- C97 (refuted): a missing element is read as the string `-`, and is an error in a list of numbers. -/
theorem C97_element_refuted (env : Env) :
    printCell (.list [.string (str "a"), .none]) = some (str "a,-")
    ∧ field env (headerOf writeHead) (.list .string) (str "a,-") = some (.list [.string (str "a"), .string (str "-")])
    ∧ printCell (.list [.count 1, .none]) = some (str "1,-") ∧ field env (headerOf writeHead) (.list .count) (str "1,-") = none := by
  refine ⟨by decide, rfl, by decide +kernel, rfl⟩

/-- C97 (refuted): numbers with a fraction that rounds up to one lose the carry, so 0.9999996 becomes 0.1 and a second less 400 ns
becomes 100 ms. -/
theorem C97_carry_refuted : printCell (.real (.fin (9999996 / 10 ^ 7))) = some (str "0.100000")
    ∧ printCell (.duration 999999600) = some (str "0.100000") := by
  constructor <;> decide +kernel

/-- C97 (refuted): there are values with no text at all: maps, real numbers from 2^64 on and the smallest integer (the last two are
undefined). -/
theorem C97_nothing_refuted (ks vs : List Data) : printCell (.map ks vs) = none ∧ printCell (.real (.fin (2 ^ 64))) = none ∧ printCell (.int (-(2 ^ 63))) = none := by
  refine ⟨by simp [printCell], by decide +kernel, by decide +kernel⟩

/-- C97 (refuted): a pattern is written in slashes; reading a column of patterns is an error. -/
theorem C97_pattern_refuted (env : Env) : printCell (.pattern (str "foo")) = some (str "/foo/") ∧ (field env (headerOf writeHead) .pattern (str "/foo/")) = some (.string (str "/foo/"))
    ∧ takes .pattern (.string (str "/foo/")) = false := by
  refine ⟨by decide, rfl, rfl⟩

end Verif.Zeek
