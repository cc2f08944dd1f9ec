import Verif.Zeek.Cells
import Verif.Zeek.TypeProps
import Verif.Escape.SplitProps
import Verif.DataText.Literals
/-!
Lemmas about reading lines.
-/
namespace Verif.Zeek
open Verif.Data Verif.DataText Verif.Escape

/-! ### Splitting -/

theorem not_prefix {b c : UInt8} (h : b ≠ c) (s r : Str) : (b :: s).isPrefixOf (c :: r) = false := by
  simp [List.isPrefixOf, h]

theorem split_walk (b : UInt8) (s : Str) (max : Nat) : ∀ (c r : Str) (n : Nat) (seen cur : Str) (k : Nat), b ∉ c → c.length ≤ n →
    splitLoop (b :: s) [] max false n seen cur (c ++ r) k = splitLoop (b :: s) [] max false (n - c.length) (seen ++ c) (cur ++ c) r k
  | [], r, n, seen, cur, k, _, _ => by simp
  | x :: c, r, n, seen, cur, k, h, hn => by
    obtain ⟨j, rfl⟩ : ∃ j, n = j + 1 := ⟨n - 1, by simp at hn; omega⟩
    have hx : b ≠ x := fun e => h (by simp [e])
    have := split_walk b s max c r j (seen ++ [x]) (cur ++ [x]) k (fun e => h (by simp [e])) (by simpa using hn)
    simp only [List.cons_append, splitLoop, not_prefix hx]
    rw [if_neg (by simp), this]
    simp

theorem split_joined (b : UInt8) (s : Str) (max : Nat) : ∀ (xs : List Str) (n : Nat) (seen : Str) (k : Nat), xs ≠ [] → (∀ x ∈ xs, x ≠ [] ∧ b ∉ x) →
    (Spec.joined (b :: s) xs).length ≤ n → k + xs.length ≤ max + 1 →
    splitLoop (b :: s) [] max false n seen [] (Spec.joined (b :: s) xs) k = xs
  | [], _, _, _, h, _, _, _ => absurd rfl h
  | [x], n, seen, k, _, hx, hn, _ => by
    have := split_walk b s max x [] n seen [] k (hx x (by simp)).2 (by simpa [Spec.joined] using hn)
    simp only [List.append_nil, List.nil_append] at this
    simp only [Spec.joined, this]
    generalize n - x.length = j
    cases j <;> simp [splitLoop, (hx x (by simp)).1]
  | x :: y :: ys, n, seen, k, _, hx, hn, hk => by
    have e : Spec.joined (b :: s) (x :: y :: ys) = x ++ ((b :: s) ++ Spec.joined (b :: s) (y :: ys)) := by simp [Spec.joined]
    rw [e] at hn ⊢
    simp only [List.length_append, List.length_cons] at hn hk
    rw [split_walk b s max x _ n seen [] k (hx x (by simp)).2 (by omega)]
    obtain ⟨j, hj⟩ : ∃ j, n - x.length = j + 1 := ⟨n - x.length - 1, by omega⟩
    rw [hj]
    have ih := split_joined b s max (y :: ys) j (seen ++ x ++ (b :: s)) (k + 1) (by simp) (fun z hz => hx z (by simp [hz])) (by omega) (by simp; omega)
    have hp : (b :: s).isPrefixOf (b :: (s ++ Spec.joined (b :: s) (y :: ys))) = true :=
      List.isPrefixOf_iff_prefix.mpr ⟨Spec.joined (b :: s) (y :: ys), rfl⟩
    have hd : List.drop (b :: s).length (b :: (s ++ Spec.joined (b :: s) (y :: ys))) = Spec.joined (b :: s) (y :: ys) := by simp
    simp only [List.nil_append, List.cons_append, splitLoop, hp, escaped, List.isEmpty_nil, Bool.not_true, Bool.false_and]
    rw [if_pos ⟨trivial, trivial⟩, if_neg (by omega), hd]
    simp only [Bool.false_eq_true, if_false, List.nil_append]
    rw [ih]

theorem splitAll_joined {sep : Str} (hs : sep ≠ []) {xs : List Str} (hne : xs ≠ []) (hx : ∀ x ∈ xs, x ≠ [] ∧ Spec.Without sep x) (hl : xs.length < 2 ^ 64) :
    splitAll (Spec.joined sep xs) sep = xs := by
  cases sep with
  | nil => exact absurd rfl hs
  | cons b s =>
    exact split_joined b s _ xs _ _ 0 hne (fun x h => ⟨(hx x h).1, (hx x h).2 b rfl⟩) (Nat.le_refl _) (by omega)

theorem find_sep {sep : Str} (hs : sep ≠ []) {pre : Str} (h : Spec.Without sep pre) (c : Str) : find sep (pre ++ sep ++ c) = some (pre, c) := by
  cases sep with
  | nil => exact absurd rfl hs
  | cons b s =>
    have hb : b ∉ pre := h b rfl
    clear h
    induction pre with
    | nil =>
      have hp : (b :: s).isPrefixOf (b :: (s ++ c)) = true := List.isPrefixOf_iff_prefix.mpr ⟨c, rfl⟩
      have hd : List.drop (b :: s).length (b :: (s ++ c)) = c := by simp
      simp only [List.nil_append, List.cons_append, find, hp, if_true, hd]
    | cons x pre ih =>
      have hx : b ≠ x := fun e => hb (by simp [e])
      have ih := ih fun e => hb (by simp [e])
      simp only [List.cons_append, List.append_assoc] at ih ⊢
      simp only [find, not_prefix hx, Bool.false_eq_true, if_false, ih, Option.map_some]

theorem find_some {sep : Str} : ∀ {s a c : Str}, find sep s = some (a, c) → s = a ++ sep ++ c := by
  intro s
  induction s with
  | nil =>
    intro a c h
    unfold find at h
    split at h
    · rename_i hs
      cases h
      simp [hs]
    · cases h
  | cons x s ih =>
    intro a c h
    unfold find at h
    split at h
    · rename_i hp
      obtain ⟨t, ht⟩ := List.isPrefixOf_iff_prefix.mp hp
      cases h
      rw [← ht]
      simp
    · cases hr : find sep s with
      | none => rw [hr] at h; cases h
      | some r =>
        rw [hr] at h
        cases h
        rw [ih hr]
        simp

/-! ### Headers -/

theorem separator_text {s t : Str} (h : Spec.SepText s t) : separator t = some s := by
  induction h with
  | nil => rfl
  | cons b hi lo x y s t hx hy hb _ ih =>
    have h1 := hex_facts hx
    have h2 := hex_facts hy
    have n1 : hi ≠ ch '\\' := fun e => by rw [e] at h1; exact absurd h1.1 (by decide)
    have n2 : lo ≠ ch '\\' := fun e => by rw [e] at h2; exact absurd h2.1 (by decide)
    have e1 : stoi16 (hi :: lo :: t) = some (x * 16 + y) := by
      simp [stoi16, hexDigit, h1.2.2.2.1, h2.2.2.2.1, h1.2.2.2.2, h2.2.2.2.2]
    have e2 : separator (120 :: hi :: lo :: t) = some s := by
      have n3 : (120 : UInt8) ≠ ch '\\' := by decide
      simp [separator, n1, n2, n3, ih]
    have e3 : (x * 16 + y).toUInt8 = b := by rw [← hb]; simp
    rw [separator, if_pos ⟨rfl, rfl⟩]
    simp only [List.drop_succ_cons, List.drop_zero, e1, e2, e3]

theorem content_line {sep : Str} (hs : sep ≠ []) {p : Str} (h : Spec.Without sep p) {c : Str} (hc : c ≠ []) : content sep p (p ++ sep ++ c) = some c := by
  have hp : p.isPrefixOf (p ++ sep ++ c) = true := List.isPrefixOf_iff_prefix.mpr ⟨sep ++ c, by simp⟩
  simp only [content, hp, if_true, find_sep hs h c, hc, if_false]

theorem columns_ok : ∀ (cols : List Spec.Column), (∀ c ∈ cols, Spec.Names c.typeName c.ty) →
    columns (cols.map (·.name)) (cols.map (·.typeName)) = some (cols.map fun c => (c.name, c.ty))
  | [], _ => rfl
  | c :: cs, h => by
    have ih := columns_ok cs fun d hd => h d (by simp [hd])
    simp [columns, C95_names _ _ (h c (by simp)), ih]

/-- The header that is read. -/
def headerOf (h : Spec.Head) : Header := ⟨h.sep, h.setSep, h.empty, h.unset, str "zeek." ++ h.path, h.cols.map fun c => (c.name, c.ty)⟩

theorem joined_ne {sep : Str} {xs : List Str} (hne : xs ≠ []) (hx : ∀ x ∈ xs, x ≠ []) : Spec.joined sep xs ≠ [] := by
  cases xs with
  | nil => exact absurd rfl hne
  | cons x xs => rw [joined_cons]; intro e; exact hx x (by simp) (List.append_eq_nil_iff.mp e).1

/-! ### The reader without slices -/

/-- The events of some rows. -/
def label (h : Header) (rows : List (List Data)) : List (Str × List (Str × Ty) × List Data) := rows.map fun r => (h.name, h.fields, r)

/-- The events in slices. -/
def delivered (out : List Slice) : List (Str × List (Str × Ty) × List Data) := out.flatMap fun s => label s.1 s.2

/-- The events in the builder. -/
def waiting (s : State) : List (Str × List (Str × Ty) × List Data) :=
  match s.mode with
  | .body h => label h s.rows
  | _ => []

/-- The mode and the events. -/
abbrev Abs := Mode × List (Str × List (Str × Ty) × List Data)

def abs (s : State) : Abs := (s.mode, delivered s.out ++ waiting s)

theorem abs_finish (s : State) : abs (finish s) = abs s := by
  obtain ⟨m, rows, out⟩ := s
  cases m with
  | body h =>
    simp only [finish]
    split
    · rfl
    · simp [abs, waiting, delivered, label]
  | _ => rfl

theorem finish_waiting (s : State) : waiting (finish s) = [] := by
  obtain ⟨m, rows, out⟩ := s
  cases m with
  | body k =>
    by_cases h : rows = []
    · simp [finish, waiting, h, label]
    · simp [finish, waiting, h, label]
  | _ => rfl

/-- The mode after the first line of a header. -/
def startMode (l : Str) : Mode := (startHeader ⟨.start, [], []⟩ l).mode

/-- The mode after another line of a header. -/
def headMode (sep : Str) (got : List Str) (l : Str) : Mode := (headerLine ⟨.start, [], []⟩ sep got l).mode

/-- What a line does. -/
def absLine (env : Env) (a : Abs) (l : Str) : Abs :=
  match a.1 with
  | .stopped _ => a
  | .start => (startMode l, a.2)
  | .header sep got => (headMode sep got l, a.2)
  | .body h =>
    if l = [] then a
    else if (str "#separator").isPrefixOf l then (startMode l, a.2)
    else if (str "#").isPrefixOf l then a
    else if (splitAll l h.sep).length ≠ h.fields.length then a
    else match readFields env h (h.fields.map (·.2)) (splitAll l h.sep) with
      | none => (.stopped .error, a.2)
      | some vs => (.body h, a.2 ++ [(h.name, h.fields, vs)])

/-- No column refuses its value. -/
def Fits (env : Env) (a : Abs) (l : Str) : Prop :=
  ∀ h, a.1 = .body h → l ≠ [] → ¬ (str "#").isPrefixOf l = true → (splitAll l h.sep).length = h.fields.length →
    ∀ vs, readFields env h (h.fields.map (·.2)) (splitAll l h.sep) = some vs → taken (h.fields.map (·.2)) vs = vs.length

/-- In a header there are no rows. -/
def Calm (s : State) : Prop := (∀ h, s.mode ≠ .body h) → s.rows = []

theorem startHeader_abs (s : State) (h : s.rows = []) (l : Str) : abs (startHeader s l) = (startMode l, delivered s.out) ∧ Calm (startHeader s l) := by
  unfold startMode startHeader
  split
  · split <;> simp [abs, waiting, Calm, h]
  · simp [abs, waiting, Calm, h]

theorem headerLine_abs (s : State) (h : s.rows = []) (sep : Str) (got : List Str) (l : Str) :
    abs (headerLine s sep got l) = (headMode sep got l, delivered s.out) ∧ Calm (headerLine s sep got l) := by
  unfold headMode headerLine
  split
  · simp [abs, waiting, Calm, h]
  · split
    · simp [abs, waiting, Calm, h]
    · split <;> simp [abs, waiting, Calm, h, label]

theorem finish_calm (s : State) (h : Calm s) : Calm (finish s) := by
  obtain ⟨m, rows, out⟩ := s
  cases m with
  | body k =>
    simp only [finish]
    split
    · exact h
    · intro _; rfl
  | _ => exact h

theorem finish_rows (s : State) (h : Calm s) : (finish s).rows = [] := by
  obtain ⟨m, rows, out⟩ := s
  cases m with
  | body k =>
    simp only [finish]
    split
    · rename_i e; exact e
    · rfl
  | _ => exact h (by simp)

theorem finish_out (s : State) : delivered (finish s).out = (abs s).2 := by
  have h1 := abs_finish s
  have h2 := finish_waiting s
  have : (abs (finish s)).2 = delivered (finish s).out := by simp [abs, h2]
  rw [← this, h1]

theorem line_abs (env : Env) (m : Nat) (s : State) (hc : Calm s) (l : Str) (hf : Fits env (abs s) l) :
    abs (line env m s l) = absLine env (abs s) l ∧ Calm (line env m s l) := by
  cases hm : s.mode with
  | stopped w => simp only [line, hm, absLine, abs]; exact ⟨trivial, hc⟩
  | start =>
    have hr : s.rows = [] := hc (by simp [hm])
    have hw : waiting s = [] := by simp [waiting, hm]
    have := startHeader_abs s hr l
    simp only [line, hm, absLine, abs, hw, List.append_nil]
    exact this
  | header sep got =>
    have hr : s.rows = [] := hc (by simp [hm])
    have hw : waiting s = [] := by simp [waiting, hm]
    have := headerLine_abs s hr sep got l
    simp only [line, hm, absLine, abs, hw, List.append_nil]
    exact this
  | body h =>
    have ha : (abs s).1 = .body h := hm
    simp only [line, hm, absLine, ha]
    split
    · exact ⟨rfl, hc⟩
    · rename_i hl
      split
      · have := startHeader_abs (finish s) (finish_rows s hc) l
        rw [finish_out] at this
        exact this
      · split
        · exact ⟨rfl, hc⟩
        · rename_i h1 h2
          unfold record
          split
          · rename_i h3
            exact ⟨rfl, hc⟩
          · rename_i h3
            have hfit := hf h ha hl h2 (by simpa using h3)
            split
            · rename_i h4
              simp only [fail]
              refine ⟨?_, fun _ => finish_rows s hc⟩
              have : waiting { finish s with mode := .stopped .error } = [] := rfl
              rw [h4]
              have e : abs { finish s with mode := .stopped .error } = (.stopped .error, delivered (finish s).out) := by
                simp [abs, this]
              rw [e, finish_out]
            · rename_i vs h4
              have hk : abs { s with rows := s.rows ++ [vs] } = (.body h, (abs s).2 ++ [(h.name, h.fields, vs)])
                  ∧ Calm { s with rows := s.rows ++ [vs] } := by
                refine ⟨?_, fun hn => absurd hm (hn h)⟩
                simp [abs, waiting, hm, label]
              rw [if_pos (hfit vs h4), h4]
              split
              · exact ⟨(abs_finish _).trans hk.1, finish_calm _ hk.2⟩
              · exact hk

/-- The lines among the items. -/
def linesIn (items : List Item) : List Str := items.filterMap fun i => match i with | .line l => some l | .flush => none

theorem fold_abs (env : Env) (m : Nat) : ∀ (items : List Item) (s : State), Calm s →
    (∀ pre l, pre ++ [l] <+: linesIn items → Fits env (pre.foldl (absLine env) (abs s)) l) →
    abs (items.foldl (step env m) s) = (linesIn items).foldl (absLine env) (abs s) ∧ Calm (items.foldl (step env m) s)
  | [], s, hc, _ => ⟨rfl, hc⟩
  | .flush :: items, s, hc, hf => by
    have := fold_abs env m items (finish s) (finish_calm s hc) (by rw [abs_finish]; exact hf)
    rw [abs_finish] at this
    exact this
  | .line l :: items, s, hc, hf => by
    have e : linesIn (.line l :: items) = l :: linesIn items := rfl
    rw [e] at hf ⊢
    obtain ⟨h1, h2⟩ := line_abs env m s hc l (hf [] l ⟨linesIn items, rfl⟩)
    have := fold_abs env m items (line env m s l) h2 (by
      intro pre k hp
      rw [h1]
      obtain ⟨t, ht⟩ := hp
      exact hf (l :: pre) k ⟨t, by simp [← ht]⟩)
    rw [h1] at this
    exact this

/-! ### Logs -/

theorem forall₂_length {α β : Type} {R : α → β → Prop} {xs : List α} {ys : List β} (h : List.Forall₂ R xs ys) : xs.length = ys.length := by
  induction h with
  | nil => rfl
  | cons _ _ ih => simp [ih]

/-- A field of a record is read as what it means. -/
theorem field_reads (env : Env) (h : Spec.Head) (hs : ∃ b s, h.setSep = b :: s ∧ stickyA b = false) {t : Ty} {x : Str} {v : Data} (hf : Spec.Field h t x v) :
    ∃ w, field env (headerOf h) t x = some w ∧ Spec.Field h t x w ∧ takes t w = true := by
  cases hf with
  | unset => exact ⟨.none, by simp [field, headerOf], .unset _, by simp [takes]⟩
  | emptyString he => exact ⟨.string [], by simp [field, headerOf, he, construct], .emptyString he, rfl⟩
  | emptyList t he => exact ⟨.list [], by simp [field, headerOf, he, construct], .emptyList t he, rfl⟩
  | value _ _ v hu he hm =>
    obtain ⟨w, c1, c2, c3⟩ := cell_reads env hs hm
    refine ⟨w, ?_, .value _ _ _ hu he c2, c3⟩
    simp only [field, headerOf, hu, he, if_false]
    exact c1

theorem fields_read (env : Env) (h : Spec.Head) (hs : ∃ b s, h.setSep = b :: s ∧ stickyA b = false) : ∀ (cols : List Spec.Column) (texts : List Str),
    List.Forall₂ (fun c x => ∃ v, Spec.Field h c.ty x v) cols texts → ∃ ws, readFields env (headerOf h) (cols.map (·.ty)) texts = some ws
      ∧ taken (cols.map (·.ty)) ws = ws.length
      ∧ ∃ w : List (Ty × Str), w.map (·.1) = cols.map (·.ty) ∧ w.map (·.2) = texts ∧ List.Forall₂ (fun p v => Spec.Field h p.1 p.2 v) w ws
  | [], [], _ => ⟨[], rfl, rfl, [], rfl, rfl, .nil⟩
  | c :: cs, x :: xs, hf => by
    cases hf with
    | cons h1 h2 =>
      obtain ⟨v, hv⟩ := h1
      obtain ⟨w, a1, a2, a3⟩ := field_reads env h hs hv
      obtain ⟨ws, b1, b2, pw, b3, b4, b5⟩ := fields_read env h hs cs xs h2
      refine ⟨w :: ws, ?_, ?_, (c.ty, x) :: pw, by simp [b3], by simp [b4], .cons a2 b5⟩
      · simp [readFields, a1, b1]
      · simp [taken, a3, b2]

section
variable {l : Spec.Log} (hk : Spec.HeadOk l.head l.sepText)
include hk

/-- The lines of a header lead to the body. -/
theorem head_reads (env : Env) (a : Abs) (ha : a.1 = .start ∨ ∃ h, a.1 = .body h) :
    (Spec.headLines l.head l.sepText).foldl (absLine env) a = (.body (headerOf l.head), a.2)
    ∧ ∀ pre x, pre ++ [x] <+: Spec.headLines l.head l.sepText → Fits env (pre.foldl (absLine env) a) x := by
  obtain ⟨hsep, htext⟩ := hk.sep
  have hstart : startMode (DataText.Spec.ascii "#separator " ++ l.sepText) = .header l.head.sep [] := by
    have hp : (str "#separator ").isPrefixOf (DataText.Spec.ascii "#separator " ++ l.sepText) = true := List.isPrefixOf_iff_prefix.mpr ⟨_, rfl⟩
    have hd : (DataText.Spec.ascii "#separator " ++ l.sepText).drop 11 = l.sepText := rfl
    simp only [startMode, startHeader, hp, if_true, hd, separator_text htext]
  have h0 : ∀ a : Abs, (a.1 = .start ∨ ∃ h, a.1 = .body h) → absLine env a (DataText.Spec.ascii "#separator " ++ l.sepText) = (.header l.head.sep [], a.2) := by
    intro a ha
    rcases ha with h | ⟨h, hh⟩
    · simp only [absLine, h, hstart]
    · have hp : (str "#separator").isPrefixOf (DataText.Spec.ascii "#separator " ++ l.sepText) = true :=
        List.isPrefixOf_iff_prefix.mpr ⟨32 :: l.sepText, rfl⟩
      simp only [absLine, hh, hp, if_true, hstart]
      rfl
  have hline : ∀ (got : List Str) (p : String) (c : Str) (evs), p ∈ ["#set_separator", "#empty_field", "#unset_field", "#path", "#open", "#fields", "#types"] →
      prefixes.getD got.length [] = str p → c ≠ [] → got.length + 1 < prefixes.length →
      absLine env (.header l.head.sep got, evs) (DataText.Spec.ascii p ++ l.head.sep ++ c) = (.header l.head.sep (got ++ [c]), evs) := by
    intro got p c evs hp hg hc hl
    have := content_line hsep (hk.noSep p hp) hc
    simp only [absLine, headMode, headerLine, hg]
    rw [ascii_eq] at this ⊢
    rw [this]
    simp only [hl, if_true]
  have hnames : ∀ x ∈ l.head.cols.map (·.name), x ≠ [] ∧ Spec.Without l.head.sep x := by
    intro x hx
    obtain ⟨c, hc, rfl⟩ := List.mem_map.mp hx
    exact (hk.cols.2.2 c hc).1
  have htypes : ∀ x ∈ l.head.cols.map (·.typeName), x ≠ [] ∧ Spec.Without l.head.sep x := by
    intro x hx
    obtain ⟨c, hc, rfl⟩ := List.mem_map.mp hx
    exact (hk.cols.2.2 c hc).2.1
  have hf := splitAll_joined hsep (xs := l.head.cols.map (·.name)) (by simpa using hk.cols.1) hnames (by simpa using hk.cols.2.1)
  have ht := splitAll_joined hsep (xs := l.head.cols.map (·.typeName)) (by simpa using hk.cols.1) htypes (by simpa using hk.cols.2.1)
  have hcols := columns_ok l.head.cols fun c hc => (hk.cols.2.2 c hc).2.2
  have hfne := joined_ne (sep := l.head.sep) (xs := l.head.cols.map (·.name)) (by simpa using hk.cols.1) fun x hx => (hnames x hx).1
  have htne := joined_ne (sep := l.head.sep) (xs := l.head.cols.map (·.typeName)) (by simpa using hk.cols.1) fun x hx => (htypes x hx).1
  obtain ⟨f1, f2, f3, f4⟩ := hk.filled
  have f0 : l.head.setSep ≠ [] := by obtain ⟨b, s, e, _⟩ := hk.setSep; rw [e]; simp
  have hlast : ∀ evs, absLine env (.header l.head.sep [l.head.setSep, l.head.empty, l.head.unset, l.head.path, l.head.opened,
      Spec.joined l.head.sep (l.head.cols.map (·.name))], evs) (DataText.Spec.ascii "#types" ++ l.head.sep ++ Spec.joined l.head.sep (l.head.cols.map (·.typeName)))
      = (.body (headerOf l.head), evs) := by
    intro evs
    have := content_line hsep (hk.noSep "#types" (by simp)) htne
    have hg : prefixes.getD [l.head.setSep, l.head.empty, l.head.unset, l.head.path, l.head.opened, Spec.joined l.head.sep (l.head.cols.map (·.name))].length []
      = str "#types" := rfl
    simp only [absLine, headMode, headerLine, hg]
    rw [ascii_eq] at this ⊢
    rw [this]
    have hlen : ¬ ([l.head.setSep, l.head.empty, l.head.unset, l.head.path, l.head.opened, Spec.joined l.head.sep (l.head.cols.map (·.name))].length + 1
      < prefixes.length) := by simp [prefixes]
    simp only [hlen, if_false, List.cons_append, List.nil_append, assemble, hsep, hf, ht, List.length_map, ne_eq, not_true_eq_false, hcols, headerOf]
  have s1 := hline [] "#set_separator" l.head.setSep a.2 (by simp) rfl f0 (by simp [prefixes])
  have s2 := hline [l.head.setSep] "#empty_field" l.head.empty a.2 (by simp) rfl f1 (by simp [prefixes])
  have s3 := hline [l.head.setSep, l.head.empty] "#unset_field" l.head.unset a.2 (by simp) rfl f2 (by simp [prefixes])
  have s4 := hline [l.head.setSep, l.head.empty, l.head.unset] "#path" l.head.path a.2 (by simp) rfl f3 (by simp [prefixes])
  have s5 := hline [l.head.setSep, l.head.empty, l.head.unset, l.head.path] "#open" l.head.opened a.2 (by simp) rfl f4 (by simp [prefixes])
  have s6 := hline [l.head.setSep, l.head.empty, l.head.unset, l.head.path, l.head.opened] "#fields" (Spec.joined l.head.sep (l.head.cols.map (·.name))) a.2
    (by simp) rfl hfne (by simp [prefixes])
  simp only [List.nil_append, List.cons_append] at s1 s2 s3 s4 s5 s6
  constructor
  · simp only [Spec.headLines, List.foldl_cons, List.foldl_nil, h0 a ha, s1, s2, s3, s4, s5, s6, hlast]
  · intro pre x hpre
    have hfits : ∀ (a : Abs) (x : Str), (∀ h, a.1 ≠ .body h) → Fits env a x := fun a x hn h hh => absurd hh (hn h)
    have hfirst : Fits env a (DataText.Spec.ascii "#separator " ++ l.sepText) := by
      intro h _ _ hn
      exact absurd (List.isPrefixOf_iff_prefix.mpr ⟨str "separator " ++ l.sepText, rfl⟩) hn
    obtain ⟨t, ht⟩ := hpre
    simp only [Spec.headLines] at ht
    rcases pre with _ | ⟨p1, pre⟩
    · have : x = _ := (List.cons.inj ht).1
      rw [this]; exact hfirst
    · have e1 : p1 = DataText.Spec.ascii "#separator " ++ l.sepText := (List.cons.inj ht).1
      have ht1 := (List.cons.inj ht).2
      rw [List.foldl_cons, e1, h0 a ha]
      apply hfits
      rcases pre with _ | ⟨p2, pre⟩
      · simp
      · have e2 := (List.cons.inj ht1).1
        have ht2 := (List.cons.inj ht1).2
        rw [List.foldl_cons, e2, s1]
        rcases pre with _ | ⟨p3, pre⟩
        · simp
        · have e3 := (List.cons.inj ht2).1
          have ht3 := (List.cons.inj ht2).2
          rw [List.foldl_cons, e3, s2]
          rcases pre with _ | ⟨p4, pre⟩
          · simp
          · have e4 := (List.cons.inj ht3).1
            have ht4 := (List.cons.inj ht3).2
            rw [List.foldl_cons, e4, s3]
            rcases pre with _ | ⟨p5, pre⟩
            · simp
            · have e5 := (List.cons.inj ht4).1
              have ht5 := (List.cons.inj ht4).2
              rw [List.foldl_cons, e5, s4]
              rcases pre with _ | ⟨p6, pre⟩
              · simp
              · have e6 := (List.cons.inj ht5).1
                have ht6 := (List.cons.inj ht5).2
                rw [List.foldl_cons, e6, s5]
                rcases pre with _ | ⟨p7, pre⟩
                · simp
                · have e7 := (List.cons.inj ht6).1
                  have ht7 := (List.cons.inj ht6).2
                  rw [List.foldl_cons, e7, s6]
                  rcases pre with _ | ⟨p8, pre⟩
                  · simp
                  · have ht8 := (List.cons.inj ht7).2
                    simp at ht8

/-- A line of fields is not taken for something else. -/
theorem fieldLine_facts {texts : List Str} (hf : Spec.FieldLine l.head texts) :
    Spec.joined l.head.sep texts ≠ [] ∧ (str "#").isPrefixOf (Spec.joined l.head.sep texts) = false
      ∧ (str "#separator").isPrefixOf (Spec.joined l.head.sep texts) = false ∧ splitAll (Spec.joined l.head.sep texts) l.head.sep = texts := by
  obtain ⟨h1, h2, h3, h4⟩ := hf
  refine ⟨joined_ne h1 fun x hx => (h3 x hx).1, ?_, ?_, splitAll_joined hk.sep.1 h1 h3 h2⟩
  all_goals
    cases texts with
    | nil => exact absurd rfl h1
    | cons x xs =>
      have hx := h4 x rfl
      have hn := (h3 x (by simp)).1
      cases x with
      | nil => exact absurd rfl hn
      | cons b x =>
        have : (35 : UInt8) ≠ b := fun e => hx (by simp [e])
        rw [joined_cons]
        exact not_prefix this _ _

theorem body_reads (env : Env) : ∀ (body : List Spec.Entry), (∀ e ∈ body, Spec.EntryOk l.head e) → ∀ evs,
    ∃ more, (body.map (Spec.entryLine l.head)).foldl (absLine env) (.body (headerOf l.head), evs) = (.body (headerOf l.head), evs ++ more)
      ∧ List.Forall₂ Spec.Event (Spec.Log.records ⟨l.head, l.sepText, body⟩) more
      ∧ ∀ pre x, pre ++ [x] <+: body.map (Spec.entryLine l.head) → Fits env (pre.foldl (absLine env) (.body (headerOf l.head), evs)) x
  | [], _, evs => ⟨[], by simp, .nil, fun pre x h => by simp at h⟩
  | e :: body, hok, evs => by
    have hsep := setSep_head hk.setSep
    have hstep : ∃ more, absLine env (.body (headerOf l.head), evs) (Spec.entryLine l.head e) = (.body (headerOf l.head), evs ++ more)
        ∧ List.Forall₂ Spec.Event (Spec.Log.records ⟨l.head, l.sepText, [e]⟩) more ∧ Fits env (.body (headerOf l.head), evs) (Spec.entryLine l.head e) := by
      cases e with
      | blank => exact ⟨[], by simp [absLine, Spec.entryLine], .nil, fun _ _ h => absurd rfl h⟩
      | comment text =>
        have h1 : (str "#separator").isPrefixOf (35 :: text) = false := by
          rw [Bool.eq_false_iff]
          intro e
          apply hok _ (by simp : Spec.Entry.comment text ∈ _)
          obtain ⟨t, ht⟩ := List.isPrefixOf_iff_prefix.mp e
          exact ⟨t, (List.cons.inj ht).2⟩
        have h2 : (str "#").isPrefixOf (35 :: text) = true := List.isPrefixOf_iff_prefix.mpr ⟨text, rfl⟩
        refine ⟨[], by simp [absLine, Spec.entryLine, h1, h2], .nil, ?_⟩
        intro _ _ _ hn
        exact absurd h2 hn
      | odd texts =>
        obtain ⟨hf, hl⟩ := hok _ (by simp : Spec.Entry.odd texts ∈ _)
        obtain ⟨f1, f2, f3, f4⟩ := fieldLine_facts hk hf
        refine ⟨[], ?_, .nil, ?_⟩
        · simp [absLine, Spec.entryLine, f1, f2, f3, f4, headerOf, hl]
        · intro h hh _ _ hlen
          injection hh with hh
          subst hh
          exfalso
          apply hl
          simpa [headerOf, Spec.entryLine, f4] using hlen
      | row texts =>
        obtain ⟨hf, hv⟩ := hok _ (by simp : Spec.Entry.row texts ∈ _)
        obtain ⟨f1, f2, f3, f4⟩ := fieldLine_facts hk hf
        obtain ⟨ws, r1, r2, w, r3, r4, r5⟩ := fields_read env l.head hsep l.head.cols texts hv
        have hlen := forall₂_length hv
        have htys : (headerOf l.head).fields.map (·.2) = l.head.cols.map (·.ty) := by simp [headerOf]
        refine ⟨[((headerOf l.head).name, (headerOf l.head).fields, ws)], ?_, .cons ⟨rfl, rfl, w, r3, r4, r5⟩ .nil, ?_⟩
        · simp only [absLine, Spec.entryLine, f1, f2, f3, show (headerOf l.head).sep = l.head.sep from rfl, f4, htys, r1]
          simp [headerOf, hlen]
        · intro h hh _ _ hlen vs hvs
          injection hh with hh
          subst hh
          simp only [Spec.entryLine, show (headerOf l.head).sep = l.head.sep from rfl, f4, htys, r1] at hvs
          injection hvs with hvs
          subst hvs
          rw [htys]; exact r2
    obtain ⟨m1, a1, a2, a3⟩ := hstep
    obtain ⟨m2, b1, b2, b3⟩ := body_reads env body (fun d hd => hok d (by simp [hd])) (evs ++ m1)
    refine ⟨m1 ++ m2, ?_, ?_, ?_⟩
    · simp only [List.map_cons, List.foldl_cons, a1, b1, List.append_assoc]
    · have : Spec.Log.records ⟨l.head, l.sepText, e :: body⟩ = Spec.Log.records ⟨l.head, l.sepText, [e]⟩ ++ Spec.Log.records ⟨l.head, l.sepText, body⟩ := by
        simp only [Spec.Log.records, ← List.filterMap_append]; rfl
      rw [this]
      exact List.rel_append a2 b2
    · intro pre x hp
      cases pre with
      | nil =>
        obtain ⟨t, ht⟩ := hp
        have : x = Spec.entryLine l.head e := (List.cons.inj ht).1
        rw [this]; exact a3
      | cons p pre =>
        obtain ⟨t, ht⟩ := hp
        have e1 : p = Spec.entryLine l.head e := (List.cons.inj ht).1
        subst e1
        rw [List.foldl_cons, a1]
        exact b3 pre x ⟨t, (List.cons.inj ht).2⟩

end

/-- A prefix that ends with an element ends in the first or in the second part. -/
theorem prefix_append {α : Type} {pre a b : List α} {x : α} (h : pre ++ [x] <+: a ++ b) : (pre ++ [x] <+: a) ∨ ∃ q, pre = a ++ q ∧ q ++ [x] <+: b := by
  obtain ⟨t, ht⟩ := h
  rcases List.append_eq_append_iff.mp ht with ⟨c, h1, h2⟩ | ⟨c, h1, h2⟩
  · exact .inl ⟨c, h1.symm⟩
  · rcases List.eq_nil_or_concat c with rfl | ⟨c', y, rfl⟩
    · simp at h1; exact .inl ⟨[], by simp [h1]⟩
    · have h1' : pre ++ [x] = (a ++ c') ++ [y] := by rw [h1]; simp
      obtain ⟨e1, e2⟩ := List.append_inj' h1' rfl
      injection e2 with e2
      subst e2
      exact .inr ⟨c', e1, ⟨t, by rw [h2]; simp⟩⟩

theorem logs_read (env : Env) : ∀ (logs : List Spec.Log), (∀ l ∈ logs, Spec.LogOk l) → ∀ a : Abs, (a.1 = .start ∨ ∃ h, a.1 = .body h) →
    ∃ more, ((logs.flatMap Spec.Log.lines).foldl (absLine env) a).2 = a.2 ++ more
      ∧ ((logs.flatMap Spec.Log.lines).foldl (absLine env) a).1 = (match logs.getLast? with | some l => .body (headerOf l.head) | none => a.1)
      ∧ List.Forall₂ Spec.Event (logs.flatMap Spec.Log.records) more
      ∧ ∀ pre x, pre ++ [x] <+: logs.flatMap Spec.Log.lines → Fits env (pre.foldl (absLine env) a) x
  | [], _, a, _ => ⟨[], by simp, rfl, .nil, fun pre x h => by simp at h⟩
  | l :: logs, hok, a, ha => by
    obtain ⟨hk, hb⟩ := hok l (by simp)
    obtain ⟨h1, h2⟩ := head_reads hk env a ha
    obtain ⟨m1, b1, b2, b3⟩ := body_reads hk env l.body hb a.2
    have hl : l.lines.foldl (absLine env) a = (.body (headerOf l.head), a.2 ++ m1) := by
      rw [Spec.Log.lines, List.foldl_append, h1, b1]
    obtain ⟨m2, c1, c2, c3, c4⟩ := logs_read env logs (fun k hk => hok k (by simp [hk])) (.body (headerOf l.head), a.2 ++ m1) (.inr ⟨_, rfl⟩)
    refine ⟨m1 ++ m2, ?_, ?_, ?_, ?_⟩
    · rw [List.flatMap_cons, List.foldl_append, hl, c1, List.append_assoc]
    · rw [List.flatMap_cons, List.foldl_append, hl, c2, List.getLast?_cons]
      cases logs.getLast? <;> rfl
    · rw [List.flatMap_cons]
      exact List.rel_append b2 c3
    · intro pre x hp
      rw [List.flatMap_cons] at hp
      rcases prefix_append hp with hp | ⟨q, rfl, hq⟩
      · rw [Spec.Log.lines] at hp
        rcases prefix_append hp with hp | ⟨q, rfl, hq⟩
        · exact h2 pre x hp
        · rw [List.foldl_append, h1]
          exact b3 q x hq
      · rw [List.foldl_append, hl]
        exact c4 q x hq

end Verif.Zeek
