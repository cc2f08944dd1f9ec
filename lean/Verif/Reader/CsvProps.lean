import Verif.Reader.Csv
import Verif.Reader.LineLemmas
/-!
# C75: a CSV line is one event or none
-/
namespace Verif.Reader.Csv

open Verif.Reader

variable {V : Type}

/-- The event a line stands for: its cells, if the line is accepted. -/
def eventOf (cfg : Cfg V) (line : List UInt8) : Option (List V) :=
  if (parseLine cfg.sep cfg.cols line).2 then some (parseLine cfg.sep cfg.cols line).1 else none

/-- A line is clean if it is accepted, or refused before any of its cells went into the builder. -/
def Clean (cfg : Cfg V) (line : List UInt8) : Prop :=
  (parseLine cfg.sep cfg.cols line).2 = false → (parseLine cfg.sep cfg.cols line).1 = []

theorem parseLine_length (sep : List UInt8) : ∀ (cols : List (Col V)) (s : List UInt8),
    (parseLine sep cols s).2 = true → (parseLine sep cols s).1.length = cols.length := by
  intro cols
  induction cols with
  | nil => intro s h; rfl
  | cons c cs ih =>
    intro s h
    cases cs with
    | nil =>
      simp only [parseLine] at h ⊢
      cases hc : c s with
      | none => simp [hc] at h
      | some q => obtain ⟨v, r⟩ := q; simp
    | cons c' cs =>
      simp only [parseLine] at h ⊢
      cases hc : c s with
      | none => simp [hc] at h
      | some q =>
        obtain ⟨v, r⟩ := q
        simp only [hc] at h ⊢
        cases hs : stripPrefix sep r with
        | none => simp [hs] at h
        | some r' =>
          simp only [hs] at h ⊢
          simp [ih r' h]

theorem chunk_flatten (n : Nat) (hn : 0 < n) : ∀ (f : Nat) (rs : List (List V)), (∀ r ∈ rs, r.length = n) →
    rs.flatten.length < f → chunk n f rs.flatten = rs := by
  intro f
  induction f with
  | zero => intro rs _ h; omega
  | succ f ih =>
    intro rs hr hl
    cases rs with
    | nil => simp [chunk, hn]
    | cons r rs =>
      have h1 : r.length = n := hr r (by simp)
      have h2 : ¬ ((r :: rs).flatten.length < n ∨ n = 0) := by simp; omega
      simp only [chunk, h2, ↓reduceIte]
      simp only [List.flatten_cons] at hl ⊢
      rw [List.take_append_of_le_length (by omega), List.drop_append_of_le_length (by omega), ← h1]
      simp only [List.take_length, List.drop_length, List.nil_append]
      rw [h1, ih rs (fun x hx => hr x (by simp [hx])) (by simp at hl ⊢; omega)]

/-- What holds between rounds, if all lines are clean: the builder holds complete rows, those of `rs`. -/
structure CInv (cfg : Cfg V) (m : Nat) (s : State V) (rs : List (List V)) : Prop where
  cells : s.cells = rs.flatten
  width : ∀ r ∈ rs, r.length = cfg.cols.length
  room : rs.length < m
  size : ∀ x ∈ s.out, 1 ≤ x.length ∧ x.length ≤ m
  fine : s.abort = false

theorem flatten_length (n : Nat) (rs : List (List V)) (h : ∀ r ∈ rs, r.length = n) :
    rs.flatten.length = rs.length * n := by
  induction rs with
  | nil => simp
  | cons r rs ih =>
    simp only [List.flatten_cons, List.length_append, List.length_cons, Nat.add_one_mul]
    rw [h r (by simp), ih fun x hx => h x (by simp [hx])]
    omega

theorem finish_spec (cfg : Cfg V) (m : Nat) (hm : 0 < m) (hc : 0 < cfg.cols.length) (s : State V) (rs : List (List V))
    (h1 : s.cells = rs.flatten) (h2 : ∀ r ∈ rs, r.length = cfg.cols.length) (h3 : rs.length ≤ m)
    (h4 : ∀ x ∈ s.out, 1 ≤ x.length ∧ x.length ≤ m) (h5 : s.abort = false) :
    CInv cfg m (finish cfg s) [] ∧ (finish cfg s).lines = s.lines ∧ (finish cfg s).out.flatten = s.out.flatten ++ rs := by
  have hl := flatten_length _ rs h2
  have hrows : rows cfg s = rs.length := by
    rw [rows, h1, hl, Nat.mul_div_cancel _ hc]
  by_cases hr : rs = []
  · subst hr
    have : ¬ rows cfg s > 0 := by rw [hrows]; simp
    simp only [finish, this, ↓reduceIte]
    exact ⟨⟨by simpa using h1, by simp, by simpa using hm, h4, h5⟩, trivial, by simp⟩
  · have hpos : rows cfg s > 0 := by rw [hrows]; exact List.length_pos_iff.mpr hr
    have hmod : ¬ s.cells.length % cfg.cols.length ≠ 0 := by rw [h1, hl]; simp
    simp only [finish, hpos, hmod, ↓reduceIte]
    have hch : chunk cfg.cols.length (s.cells.length + 1) s.cells = rs := by
      rw [h1]; exact chunk_flatten _ hc _ rs h2 (by omega)
    refine ⟨⟨rfl, by simp, by simpa using hm, ?_, h5⟩, trivial, ?_⟩
    · intro x hx
      simp at hx
      rcases hx with hx | hx
      · exact h4 x hx
      · subst hx; rw [hch]; exact ⟨List.length_pos_iff.mpr hr, h3⟩
    · simp [hch]

/-- The events of a list of lines. -/
def eventsOf (cfg : Cfg V) (ls : List (List UInt8)) : List (List V) := ls.filterMap (eventOf cfg)

theorem loop_spec (cfg : Cfg V) (m : Nat) (hm : 0 < m) (hc : 0 < cfg.cols.length) (maxEvents : Nat)
    (clock : Nat → Bool) : ∀ (f i produced : Nat) (s : State V) (rs : List (List V)), Inv s.lines →
    CInv cfg m s rs → (∀ l ∈ pending s.lines, Clean cfg l) →
    ∃ rs', Inv (loop cfg m maxEvents clock f i produced s).1.lines ∧
      CInv cfg m (loop cfg m maxEvents clock f i produced s).1 rs' ∧
      (∀ l ∈ pending (loop cfg m maxEvents clock f i produced s).1.lines, Clean cfg l) ∧
      ((loop cfg m maxEvents clock f i produced s).1.out.flatten ++ rs' ++
        eventsOf cfg (pending (loop cfg m maxEvents clock f i produced s).1.lines) =
        s.out.flatten ++ rs ++ eventsOf cfg (pending s.lines)) ∧
      ((loop cfg m maxEvents clock f i produced s).2 = .endOfInput →
        rs' = [] ∧ (loop cfg m maxEvents clock f i produced s).1.lines.done = true) := by
  intro f
  induction f with
  | zero => intro i produced s rs hl hi hp; exact ⟨rs, hl, hi, hp, rfl, by simp [loop]⟩
  | succ f ih =>
    intro i produced s rs hl hi hp
    have fin : ∀ res, (res = .endOfInput → s.lines.done = true) → ∃ rs', Inv (finish cfg s).lines ∧
        CInv cfg m (finish cfg s) rs' ∧ (∀ l ∈ pending (finish cfg s).lines, Clean cfg l) ∧
        ((finish cfg s).out.flatten ++ rs' ++ eventsOf cfg (pending (finish cfg s).lines) =
          s.out.flatten ++ rs ++ eventsOf cfg (pending s.lines)) ∧
        (res = Res.endOfInput → rs' = [] ∧ (finish cfg s).lines.done = true) := by
      intro res hres
      obtain ⟨a1, a2, a3⟩ := finish_spec cfg m hm hc s rs hi.cells hi.width (Nat.le_of_lt hi.room) hi.size hi.fine
      exact ⟨[], by rw [a2]; exact hl, a1, by rw [a2]; exact hp, by rw [a2, a3]; simp, fun h => ⟨rfl, by rw [a2]; exact hres h⟩⟩
    simp only [loop]
    by_cases hlt : produced < maxEvents
    · simp only [hlt, ↓reduceIte]
      by_cases hd : s.lines.done = true
      · simp only [hd, ↓reduceIte]
        obtain ⟨rs', j⟩ := fin .endOfInput fun _ => hd
        exact ⟨rs', j.1, j.2.1, j.2.2.1, j.2.2.2.1, fun _ => j.2.2.2.2 rfl⟩
      · have hd' : s.lines.done = false := by simpa using hd
        by_cases hcl : (decide (s.batch > 0) && clock i) = true
        · simp only [hd', hcl, ↓reduceIte, Bool.false_eq_true]
          exact fin _ (by simp)
        · simp only [hd', hcl, ↓reduceIte, Bool.false_eq_true]
          obtain ⟨n1, _, _, n4⟩ := nextTimeout_spec s.lines hl hd'
          generalize nextTimeout s.lines = q at *
          obtain ⟨t, r⟩ := q
          simp only at *
          have hi1 : CInv cfg m { s with lines := r } rs := ⟨hi.cells, hi.width, hi.room, hi.size, hi.fine⟩
          cases t with
          | true =>
            simp only [↓reduceIte] at n4 ⊢
            exact ⟨rs, n1, hi1, by rw [← n4]; exact hp, by simp only [n4], by simp⟩
          | false =>
            simp only [↓reduceIte, Bool.false_eq_true] at n4 ⊢
            by_cases he : r.line = []
            · simp only [he, List.isEmpty_nil, ↓reduceIte]
              rw [he, nonEmpty_nil, List.nil_append] at n4
              obtain ⟨rs', j⟩ := ih (i + 1) produced { s with lines := r } rs n1 hi1 (by simp only; rw [← n4]; exact hp)
              refine ⟨rs', j.1, j.2.1, j.2.2.1, ?_, j.2.2.2.2⟩
              rw [j.2.2.2.1, n4]
            · have he' : r.line.isEmpty = false := by simpa using he
              simp only [he', ↓reduceIte, Bool.false_eq_true]
              rw [nonEmpty_ne he] at n4
              have hclean : Clean cfg r.line := hp r.line (by rw [n4]; simp)
              have hp' : ∀ l ∈ pending r, Clean cfg l := fun l h => hp l (by rw [n4]; simp [h])
              by_cases hok : (parseLine cfg.sep cfg.cols r.line).2 = true
              · simp only [hok, Bool.not_true, Bool.false_eq_true, ↓reduceIte]
                have hw := parseLine_length cfg.sep cfg.cols r.line hok
                have hev : eventsOf cfg [r.line] = [(parseLine cfg.sep cfg.cols r.line).1] := by
                  simp [eventsOf, eventOf, hok]
                generalize hvs : (parseLine cfg.sep cfg.cols r.line).1 = vs at *
                have hw2 : ∀ x ∈ rs ++ [vs], x.length = cfg.cols.length := by
                  intro x hx
                  simp at hx
                  rcases hx with hx | hx
                  · exact hi.width x hx
                  · subst hx; exact hw
                have hcells : s.cells ++ vs = (rs ++ [vs]).flatten := by rw [hi.cells]; simp
                have hsum : s.out.flatten ++ rs ++ eventsOf cfg (pending s.lines) =
                    s.out.flatten ++ (rs ++ [vs]) ++ eventsOf cfg (pending r) := by
                  rw [n4]
                  have : eventsOf cfg ([r.line] ++ pending r) = eventsOf cfg [r.line] ++ eventsOf cfg (pending r) := by
                    simp only [eventsOf, List.filterMap_append]
                  rw [this, hev]
                  simp
                split
                · obtain ⟨a1, a2, a3⟩ := finish_spec cfg m hm hc
                    { s with lines := r, cells := s.cells ++ vs, batch := s.batch + 1 } (rs ++ [vs]) hcells hw2
                    (by have := hi.room; simp; omega) hi.size hi.fine
                  obtain ⟨rs', j⟩ := ih (i + 1) (produced + 1)
                    (finish cfg { s with lines := r, cells := s.cells ++ vs, batch := s.batch + 1 }) []
                    (by rw [a2]; exact n1) a1 (by rw [a2]; exact hp')
                  refine ⟨rs', j.1, j.2.1, j.2.2.1, ?_, j.2.2.2.2⟩
                  rw [j.2.2.2.1, a2, a3, hsum]
                  simp
                · rename_i hne
                  have hrows : rows cfg { s with lines := r, cells := s.cells ++ vs, batch := s.batch + 1 } = rs.length + 1 := by
                    simp only [rows]
                    rw [hcells, flatten_length _ _ hw2, Nat.mul_div_cancel _ hc]
                    simp
                  rw [hrows] at hne
                  obtain ⟨rs', j⟩ := ih (i + 1) (produced + 1)
                    { s with lines := r, cells := s.cells ++ vs, batch := s.batch + 1 } (rs ++ [vs]) n1
                    ⟨hcells, hw2, by have := hi.room; simp; omega, hi.size, hi.fine⟩ hp'
                  refine ⟨rs', j.1, j.2.1, j.2.2.1, ?_, j.2.2.2.2⟩
                  rw [j.2.2.2.1, hsum]
              · have hok' : (parseLine cfg.sep cfg.cols r.line).2 = false := by simpa using hok
                have hnil := hclean hok'
                simp only [hok', hnil, Bool.not_false, ↓reduceIte, List.append_nil]
                have hev : eventsOf cfg [r.line] = [] := by simp [eventsOf, eventOf, hok']
                obtain ⟨rs', j⟩ := ih (i + 1) produced { s with lines := r } rs n1 hi1 hp'
                refine ⟨rs', j.1, j.2.1, j.2.2.1, ?_, j.2.2.2.2⟩
                rw [j.2.2.2.1, n4]
                have : eventsOf cfg ([r.line] ++ pending r) = eventsOf cfg [r.line] ++ eventsOf cfg (pending r) := by
                  simp only [eventsOf, List.filterMap_append]
                rw [this, hev, List.nil_append]
    · simp only [hlt, ↓reduceIte]
      exact fin _ (by simp)

theorem calls_spec (cfg : Cfg V) (m : Nat) (hm : 0 < m) (hc : 0 < cfg.cols.length) :
    ∀ (cs : List Call) (q : State V × Res) (rs : List (List V)), Inv q.1.lines → CInv cfg m q.1 rs →
    (∀ l ∈ pending q.1.lines, Clean cfg l) → (q.2 = .endOfInput → rs = [] ∧ q.1.lines.done = true) →
    ∃ rs', CInv cfg m (calls cfg m cs q).1 rs' ∧
      (calls cfg m cs q).1.out.flatten ++ rs' ++ eventsOf cfg (pending (calls cfg m cs q).1.lines) =
        q.1.out.flatten ++ rs ++ eventsOf cfg (pending q.1.lines) ∧
      ((calls cfg m cs q).2 = .endOfInput → rs' = [] ∧ (calls cfg m cs q).1.lines.done = true) := by
  intro cs
  induction cs with
  | nil => intro q rs _ hi _ he; exact ⟨rs, hi, rfl, he⟩
  | cons c cs ih =>
    intro q rs hl hi hp _
    obtain ⟨rs1, a1, a2, a3, a4, a5⟩ := loop_spec cfg m hm hc c.maxEvents c.clock
      (q.1.lines.input.arrivals.length + 4) 0 0 q.1 rs hl hi hp
    obtain ⟨rs2, b1, b2, b3⟩ := ih (readImpl cfg m q.1 c) rs1 a1 a2 a3 a5
    simp only [calls, hi.fine, Bool.false_eq_true, ↓reduceIte]
    exact ⟨rs2, b1, b2.trans a4, b3⟩

/-- When the reader reports the end of the input, the rows delivered are exactly the events of its lines, in
order; at any time they are an initial part of them; every slice has between one and `m` rows; and no
assertion fails.  Hypothesis: every line is accepted, or refused before a cell of it was stored. -/
theorem C75_rows_partial (cfg : Cfg V) (m : Nat) (hm : 0 < m) (hc : 0 < cfg.cols.length) (a : List Arr) (h : CrOk a)
    (hclean : ∀ l ∈ linesOf (bytes a), Clean cfg l) (cs : List Call) :
    let q := calls cfg m cs (.init a, .ok)
    q.1.abort = false ∧ (∀ x ∈ q.1.out, 1 ≤ x.length ∧ x.length ≤ m) ∧
    q.1.out.flatten <+: eventsOf cfg (linesOf (bytes a)) ∧
    (q.2 = .endOfInput → q.1.out.flatten = eventsOf cfg (linesOf (bytes a))) := by
  obtain ⟨rs, h1, h2, h3⟩ := calls_spec cfg m hm hc cs (.init a, .ok) [] (inv_init a h)
    ⟨rfl, by simp, by simpa using hm, by simp [State.init], rfl⟩
    (by simpa [State.init, pending_init] using hclean) (by simp)
  have h0 : (State.init a : State V).out.flatten ++ [] ++ eventsOf cfg (pending (State.init a : State V).lines) =
      eventsOf cfg (linesOf (bytes a)) := by
    simp [State.init, pending_init]
  simp only [h0] at h2
  refine ⟨h1.fine, h1.size, ⟨rs ++ _, by rw [← List.append_assoc]; exact h2⟩, fun he => ?_⟩
  obtain ⟨e1, e2⟩ := h3 he
  subst e1
  rw [← h2, pending_done _ e2]
  simp [eventsOf]

/-! ## Two columns of optional digits, separated by a comma -/

/-- An optional digit. -/
def digit : Col (Option UInt8) := fun s =>
  match s with
  | [] => some (none, [])
  | c :: r => if 48 ≤ c ∧ c ≤ 57 then some (some c, r) else some (none, c :: r)

/-- Two optional digits. -/
def demo2 : Cfg (Option UInt8) := ⟨[44], [digit, digit]⟩

/-- The bytes of a text. -/
def txt (s : List UInt8) : List Arr := s.map .byte

/-- Never expired. -/
def still : Call := ⟨100, fun _ => false⟩

/-- `1,2⏎,4⏎5,⏎` has clean lines only and gives three rows. -/
example : (∀ l ∈ linesOf (bytes (txt [49, 44, 50, 10, 44, 52, 10, 53, 44, 10])), Clean demo2 l) ∧
    (calls demo2 2 [still] (.init (txt [49, 44, 50, 10, 44, 52, 10, 53, 44, 10]), .ok)).1.out
      = [[[some 49, some 50], [none, some 52]], [[some 53, none]]] := by
  refine ⟨?_, by decide⟩
  have : linesOf (bytes (txt [49, 44, 50, 10, 44, 52, 10, 53, 44, 10])) = [[49, 44, 50], [44, 52], [53, 44]] := by decide
  rw [this]
  simp [Clean, demo2, parseLine, digit, stripPrefix]

/-- Lines with a missing column: `1⏎2,3⏎4⏎` contains one event, `2,3`; delivered are `1,2` and `3,4`. -/
theorem C75_short_line_refuted : ∃ bs : List UInt8,
    eventsOf demo2 (linesOf bs) = [[some 50, some 51]] ∧
    (calls demo2 9 [still] (.init (txt bs), .ok)).2 = .endOfInput ∧
    (calls demo2 9 [still] (.init (txt bs), .ok)).1.out = [[[some 49, some 50], [some 51, some 52]]] :=
  ⟨[49, 10, 50, 44, 51, 10, 52, 10], by decide, by decide, by decide⟩

/-- One line with a missing column makes an assertion fail: `1,2⏎3⏎`. -/
theorem C75_abort_refuted : ∃ bs : List UInt8, (calls demo2 9 [still] (.init (txt bs), .ok)).1.abort = true :=
  ⟨[49, 44, 50, 10, 51, 10], by decide⟩

/-- A line with trailing text is refused, yet its cells are delivered as an event: `1,2x⏎`. -/
theorem C75_long_line_refuted : ∃ bs : List UInt8, eventsOf demo2 (linesOf bs) = [] ∧
    (calls demo2 9 [still] (.init (txt bs), .ok)).1.out = [[[some 49, some 50]]] :=
  ⟨[49, 44, 50, 120, 10], by decide, by decide⟩

/-- And such a line lets a slice grow beyond the requested size: three rows where at most one is allowed. -/
theorem C75_size_refuted : ∃ bs : List UInt8,
    ((calls demo2 1 [still] (.init (txt bs), .ok)).1.out.map List.length) = [3] :=
  ⟨[49, 44, 50, 120, 10, 51, 44, 52, 10, 53, 44, 54, 10], by decide⟩

end Verif.Reader.Csv
