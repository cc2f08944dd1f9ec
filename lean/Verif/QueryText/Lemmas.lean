import Verif.QueryText.Spec
/-!
# Lemmas: parsing what the layered grammar generates
-/
namespace Verif.QueryText

variable {α : Type}

theorem ws_blank (w s : Text) (h : Blank w) : ws (w ++ s) = ws s := by
  induction w with
  | nil => rfl
  | cons c w ih =>
    have hc : isSpace c = true := h.space c (by simp)
    simp only [List.cons_append, ws, hc, if_true]
    exact ih fun d hd => h d (by simp [hd])

theorem ws_cons (c : Char) (s : Text) (h : isSpace c = false) : ws (c :: s) = c :: s := by
  simp [ws, h]

theorem lit_append (t s : Text) : lit t (t ++ s) = some s := by
  induction t with
  | nil => rfl
  | cons c t ih => simpa [lit] using ih

theorem lit_head {c d : Char} (t s : Text) (h : c ≠ d) : lit (c :: t) (d :: s) = none := by simp [lit, h]

/-! ## `to_expr` -/

theorem eval_conj (v : α → Bool) (xs : List (E α)) : (E.conj xs).eval v = xs.all (·.eval v) := by
  simp only [E.eval]
  induction xs with
  | nil => rfl
  | cons x xs ih => simp [E.eval.evalAll, ih]

theorem eval_disj (v : α → Bool) (xs : List (E α)) : (E.disj xs).eval v = xs.any (·.eval v) := by
  simp only [E.eval]
  induction xs with
  | nil => rfl
  | cons x xs ih => simp [E.eval.evalAny, ih]

/-- A chain of truth values: `o` is the disjunction so far, `a` the conjunction in progress. -/
def chainVal : Bool → Bool → List (Bool × Bool) → Bool
  | o, a, [] => o || a
  | o, a, (false, b) :: r => chainVal o (a && b) r
  | o, a, (true, b) :: r => chainVal (o || a) b r

theorem eval_one (v : α → Bool) (con : List (E α)) (h : con ≠ []) :
    (single .conj con).eval v = con.all (·.eval v) := by
  match con with
  | [] => exact absurd rfl h
  | [c] => simp [single]
  | a :: b :: r => exact eval_conj v _

theorem eval_one' (v : α → Bool) (dis : List (E α)) (h : dis ≠ []) :
    (single .disj dis).eval v = dis.any (·.eval v) := by
  match dis with
  | [] => exact absurd rfl h
  | [c] => simp [single]
  | a :: b :: r => exact eval_disj v _

theorem loop_val (v : α → Bool) : ∀ (xs : List (Bool × E α)) (dis con : List (E α)), con ≠ [] →
    let r := toExprLoop dis con xs
    r.2 ≠ [] ∧ (r.1.any (·.eval v) || r.2.all (·.eval v))
      = chainVal (dis.any (·.eval v)) (con.all (·.eval v)) (xs.map fun x => (x.1, x.2.eval v))
  | [], dis, con, h => ⟨h, rfl⟩
  | (false, x) :: xs, dis, con, h => by
    have := loop_val v xs dis (con ++ [x]) (by simp)
    simpa [toExprLoop, chainVal] using this
  | (true, x) :: xs, dis, con, h => by
    have := loop_val v xs (dis ++ [single .conj con]) [x] (by simp)
    simp only [toExprLoop, List.map_cons, chainVal] at this ⊢
    refine ⟨this.1, this.2.trans ?_⟩
    rw [List.any_append]
    simp [eval_one v con h]

theorem toExpr_val (v : α → Bool) (x : E α) (xs : List (Bool × E α)) :
    (toExpr x xs).eval v = chainVal false (x.eval v) (xs.map fun x => (x.1, x.2.eval v)) := by
  unfold toExpr
  split
  · simp [chainVal]
  · have h := loop_val v xs [] [x] (by simp)
    obtain ⟨h1, h2⟩ := h
    simp only [List.any_nil, List.all_cons, List.all_nil, Bool.and_true] at h2
    generalize toExprLoop [] [x] xs = r at h1 h2
    obtain ⟨dis, con⟩ := r
    simp only at h1 h2 ⊢
    rw [← h2, eval_one' v _ (by simp), List.any_append]
    simp [eval_one v con h1]

/-! ## Spines -/

/-- The leftmost factor. -/
def Syn.first : Syn α → Syn α
  | .and l _ _ _ => l.first
  | .or l _ _ _ => l.first
  | s => s

/-- An operator with its whitespace and the factor behind it. -/
abbrev Link (α : Type) := Bool × Text × Text × Syn α

/-- The factors behind the first. -/
def Syn.links : Syn α → List (Link α)
  | .and l w₁ w₂ r => l.links ++ [(false, w₁, w₂, r)]
  | .or l w₁ w₂ r => l.links ++ (true, w₁, w₂, r.first) :: r.links
  | _ => []

/-- Their text. -/
def linksText (g : Grammar α) : List (Link α) → Text
  | [] => []
  | (op, w₁, w₂, r) :: ks => w₁ ++ (if op then g.orTok else g.andTok) ++ w₂ ++ r.text g ++ linksText g ks

theorem linksText_append (g : Grammar α) (a b : List (Link α)) :
    linksText g (a ++ b) = linksText g a ++ linksText g b := by
  induction a with
  | nil => rfl
  | cons k a ih => obtain ⟨op, w₁, w₂, r⟩ := k; simp [linksText, ih]

theorem spine_text (g : Grammar α) (s : Syn α) : s.text g = s.first.text g ++ linksText g s.links := by
  induction s with
  | leaf => simp [Syn.first, Syn.links, linksText]
  | paren => simp [Syn.first, Syn.links, linksText]
  | not => simp [Syn.first, Syn.links, linksText]
  | and l w₁ w₂ r ihl ihr =>
    simp only [Syn.text, Syn.first, Syn.links, linksText_append, linksText]
    rw [ihl]; simp
  | or l w₁ w₂ r ihl ihr =>
    simp only [Syn.text, Syn.first, Syn.links, linksText_append, linksText]
    rw [ihl, ihr]; simp

theorem chainVal_or (xs : List (Bool × Bool)) (o a b : Bool) (ys : List (Bool × Bool)) :
    chainVal o a (xs ++ (true, b) :: ys) = chainVal (chainVal o a xs) b ys := by
  induction xs generalizing o a with
  | nil => rfl
  | cons x xs ih => obtain ⟨op, c⟩ := x; cases op <;> simp [chainVal, ih]

theorem chainVal_and (xs : List (Bool × Bool)) (a : Bool) (b : Bool) (h : ∀ x ∈ xs, x.1 = false) :
    chainVal false a (xs ++ [(false, b)]) = (chainVal false a xs && b) := by
  induction xs generalizing a with
  | nil => simp [chainVal]
  | cons x xs ih =>
    obtain ⟨op, c⟩ := x
    obtain rfl : op = false := h (op, c) (by simp)
    simpa [chainVal] using ih _ (fun x hx => h x (List.mem_cons_of_mem _ hx))

theorem chainVal_pull (xs : List (Bool × Bool)) (o a : Bool) (h : ∀ x ∈ xs, x.1 = false) :
    chainVal o a xs = (o || chainVal false a xs) := by
  induction xs generalizing a with
  | nil => simp [chainVal]
  | cons x xs ih =>
    obtain ⟨op, c⟩ := x
    obtain rfl : op = false := h (op, c) (by simp)
    simpa [chainVal] using ih _ (fun x hx => h x (List.mem_cons_of_mem _ hx))

theorem factor_spine {s : Syn α} (h : s.factor = true) : s.first = s ∧ s.links = [] := by
  cases s <;> simp_all [Syn.factor, Syn.atomic, Syn.first, Syn.links]

theorem term_links {s : Syn α} (h : s.term = true) (hw : s.Wf) : ∀ k ∈ s.links, k.1 = false := by
  induction s with
  | leaf => simp [Syn.links]
  | paren => simp [Syn.links]
  | not => simp [Syn.links]
  | and l w₁ w₂ r ihl ihr =>
    obtain ⟨_, _, h1, h2, h3, h4⟩ := hw
    intro k hk
    simp only [Syn.links, List.mem_append, List.mem_singleton] at hk
    rcases hk with hk | rfl
    · exact ihl h1 h3 k hk
    · rfl
  | or => simp [Syn.term, Syn.factor, Syn.atomic] at h

/-- The value of a tree is that of its spine. -/
theorem spine_val (v : α → Bool) (s : Syn α) (hw : s.Wf) :
    s.value v = chainVal false (s.first.value v) (s.links.map fun k => (k.1, k.2.2.2.value v)) := by
  induction s with
  | leaf => simp [Syn.first, Syn.links, chainVal]
  | paren => simp [Syn.first, Syn.links, chainVal]
  | not => simp [Syn.first, Syn.links, chainVal]
  | and l w₁ w₂ r ihl ihr =>
    obtain ⟨_, _, h1, h2, h3, h4⟩ := hw
    simp only [Syn.value, Syn.first, Syn.links, List.map_append, List.map_cons, List.map_nil]
    rw [chainVal_and _ _ _ (by
      intro x hx; obtain ⟨k, hk, rfl⟩ := List.mem_map.mp hx; exact term_links h1 h3 k hk), ← ihl h3]
  | or l w₁ w₂ r ihl ihr =>
    obtain ⟨_, _, h1, h2, h3⟩ := hw
    simp only [Syn.value, Syn.first, Syn.links, List.map_append, List.map_cons]
    rw [chainVal_or, chainVal_pull _ (chainVal _ _ _) _ (by
      intro x hx; obtain ⟨k, hk, rfl⟩ := List.mem_map.mp hx; exact term_links h1 h3 k hk), ← ihl h2,
      ← ihr h3]

/-! ## Parsing -/

/-- The links are read by `grp` where they stand. -/
def LinksOk (g : Grammar α) (grp : Text → Option (E α × Text)) : List (Link α) → Text → Prop
  | [], _ => True
  | (_, w₁, w₂, r) :: ks, rest =>
    Blank w₁ ∧ Blank w₂ ∧ ws (r.text g ++ (linksText g ks ++ rest)) = r.text g ++ (linksText g ks ++ rest)
      ∧ (∃ e, grp (r.text g ++ (linksText g ks ++ rest)) = some (e, linksText g ks ++ rest)
        ∧ ∀ v, e.eval v = r.value v)
      ∧ LinksOk g grp ks rest

theorem linksOk_append (g : Grammar α) (grp : Text → Option (E α × Text)) (a b : List (Link α)) (rest : Text) :
    LinksOk g grp (a ++ b) rest ↔ LinksOk g grp a (linksText g b ++ rest) ∧ LinksOk g grp b rest := by
  induction a with
  | nil => simp [LinksOk]
  | cons k a ih =>
    obtain ⟨op, w₁, w₂, r⟩ := k
    simp only [List.cons_append, LinksOk, ih, linksText_append, List.append_assoc]
    constructor
    · rintro ⟨a, b, c, d, e, f⟩; exact ⟨⟨a, b, c, d, e⟩, f⟩
    · rintro ⟨⟨a, b, c, d, e⟩, f⟩; exact ⟨a, b, c, d, e, f⟩

theorem andOr_tok (g : Grammar α) (hg : g.Sane) (op : Bool) (s : Text) :
    andOr g ((if op then g.orTok else g.andTok) ++ s) = some (op, s) := by
  cases op with
  | true => simp [andOr, lit_append]
  | false =>
    obtain ⟨c, t, h1, _, _⟩ := hg.andTok
    obtain ⟨d, u, h2, _, _⟩ := hg.orTok
    have := hg.differ
    rw [h1, h2] at this
    have hne : d ≠ c := by simpa using this
    have h3 : lit g.orTok (g.andTok ++ s) = none := by
      rw [h1, h2]; exact lit_head _ _ hne
    simp only [andOr, Bool.false_eq_true, if_false, h3, lit_append]

/-- The text behind an expression: whitespace, then the end or a closing parenthesis. -/
def Stop (rest : Text) : Prop := ws rest = [] ∨ ∃ r, ws rest = ')' :: r

theorem andOr_stop (g : Grammar α) (hg : g.Sane) (rest : Text) (h : Stop rest) : andOr g (ws rest) = none := by
  obtain ⟨c, t, h1, h2, _⟩ := hg.andTok
  obtain ⟨d, u, h3, h4, _⟩ := hg.orTok
  rcases h with h | ⟨r, h⟩
  · rw [h]; simp [andOr, h1, h3, lit]
  · rw [h]; simp [andOr, h1, h3, lit, h2, h4]

theorem tok_ws (g : Grammar α) (hg : g.Sane) (op : Bool) (s : Text) :
    ws ((if op then g.orTok else g.andTok) ++ s) = (if op then g.orTok else g.andTok) ++ s := by
  obtain ⟨c, t, h1, _, h2⟩ := hg.andTok
  obtain ⟨d, u, h3, _, h4⟩ := hg.orTok
  cases op with
  | true => simp only [if_true]; rw [h3]; exact ws_cons _ _ h4
  | false => simp only [Bool.false_eq_true, if_false]; rw [h1]; exact ws_cons _ _ h2

theorem chain_links (g : Grammar α) (hg : g.Sane) (grp : Text → Option (E α × Text)) (rest : Text) (hs : Stop rest) :
    ∀ (ks : List (Link α)) (n : Nat), ks.length ≤ n → LinksOk g grp ks rest →
      ∃ xs, chain g grp n (linksText g ks ++ rest) = (xs, rest)
        ∧ ∀ v, (xs.map fun x => (x.1, x.2.eval v)) = ks.map fun k => (k.1, k.2.2.2.value v)
  | [], n, _, _ => by
    refine ⟨[], ?_, by simp⟩
    cases n with
    | zero => rfl
    | succ n => simp [chain, linksText, andOr_stop g hg rest hs]
  | (op, w₁, w₂, r) :: ks, 0, h, _ => by simp at h
  | (op, w₁, w₂, r) :: ks, n + 1, h, hk => by
    obtain ⟨h1, h2, h3, ⟨e, h4, h5⟩, h6⟩ := hk
    obtain ⟨xs, h7, h8⟩ := chain_links g hg grp rest hs ks n (by simpa using h) h6
    refine ⟨(op, e) :: xs, ?_, ?_⟩
    · simp only [linksText, chain]
      rw [List.append_assoc, List.append_assoc, List.append_assoc, List.append_assoc, ws_blank _ _ h1, tok_ws g hg,
        andOr_tok g hg]
      simp only
      rw [ws_blank _ _ h2, h3, h4]
      simp only [h7]
    · intro v
      simp only [List.map_cons, h5 v, h8 v]

/-- Nesting of parentheses. -/
def Syn.depth : Syn α → Nat
  | .leaf .. => 0
  | .paren _ s _ => s.depth + 1
  | .not _ s => s.depth
  | .and l _ _ r => max l.depth r.depth
  | .or l _ _ r => max l.depth r.depth

theorem depth_text (g : Grammar α) (s : Syn α) : s.depth ≤ (s.text g).length := by
  induction s with
  | leaf => simp [Syn.depth]
  | paren w₁ s w₂ ih => simp only [Syn.depth, Syn.text, List.length_append, List.length_cons]; omega
  | not w s ih => simp only [Syn.depth, Syn.text, List.length_append]; omega
  | and l w₁ w₂ r ihl ihr => simp only [Syn.depth, Syn.text, List.length_append]; omega
  | or l w₁ w₂ r ihl ihr => simp only [Syn.depth, Syn.text, List.length_append]; omega

theorem links_length (g : Grammar α) (hg : g.Sane) (ks : List (Link α)) : ks.length ≤ (linksText g ks).length := by
  induction ks with
  | nil => simp
  | cons k ks ih =>
    obtain ⟨op, w₁, w₂, r⟩ := k
    obtain ⟨c, t, h1, _, h2⟩ := hg.andTok
    obtain ⟨d, u, h3, _, h4⟩ := hg.orTok
    cases op <;> simp [linksText, h1, h3] <;> omega

theorem starts (g : Grammar α) (hg : g.Sane) (s : Syn α) (rest : Text) (hr : s.Readable g rest) (hf : s.factor = true) :
    ws (s.text g ++ rest) = s.text g ++ rest := by
  cases s with
  | leaf t x => exact hr.2.2.2
  | paren w₁ s w₂ => exact ws_cons _ _ (by decide)
  | not w s =>
    obtain ⟨c, t, h1, _, h2⟩ := hg.notTok
    simp only [Syn.text, h1]
    exact ws_cons _ _ h2
  | and => simp [Syn.factor, Syn.atomic] at hf
  | or => simp [Syn.factor, Syn.atomic] at hf

theorem first_factor (s : Syn α) : s.first.factor = true := by
  induction s with
  | leaf => rfl
  | paren => rfl
  | not => rfl
  | and _ _ _ _ ih _ => exact ih
  | or _ _ _ _ ih _ => exact ih

theorem first_readable (g : Grammar α) : ∀ (s : Syn α) (rest : Text), s.Readable g rest →
    s.first.Readable g (linksText g s.links ++ rest)
  | .leaf .., rest, h => by simpa [Syn.first, Syn.links, linksText] using h
  | .paren .., rest, h => by simpa [Syn.first, Syn.links, linksText] using h
  | .not .., rest, h => by simpa [Syn.first, Syn.links, linksText] using h
  | .and l w₁ w₂ r, rest, h => by
    have := first_readable g l _ h.1
    simpa [Syn.first, Syn.links, linksText, linksText_append] using this
  | .or l w₁ w₂ r, rest, h => by
    have := first_readable g l _ h.1
    rw [spine_text g r] at this
    simpa [Syn.first, Syn.links, linksText, linksText_append] using this

/-- The spine of a readable tree is read. -/
theorem spine_read (g : Grammar α) (hg : g.Sane) : ∀ (s : Syn α) (d : Nat) (rest : Text), s.depth ≤ d → s.Wf →
    s.Readable g rest →
    (∃ e, group g (expr g d) (s.text g ++ rest) = some (e, linksText g s.links ++ rest)
      ∧ (∀ v, e.eval v = s.first.value v)
      ∧ ∀ w₁ s' w₂, s = .paren w₁ s' w₂ → parens (expr g d) (s.text g ++ rest) = some (e, rest))
    ∧ LinksOk g (group g (expr g d)) s.links rest := by
  intro s
  induction s with
  | leaf t x =>
    intro d rest _ _ hr
    obtain ⟨h1, h2, h3, h4⟩ := hr
    refine ⟨⟨x, ?_, fun v => rfl, by simp⟩, trivial⟩
    simp only [Syn.text, group, parens, negated, h2, h3, h1, Syn.links, linksText, List.nil_append]
  | paren w₁ s w₂ ih =>
    intro d rest hd hw hr
    obtain ⟨h1, h2, h3⟩ := hw
    simp only [Syn.depth] at hd
    match d, hd with
    | d + 1, hd =>
      have hr' : s.Readable g (w₂ ++ [')'] ++ rest) := hr
      obtain ⟨⟨e, he, hv, _⟩, hl⟩ := ih d (w₂ ++ [')'] ++ rest) (by omega) h3 hr'
      have hstop : Stop (w₂ ++ [')'] ++ rest) := .inr ⟨rest, by
        rw [List.append_assoc, ws_blank _ _ h2]; exact ws_cons _ _ (by decide)⟩
      obtain ⟨xs, hx, hxv⟩ := chain_links g hg _ _ hstop s.links
        (linksText g s.links ++ (w₂ ++ [')'] ++ rest)).length
        (by have := links_length g hg s.links; rw [List.length_append]; omega) hl
      have hst : ws (s.text g ++ (w₂ ++ [')'] ++ rest)) = s.text g ++ (w₂ ++ [')'] ++ rest) := by
        have := starts g hg s.first _ (first_readable g s _ hr') (first_factor s)
        rw [spine_text g s]
        simpa using this
      have hp : parens (expr g (d + 1)) ((Syn.paren w₁ s w₂).text g ++ rest) = some (toExpr e xs, rest) := by
        simp only [parens, Syn.text, List.append_assoc, List.cons_append, List.nil_append, lit, if_true]
        simp only [List.append_assoc, List.cons_append, List.nil_append] at hst he hx hstop
        rw [ws_blank _ _ h1, hst]
        simp only [expr, he, hx]
        rw [ws_blank _ _ h2, ws_cons _ _ (by decide), ws_cons _ _ (by decide)]
        simp [lit]
      refine ⟨⟨toExpr e xs, ?_, ?_, fun _ _ _ _ => hp⟩, trivial⟩
      · simp only [group, hp, Syn.links, linksText, List.nil_append]
      · intro v
        rw [toExpr_val, hv v, hxv v, ← spine_val v s h3]; rfl
  | not w s ih =>
    intro d rest hd hw hr
    obtain ⟨h1, h2, h3⟩ := hw
    obtain ⟨hr1, hr2⟩ := hr
    have hf : s.factor = true := by cases s <;> simp_all [Syn.factor, Syn.atomic]
    obtain ⟨⟨e, he, hv, hpar⟩, _⟩ := ih d rest hd h3 hr1
    rw [(factor_spine hf).2] at he
    rw [(factor_spine hf).1] at hv
    simp only [linksText, List.nil_append] at he
    have hst := starts g hg s rest hr1 hf
    obtain ⟨c, t, ht1, ht2, ht3⟩ := hg.notTok
    refine ⟨⟨.neg e, ?_, ?_, by simp⟩, trivial⟩
    · have hp : parens (expr g d) (g.notTok ++ w ++ s.text g ++ rest) = none := by
        simp only [parens, ht1, List.cons_append, lit]
        rw [if_neg (Ne.symm ht2)]
      have hn : ∀ p : Text → Option (E α × Text), negated g p (g.notTok ++ w ++ s.text g ++ rest)
          = match p (s.text g ++ rest) with | none => none | some (x, s) => some (.neg x, s) := by
        intro p
        simp only [negated]
        rw [List.append_assoc, List.append_assoc, lit_append]
        simp only
        rw [ws_blank _ _ h1, hst]
        rfl
      simp only [Syn.text, group, hp, hn, Syn.links, linksText, List.nil_append]
      cases s with
      | leaf t x =>
        obtain ⟨q1, q2, q3, q4⟩ := hr1
        have hq : parens (expr g d) (t ++ rest) = none := by simp [parens, q2]
        have he' : x = e := by
          simp only [Syn.text, group, hq, negated, q3, q1] at he
          simpa using he
        subst he'
        simp only [Syn.text] at *
        cases g.leafFirst <;> simp [hq, q1]
      | paren w₁ s' w₂ =>
        have he' := hpar w₁ s' w₂ rfl
        cases hlf : g.leafFirst with
        | false => simp [he']
        | true =>
          have := hr2 hlf w₁ s' w₂ rfl
          simp [this, he']
      | not => simp [Syn.atomic] at h2
      | and => simp [Syn.atomic] at h2
      | or => simp [Syn.atomic] at h2
    · intro v; simp [E.eval, hv v, Syn.first, Syn.value]
  | and l w₁ w₂ r ihl ihr =>
    intro d rest hd hw hr
    obtain ⟨h1, h2, h3, h4, h5, h6⟩ := hw
    obtain ⟨hr1, hr2⟩ := hr
    simp only [Syn.depth] at hd
    obtain ⟨⟨e, he, hv, _⟩, hl⟩ := ihl d _ (by omega) h5 hr1
    obtain ⟨⟨e', he', hv', _⟩, _⟩ := ihr d rest (by omega) h6 hr2
    rw [(factor_spine h4).2] at he'
    rw [(factor_spine h4).1] at hv'
    refine ⟨⟨e, ?_, hv, by simp⟩, ?_⟩
    · simpa [Syn.text, Syn.links, linksText, linksText_append] using he
    · simp only [Syn.links, linksOk_append]
      refine ⟨by simpa [linksText] using hl, h1, h2, ?_, ⟨e', ?_, hv'⟩, trivial⟩
      · simpa [linksText] using starts g hg r rest hr2 h4
      · simpa [linksText] using he'
  | or l w₁ w₂ r ihl ihr =>
    intro d rest hd hw hr
    obtain ⟨h1, h2, h3, h4, h5⟩ := hw
    obtain ⟨hr1, hr2⟩ := hr
    simp only [Syn.depth] at hd
    obtain ⟨⟨e, he, hv, _⟩, hl⟩ := ihl d _ (by omega) h4 hr1
    obtain ⟨⟨e', he', hv', _⟩, hl'⟩ := ihr d rest (by omega) h5 hr2
    refine ⟨⟨e, ?_, hv, by simp⟩, ?_⟩
    · have := spine_text g r
      rw [this] at he
      simp only [Syn.text]
      rw [this]
      simpa [Syn.text, Syn.links, linksText, linksText_append] using he
    · simp only [Syn.links, linksOk_append]
      refine ⟨?_, h1, h2, ?_, ⟨e', ?_, hv'⟩, hl'⟩
      · rw [spine_text g r] at hl
        simpa [linksText] using hl
      · exact starts g hg r.first _ (first_readable g r rest hr2) (first_factor r)
      · rw [spine_text g r] at he'
        simpa using he'

/-- A readable expression, followed by whitespace, is parsed to its meaning. -/
theorem parse_read (g : Grammar α) (hg : g.Sane) (s : Syn α) (w : Text) (hw : s.Wf) (hb : Blank w)
    (hr : s.Readable g w) : ∃ e, parse g (s.text g ++ w) = some e ∧ ∀ v, e.eval v = s.value v := by
  obtain ⟨⟨e, he, hv, _⟩, hl⟩ := spine_read g hg s (s.text g ++ w).length w
    (by have := depth_text g s; rw [List.length_append]; omega) hw hr
  have hstop : Stop w := .inl (by have := ws_blank w [] hb; simpa [ws] using this)
  obtain ⟨xs, hx, hxv⟩ := chain_links g hg _ w hstop s.links (linksText g s.links ++ w).length
    (by have := links_length g hg s.links; rw [List.length_append]; omega) hl
  refine ⟨toExpr e xs, ?_, ?_⟩
  · have h0 : ws w = [] := by have := ws_blank w [] hb; simpa [ws] using this
    simp only [parse, expr, he, hx, h0]
  · intro v
    rw [toExpr_val, hv v, hxv v, ← spine_val v s hw]

end Verif.QueryText
