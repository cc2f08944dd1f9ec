import Verif.Csv.Spec

/-! # Lemmas about CSV texts -/

namespace Verif.Csv
open Verif.Data Verif.DataText Verif.Csv.Spec

/-! ### Texts of scalars -/

/-- Texts without quotes, bars, commas and line feeds. -/
def Good (s : Str) : Prop := ∀ b ∈ s, b ≠ 34 ∧ b ≠ 124 ∧ b ≠ 44 ∧ b ≠ 10

theorem good_nil : Good [] := fun _ h => by cases h
theorem good_append {s t : Str} (hs : Good s) (ht : Good t) : Good (s ++ t) := fun b h => by
  rcases List.mem_append.1 h with h | h
  · exact hs b h
  · exact ht b h
theorem good_cons {b : UInt8} {s : Str} (hb : b ≠ 34 ∧ b ≠ 124 ∧ b ≠ 44 ∧ b ≠ 10) (hs : Good s) : Good (b :: s) := fun c h => by
  rcases List.mem_cons.1 h with rfl | h
  · exact hb
  · exact hs c h

theorem good_digit (d : Nat) (h : d < 10) : digitChar d ≠ 34 ∧ digitChar d ≠ 124 ∧ digitChar d ≠ 44 ∧ digitChar d ≠ 10 := by
  have : ∀ d : Fin 10, digitChar d.1 ≠ 34 ∧ digitChar d.1 ≠ 124 ∧ digitChar d.1 ≠ 44 ∧ digitChar d.1 ≠ 10 := by decide
  exact this ⟨d, h⟩

theorem good_printPos (n : Nat) : Good (printPos n) := by
  induction n using Nat.strongRecOn with
  | ind n ih =>
    rw [printPos]
    split
    · exact good_nil
    · rename_i h
      exact good_append (ih _ (by omega)) (good_cons (good_digit _ (by omega)) good_nil)

theorem good_printNat (n : Nat) : Good (printNat n) := by
  rw [printNat]
  split
  · exact good_cons (by decide) good_nil
  · exact good_printPos n

theorem good_join {sep : Str} (hs : Good sep) : ∀ {xs : List Str}, (∀ x ∈ xs, Good x) → Good (join sep xs)
  | [], _ => good_nil
  | [x], h => h x (List.mem_singleton.2 rfl)
  | x :: y :: xs, h => good_append (good_append (h x List.mem_cons_self) hs)
      (good_join hs fun z hz => h z (List.mem_cons_of_mem _ hz))

theorem good_hexLower (d : Nat) (h : d < 16) : hexLower d ≠ 34 ∧ hexLower d ≠ 124 ∧ hexLower d ≠ 44 ∧ hexLower d ≠ 10 := by
  have : ∀ d : Fin 16, hexLower d.1 ≠ 34 ∧ hexLower d.1 ≠ 124 ∧ hexLower d.1 ≠ 44 ∧ hexLower d.1 ≠ 10 := by decide
  exact this ⟨d, h⟩

theorem good_printHex (n : Nat) (h : n < 65536) : Good (printHex n) := by
  unfold printHex
  repeat' split
  all_goals repeat' first | exact good_nil | refine good_cons (good_hexLower _ (by omega)) ?_

theorem good_ntop4 (bs : List Nat) : Good (ntop4 bs) := by
  refine good_join (good_cons (by decide) good_nil) fun x hx => ?_
  obtain ⟨n, _, rfl⟩ := List.mem_map.1 hx
  exact good_printNat n

theorem wordsOf_lt : ∀ (bs : List Nat), (∀ b ∈ bs, b < 256) → ∀ w ∈ wordsOf bs, w < 65536
  | [], _, w, hw => by cases hw
  | [_], _, w, hw => by cases hw
  | a :: b :: bs, h, w, hw => by
    rw [wordsOf] at hw
    rcases List.mem_cons.1 hw with rfl | hw
    · have := h a (by simp)
      have := h b (by simp)
      omega
    · exact wordsOf_lt bs (fun x hx => h x (by simp [hx])) w hw

theorem good_ntop6 (bs : List Nat) (h : ∀ b ∈ bs, b < 256) : Good (ntop6 bs) := by
  have hw := wordsOf_lt bs h
  have hj : ∀ ws : List Nat, (∀ w ∈ ws, w < 65536) → Good (join [ch ':'] (ws.map printHex)) := by
    intro ws hws
    refine good_join (good_cons (by decide) good_nil) fun x hx => ?_
    obtain ⟨n, hn, rfl⟩ := List.mem_map.1 hx
    exact good_printHex n (hws n hn)
  have hc : Good [ch ':', ch ':'] := good_cons (by decide) (good_cons (by decide) good_nil)
  unfold ntop6
  split
  · exact hj _ hw
  · split
    · exact good_append hc (good_ntop4 _)
    · split
      · exact good_append (good_append (good_append hc (good_printHex _ (by decide))) (good_cons (by decide) good_nil)) (good_ntop4 _)
      · exact good_append (good_append (hj _ fun w h => hw w (List.mem_of_mem_take h)) hc) (hj _ fun w h => hw w (List.mem_of_mem_drop h))

theorem good_printAddr (a : Address.Address) : Good (printAddr a) := by
  unfold printAddr
  split
  · exact good_ntop4 _
  · refine good_ntop6 _ fun b hb => ?_
    obtain ⟨x, _, rfl⟩ := List.mem_map.1 hb
    exact x.isLt

theorem good_replicate (n : Nat) {b : UInt8} (hb : b ≠ 34 ∧ b ≠ 124 ∧ b ≠ 44 ∧ b ≠ 10) : Good (List.replicate n b) := fun c h => by
  rw [List.eq_of_mem_replicate h]; exact hb

theorem good_printAbs {D : Nat} {x : Rat} {t : Str} (h : Number.printAbs D x = some t) : Good t := by
  unfold Number.printAbs at h
  split at h
  · cases h
    exact good_append (good_printNat _) (good_cons (by decide) (good_append (good_replicate _ (by decide)) (good_printNat _)))
  · cases h

theorem good_printReal {D : Nat} {r : Real} {t : Str} (h : Number.printReal D r = some t) : Good t := by
  unfold Number.printReal at h
  split at h
  · split at h
    · rw [Option.map_eq_some_iff] at h
      obtain ⟨t', h', rfl⟩ := h
      exact good_cons (by decide) (good_printAbs h')
    · exact good_printAbs h
  · cases h

theorem good_units (d : Int) : Good ((Number.pick d).2.map ch) := by
  have key : ∀ u ∈ ((1, ['n', 's']) : Nat × List Char) :: Number.printUnits, ∀ b ∈ u.2.map ch, b ≠ 34 ∧ b ≠ 124 ∧ b ≠ 44 ∧ b ≠ 10 := by
    decide
  unfold Number.pick
  cases hf : Number.printUnits.find? fun u => decide (1 ≤ d.natAbs / u.1) with
  | none => exact key _ List.mem_cons_self
  | some u => exact key u (List.mem_cons_of_mem _ (List.mem_of_find?_eq_some hf))

theorem good_printDuration {d : Int} {t : Str} (h : Number.printDuration d = some t) : Good t := by
  unfold Number.printDuration at h
  split at h
  · cases h
  · rw [Option.map_eq_some_iff] at h
    obtain ⟨t', h', rfl⟩ := h
    exact good_append (good_printReal h') (good_units d)

theorem good_padNat (k n : Nat) : Good (Calendar.padNat k n) := by
  unfold Calendar.padNat
  exact good_append (good_replicate _ (by decide)) (good_printNat _)

theorem good_printTime (t : Int) : Good (Calendar.printTime t) := by
  have hs : ∀ n, Good (Calendar.printSub n) := by
    intro n
    unfold Calendar.printSub
    repeat' split
    all_goals first | exact good_nil | exact good_cons (by decide) (good_padNat _ _)
  unfold Calendar.printTime
  refine good_append (good_append (good_append (good_append (good_append (good_append (good_printNat _) ?_) ?_) ?_) ?_) ?_) (hs _)
  all_goals exact good_cons (by decide) (good_padNat _ _)

theorem good_printInt {i : Int} {t : Str} (h : printInt i = some t) : Good t := by
  unfold printInt at h
  repeat' split at h
  all_goals cases h
  all_goals exact good_cons (by decide) (good_printNat _)

/-! ### Reading -/

/-- Texts that stay together. -/
def Neutral (t : Str) : Prop := ∀ cell row rest, parse false cell row (t ++ rest) = parse false (cell ++ t) row rest

theorem neutral_nil : Neutral [] := fun cell row rest => by simp
theorem neutral_append {s t : Str} (hs : Neutral s) (ht : Neutral t) : Neutral (s ++ t) := fun cell row rest => by
  rw [List.append_assoc, hs, ht, List.append_assoc]

theorem neutral_clean : ∀ {s : Str}, Clean s → Neutral s
  | [], _ => neutral_nil
  | b :: s, h => fun cell row rest => by
    obtain ⟨h1, h2, h3⟩ := h b List.mem_cons_self
    rw [List.cons_append, parse, if_neg h1, if_neg (by simp [h2]), if_neg (by simp [h3]),
      neutral_clean (s := s) (fun c hc => h c (List.mem_cons_of_mem _ hc))]
    simp

theorem Good.clean {s : Str} (h : Good s) : Clean s := fun b hb => ⟨(h b hb).1, (h b hb).2.2.1, (h b hb).2.2.2⟩

theorem parse_body : ∀ (s : Str) (cell : Str) (row : List Str) (rest : Str),
    parse true cell row (escape s ++ 34 :: rest) = parse false (cell ++ (escape s ++ [34])) row rest
  | [], cell, row, rest => by simp [escape, parse]
  | b :: s, cell, row, rest => by
    have ih := parse_body s
    have e : escape (b :: s) = (if b = ch '"' ∨ b = ch '|' then [b, b] else [b]) ++ escape s := rfl
    have hq : (ch '"' : UInt8) = 34 := rfl
    have hbar : (ch '|' : UInt8) = 124 := rfl
    rw [e, hq, hbar]
    by_cases h1 : b = 34
    · subst h1
      simp only [true_or, if_true, List.cons_append, List.nil_append, parse, Bool.not_true, Bool.not_false]
      rw [ih]
      simp
    · by_cases h2 : b = 124
      · subst h2
        simp only [or_true, if_true, List.cons_append, List.nil_append, parse, reduceCtorEq, false_and, if_false, h1]
        rw [ih]
        simp
      · simp only [h1, h2, or_self, if_false, List.cons_append, List.nil_append, parse, reduceCtorEq, false_and]
        rw [ih]
        simp

theorem neutral_quote (s : Str) : Neutral (quote s) := fun cell row rest => by
  have hq : (ch '"' : UInt8) = 34 := rfl
  rw [quote, hq, List.cons_append, parse, if_pos rfl]
  have := parse_body s (cell ++ [34]) row rest
  simp only [List.append_assoc, List.cons_append, List.nil_append, Bool.not_false] at this ⊢
  exact this

/-- Texts that are one element. -/
def One (t : Str) : Prop := ∀ cell rest, rest = [] ∨ (∃ r, rest = 32 :: 124 :: 32 :: r) →
  elements false cell (t ++ rest) = elements false (cell ++ t) rest

theorem one_nil : One [] := fun cell rest _ => by simp

theorem one_good : ∀ {s : Str}, Good s → One s
  | [], _ => one_nil
  | b :: s, h => fun cell rest hr => by
    obtain ⟨h1, h2, _, _⟩ := h b List.mem_cons_self
    have hs : Good s := fun c hc => h c (List.mem_cons_of_mem _ hc)
    rw [List.cons_append, elements, if_neg, if_neg h1, one_good hs _ _ hr]
    · simp
    · rintro ⟨_, ht⟩
      cases s with
      | nil =>
        rcases hr with rfl | ⟨r, rfl⟩
        · simp at ht
        · simp at ht
      | cons c s =>
        simp only [List.cons_append, List.take_succ_cons, List.cons.injEq] at ht
        exact (hs c List.mem_cons_self).2.1 ht.2.1

theorem elements_body : ∀ (s : Str) (cell : Str) (rest : Str),
    elements true cell (escape s ++ 34 :: rest) = elements false (cell ++ (escape s ++ [34])) rest
  | [], cell, rest => by
    have : escape [] = [] := rfl
    rw [this, List.nil_append, elements]
    simp
  | b :: s, cell, rest => by
    have ih := elements_body s
    have e : escape (b :: s) = (if b = ch '"' ∨ b = ch '|' then [b, b] else [b]) ++ escape s := rfl
    have hq : (ch '"' : UInt8) = 34 := rfl
    have hbar : (ch '|' : UInt8) = 124 := rfl
    rw [e, hq, hbar]
    by_cases h1 : b = 34
    · subst h1
      simp only [true_or, if_true, List.cons_append, List.nil_append]
      rw [elements, if_neg (by simp), elements, if_neg (by simp), if_pos rfl, if_pos rfl]
      simp only [Bool.not_true, Bool.not_false]
      rw [ih]
      simp
    · by_cases h2 : b = 124
      · subst h2
        simp only [or_true, if_true, List.cons_append, List.nil_append]
        rw [elements, if_neg (by simp), if_neg h1, elements, if_neg (by simp), if_neg h1, ih]
        simp
      · simp only [h1, h2, or_self, if_false, List.cons_append, List.nil_append]
        rw [elements, if_neg (by simp), if_neg h1, ih]
        simp

theorem one_quote (s : Str) : One (quote s) := fun cell rest _ => by
  have hq : (ch '"' : UInt8) = 34 := rfl
  rw [quote, hq, List.cons_append, elements, if_neg (by simp), if_pos rfl]
  have := elements_body s (cell ++ [34]) rest
  simp only [List.append_assoc, List.cons_append, List.nil_append, Bool.not_false] at this ⊢
  exact this

theorem undouble_escape : ∀ (s : Str), undouble (escape s) = some s
  | [] => rfl
  | b :: s => by
    have ih := undouble_escape s
    have e : escape (b :: s) = (if b = 34 ∨ b = 124 then [b, b] else [b]) ++ escape s := rfl
    rw [e]
    by_cases h : b = 34 ∨ b = 124
    · rw [if_pos h]
      simp only [List.cons_append, List.nil_append]
      rw [undouble, if_pos h, if_pos rfl, ih]; rfl
    · rw [if_neg h]
      simp only [List.cons_append, List.nil_append]
      cases hs : escape s with
      | nil =>
        rw [hs] at ih
        rw [undouble, if_neg h]
        cases ih; rfl
      | cons c r =>
        rw [undouble, if_neg h, ← hs, ih]; rfl

theorem unquote_quote (s : Str) : unquote (quote s) = some s := by
  have hq : (ch '"' : UInt8) = 34 := rfl
  rw [quote, hq, unquote]
  rw [if_pos (by simp), List.dropLast_concat, undouble_escape]

/-! ### Cells -/

/-- What is true of the text of a scalar. -/
theorem scalar_text (env : Env) (records : List Str → List Data → Str) (d : Data) (h : Scalar d) :
    (render env records d).2 = true ∧ ScalarText env d (render env records d).1 ∧
    Neutral (render env records d).1 ∧ One (render env records d).1 := by
  have key : ∀ t, Good t → Neutral t ∧ One t := fun t h => ⟨neutral_clean h.clean, one_good h⟩
  cases d with
  | none => rw [render]; exact ⟨rfl, rfl, neutral_nil, one_nil⟩
  | string s => rw [render]; exact ⟨rfl, unquote_quote s, neutral_quote s, one_quote s⟩
  | list _ => exact (False.elim h)
  | map _ _ => exact (False.elim h)
  | record _ _ => exact (False.elim h)
  | real r =>
    obtain ⟨t, ht⟩ := h
    rw [render, real, ht]
    exact ⟨rfl, ht, key _ (good_printReal ht)⟩
  | duration d =>
    obtain ⟨t, ht⟩ := h
    have hp : print (Number.withNumbers env) (.duration d) = some t := by
      simp [print, Number.withNumbers, ht]
    rw [render, hp]
    exact ⟨rfl, hp, key _ (good_printDuration ht)⟩
  | int i =>
    have hp : ∃ t, print (Number.withNumbers env) (.int i) = some t ∧ Good t := by
      cases hi : printInt i with
      | none =>
        unfold printInt at hi
        rw [if_neg h] at hi
        split at hi <;> cases hi
      | some t => exact ⟨t, by simp [print, hi], good_printInt hi⟩
    obtain ⟨t, hp, hg⟩ := hp
    rw [render, hp]
    exact ⟨rfl, hp, key _ hg⟩
  | bool b =>
    rw [render]
    refine ⟨rfl, rfl, key _ ?_⟩
    cases b <;> exact good_cons (by decide) good_nil
  | count n => rw [render]; exact ⟨rfl, rfl, key _ (good_printNat n)⟩
  | enum n => rw [render]; exact ⟨rfl, rfl, key _ (good_printNat n)⟩
  | time t => rw [render]; exact ⟨rfl, rfl, key _ (good_printTime t)⟩
  | pattern s =>
    rw [render]
    refine ⟨rfl, rfl, key _ ?_⟩
    exact good_cons (by decide) (good_append h (good_cons (by decide) good_nil))
  | address a => rw [render]; exact ⟨rfl, rfl, key _ (good_printAddr a)⟩
  | subnet s =>
    rw [render]
    exact ⟨rfl, rfl, key _ (good_append (good_append (good_printAddr _) (good_cons (by decide) good_nil)) (good_printNat _))⟩

theorem renderMore_spec (env : Env) (records : List Str → List Data → Str) : ∀ (xs : List Data), (∀ x ∈ xs, Scalar x) →
    Neutral (renderMore env records xs) ∧ (renderMore env records xs = [] ∨ ∃ r, renderMore env records xs = 32 :: 124 :: 32 :: r) ∧
    ∀ cell, ∃ ts, elements false cell (renderMore env records xs) = cell :: ts ∧ List.Forall₂ (ScalarText env) xs ts
  | [], _ => by
    rw [renderMore]
    refine ⟨neutral_nil, .inl rfl, fun cell => ⟨[], by rw [elements], .nil⟩⟩
  | x :: xs, h => by
    obtain ⟨h1, h2, h3, h4⟩ := scalar_text env records x (h x List.mem_cons_self)
    obtain ⟨i1, i2, i3⟩ := renderMore_spec env records xs fun y hy => h y (List.mem_cons_of_mem _ hy)
    have hsep : Neutral setSeparator := neutral_clean (by intro b hb; revert b; decide)
    rw [renderMore, h1, if_pos rfl]
    refine ⟨neutral_append hsep (neutral_append h3 i1), .inr ⟨_, rfl⟩, fun cell => ?_⟩
    obtain ⟨ts, j1, j2⟩ := i3 (render env records x).1
    refine ⟨(render env records x).1 :: ts, ?_, .cons h2 j2⟩
    have e : setSeparator = [32, 124, 32] := rfl
    rw [e]
    simp only [List.cons_append, List.nil_append]
    rw [elements, if_pos (by simp)]
    simp only [List.drop_succ_cons, List.drop_zero]
    rw [h4 [] _ i2, List.nil_append, j1]

theorem cell_text (env : Env) (records : List Str → List Data → Str) (d : Data) (h : Plain d) :
    (render env records d).2 = true ∧ CellText env d (render env records d).1 ∧ Neutral (render env records d).1 := by
  have key : ∀ d : Data, Scalar d → (CellText env d = ScalarText env d) →
      (render env records d).2 = true ∧ CellText env d (render env records d).1 ∧ Neutral (render env records d).1 := by
    intro d hd he
    obtain ⟨h1, h2, h3, _⟩ := scalar_text env records d hd
    rw [he]
    exact ⟨h1, h2, h3⟩
  cases d with
  | list xs =>
    rw [render]
    refine ⟨rfl, ?_⟩
    cases xs with
    | nil => rw [renderList]; exact ⟨by simp [CellText]; rfl, neutral_quote []⟩
    | cons x xs =>
      have h : ∀ y ∈ x :: xs, Scalar y := h
      obtain ⟨h1, h2, h3, h4⟩ := scalar_text env records x (h x List.mem_cons_self)
      obtain ⟨i1, i2, i3⟩ := renderMore_spec env records xs fun y hy => h y (List.mem_cons_of_mem _ hy)
      rw [renderList, h1, if_pos rfl]
      refine ⟨?_, neutral_append h3 i1⟩
      obtain ⟨ts, j1, j2⟩ := i3 (render env records x).1
      simp only [CellText, reduceCtorEq, if_false]
      rw [h4 [] _ i2, List.nil_append, j1]
      exact .cons h2 j2
  | map _ _ => exact (False.elim h)
  | record _ _ => exact (False.elim h)
  | none => exact key _ h rfl
  | bool _ => exact key _ h rfl
  | int _ => exact key _ h rfl
  | count _ => exact key _ h rfl
  | real _ => exact key _ h rfl
  | duration _ => exact key _ h rfl
  | time _ => exact key _ h rfl
  | string _ => exact key _ h rfl
  | pattern _ => exact key _ h rfl
  | address _ => exact key _ h rfl
  | subnet _ => exact key _ h rfl
  | enum _ => exact key _ h rfl

end Verif.Csv
