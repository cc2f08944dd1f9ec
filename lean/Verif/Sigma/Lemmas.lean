import Verif.Sigma.Spec
import Verif.QueryText.Lemmas
/-!
# Lemmas about Sigma rules
-/
namespace Verif.Sigma
open Verif.QueryText

variable {α : Type}

/-! ## Hoisting -/

theorem single_conj (v : α → Bool) (xs : List (E α)) : (single .conj xs).eval v = xs.all (·.eval v) := by
  match xs with
  | [] => simp [single, eval_conj]
  | [c] => simp [single]
  | a :: b :: r => exact eval_conj v _

theorem single_disj (v : α → Bool) (xs : List (E α)) : (single .disj xs).eval v = xs.any (·.eval v) := by
  match xs with
  | [] => simp [single, eval_disj]
  | [c] => simp [single]
  | a :: b :: r => exact eval_disj v _

mutual
theorem hoist_eval (v : α → Bool) : ∀ e : E α, (hoist e).eval v = e.eval v
  | .leaf a => rfl
  | .conj xs => by simp only [hoist]; rw [single_conj, hoistConj_eval v xs, eval_conj]
  | .disj xs => by simp only [hoist]; rw [single_disj, hoistDisj_eval v xs, eval_disj]
  | .neg x => by simp only [hoist, E.eval, hoist_eval v x]

theorem hoistConj_eval (v : α → Bool) : ∀ xs : List (E α), (hoistConj xs).all (·.eval v) = xs.all (·.eval v)
  | [] => rfl
  | x :: xs => by
    have ih := hoistConj_eval v xs
    match x with
    | .leaf a => simp [hoistConj, ih]
    | .conj ys => simp only [hoistConj, List.all_append, hoistAll_all v ys, ih, List.all_cons, eval_conj]
    | .disj ys => simp only [hoistConj, List.all_cons, ih, single_disj, hoistDisj_eval v ys, eval_disj]
    | .neg y => simp only [hoistConj, List.all_cons, ih, E.eval, hoist_eval v y]

theorem hoistDisj_eval (v : α → Bool) : ∀ xs : List (E α), (hoistDisj xs).any (·.eval v) = xs.any (·.eval v)
  | [] => rfl
  | x :: xs => by
    have ih := hoistDisj_eval v xs
    match x with
    | .leaf a => simp [hoistDisj, ih]
    | .disj ys => simp only [hoistDisj, List.any_append, hoistAll_any v ys, ih, List.any_cons, eval_disj]
    | .conj ys => simp only [hoistDisj, List.any_cons, ih, single_conj, hoistConj_eval v ys, eval_conj]
    | .neg y => simp only [hoistDisj, List.any_cons, ih, E.eval, hoist_eval v y]

theorem hoistAll_all (v : α → Bool) : ∀ xs : List (E α), (hoistAll xs).all (·.eval v) = xs.all (·.eval v)
  | [] => rfl
  | x :: xs => by simp only [hoistAll, List.all_cons, hoist_eval v x, hoistAll_all v xs]

theorem hoistAll_any (v : α → Bool) : ∀ xs : List (E α), (hoistAll xs).any (·.eval v) = xs.any (·.eval v)
  | [] => rfl
  | x :: xs => by simp only [hoistAll, List.any_cons, hoist_eval v x, hoistAll_any v xs]
end

theorem join_eval (v : α → Bool) (any : Bool) (xs : List (E α)) :
    (join any xs).eval v = if any then xs.any (·.eval v) else xs.all (·.eval v) := by
  simp only [join, hoist_eval]
  cases any
  · simp [eval_conj]
  · simp [eval_disj]

theorem force_eval (v : α → Bool) (any : Bool) (x : E α) :
    (force any x).eval v = if any then (members x).any (·.eval v) else (members x).all (·.eval v) := by
  cases x <;> cases any <;> simp [force, members, eval_conj, eval_disj]

/-! ## Search identifiers -/

/-- What a predicate of the model says about a key and a scalar. -/
def atom (v : Pred → Bool) (k : Key) (y : Y) : Bool := (makePredicate k y).elim false v

theorem predicates_holds (v : Pred → Bool) (k : Key) : ∀ (ys : List Y) (ps : List (E Pred)), predicates k ys = some ps →
    ps.all (·.eval v) = ys.all (atom v k) ∧ ps.any (·.eval v) = ys.any (atom v k)
  | [], ps, h => by
    simp only [predicates, Option.some.injEq] at h
    subst h; exact ⟨rfl, rfl⟩
  | y :: ys, ps, h => by
    simp only [predicates] at h
    cases hp : makePredicate k y with
    | none => simp [hp] at h
    | some p =>
      cases hq : predicates k ys with
      | none => simp [hp, hq] at h
      | some qs =>
        simp only [hp, hq, Option.some.injEq] at h
        subst h
        obtain ⟨h1, h2⟩ := predicates_holds v k ys qs hq
        have h3 : atom v k y = v p := by simp [atom, hp]
        exact ⟨by simp [h1, h3, E.eval], by simp [h2, h3, E.eval]⟩

theorem entry_holds (v : Pred → Bool) (k : Key) (y : Y) (e : E Pred) (h : entry k y = some e) :
    e.eval v = valuesHold (atom v) k y := by
  simp only [entry] at h
  split at h
  · simp at h
  · split at h
    · rename_i ys
      cases hp : predicates k ys with
      | none => simp [hp] at h
      | some ps =>
        simp only [hp, Option.map_some, Option.some.injEq] at h
        subst h
        obtain ⟨h1, h2⟩ := predicates_holds v k ys ps hp
        rw [hoist_eval]
        simp only [valuesHold, List.contains_iff_mem]
        split
        · rw [eval_conj, h1]
        · rw [eval_disj, h2]
    · rename_i hl
      cases hp : makePredicate k y with
      | none => simp [hp] at h
      | some p =>
        simp only [hp, Option.map_some, Option.some.injEq] at h
        subst h
        have : valuesHold (atom v) k y = atom v k y := by
          cases y <;> first | rfl | exact absurd rfl (hl _)
        rw [this]
        simp [atom, hp, E.eval]

theorem entries_holds (v : Pred → Bool) : ∀ (xs : List (Key × Y)) (es : List (E Pred)), entries xs = some es →
    es.all (·.eval v) = xs.all fun x => valuesHold (atom v) x.1 x.2
  | [], es, h => by
    simp only [entries, Option.some.injEq] at h
    subst h; rfl
  | (k, y) :: xs, es, h => by
    simp only [entries] at h
    cases hp : entry k y with
    | none => simp [hp] at h
    | some e =>
      cases hq : entries xs with
      | none => simp [hp, hq] at h
      | some fs =>
        simp only [hp, hq, Option.some.injEq] at h
        subst h
        simp [entries_holds v xs fs hq, entry_holds v k y e hp]

mutual
theorem search_holds (v : Pred → Bool) : ∀ (y : Y) (e : E Pred), parseSearchId y = some e → e.eval v = y.holds (atom v)
  | .str _, e, h => by simp [parseSearchId] at h
  | .scalar _, e, h => by simp [parseSearchId] at h
  | .map xs, e, h => by
    simp only [parseSearchId] at h
    cases hq : entries xs with
    | none => simp [hq] at h
    | some es =>
      simp only [hq, Option.map_some, Option.some.injEq] at h
      subst h
      rw [single_conj, entries_holds v xs es hq, Y.holds]
  | .list ys, e, h => by
    simp only [parseSearchId] at h
    cases hq : parseSearchIds ys with
    | none => simp [hq] at h
    | some es =>
      simp only [hq, Option.map_some, Option.some.injEq] at h
      subst h
      rw [single_disj, searches_holds v ys es hq, Y.holds]

theorem searches_holds (v : Pred → Bool) : ∀ (ys : List Y) (es : List (E Pred)), parseSearchIds ys = some es →
    es.any (·.eval v) = Y.holdsAny (atom v) ys
  | [], es, h => by
    simp only [parseSearchIds, Option.some.injEq] at h
    subst h; rfl
  | y :: ys, es, h => by
    simp only [parseSearchIds] at h
    cases hp : parseSearchId y with
    | none => simp [hp] at h
    | some e =>
      cases hq : parseSearchIds ys with
      | none => simp [hp, hq] at h
      | some fs =>
        simp only [hp, hq, Option.some.injEq] at h
        subst h
        simp [searches_holds v ys fs hq, search_holds v y e hp, Y.holdsAny]
end

theorem makePredicate_some (k : Key) (y : Y) : (makePredicate k y).isSome = y.isScalar := by
  cases y with
  | str s => simp only [makePredicate, Y.isScalar]; split <;> try rfl
             split <;> try rfl
             split <;> rfl
  | scalar n => rfl
  | list ys => rfl
  | map xs => rfl

theorem predicates_some (k : Key) (ys : List Y) : (predicates k ys).isSome = ys.all (·.isScalar) := by
  induction ys with
  | nil => rfl
  | cons y ys ih =>
    have h := makePredicate_some k y
    simp only [predicates, List.all_cons, ← ih, ← h]
    cases makePredicate k y <;> cases predicates k ys <;> rfl

theorem entry_some (k : Key) (y : Y) : (entry k y).isSome = (!k.mods.contains .unimplemented && y.isValues) := by
  simp only [entry]
  cases k.mods.contains .unimplemented with
  | true => simp
  | false =>
    cases y with
    | list ys => simp [Y.isValues, predicates_some]
    | str s => simp [Y.isValues, makePredicate_some]
    | scalar n => simp [Y.isValues, makePredicate_some]
    | map xs => simp [Y.isValues, makePredicate_some]

theorem entries_some (xs : List (Key × Y)) :
    (entries xs).isSome = xs.all fun x => !x.1.mods.contains .unimplemented && x.2.isValues := by
  induction xs with
  | nil => rfl
  | cons x xs ih =>
    obtain ⟨k, y⟩ := x
    have h := entry_some k y
    simp only [entries, List.all_cons, ← ih, ← h]
    cases entry k y <;> cases entries xs <;> rfl

mutual
theorem search_some : ∀ (y : Y), (parseSearchId y).isSome = y.wellFormed
  | .str _ => rfl
  | .scalar _ => rfl
  | .map xs => by simp only [parseSearchId, Y.wellFormed, Option.isSome_map, entries_some]
  | .list ys => by simp only [parseSearchId, Y.wellFormed, Option.isSome_map, searches_some ys]

theorem searches_some : ∀ (ys : List Y), (parseSearchIds ys).isSome = Y.wellFormedAll ys
  | [] => rfl
  | y :: ys => by
    have h1 := search_some y
    have h2 := searches_some ys
    simp only [parseSearchIds, Y.wellFormedAll, ← h1, ← h2]
    cases parseSearchId y <;> cases parseSearchIds ys <;> rfl
end

/-! ## Operands of a condition -/

/-- What follows an operand. -/
def Follow (rest : Text) : Prop := rest = [] ∨ ∃ c r, rest = c :: r ∧ (isSpace c = true ∨ c = ')')

theorem prefix_bound : ∀ (k n rest : Text), isPrefix k (n ++ rest) = true →
    (∀ c ∈ k, isSpace c = false ∧ c ≠ '(' ∧ c ≠ ')') → Follow rest →
    isPrefix k n = true ∧ k.length ≤ n.length ∧ (k.length = n.length → k = n)
  | [], n, rest, _, _, _ => by
    refine ⟨by simp [isPrefix], by simp, fun h => ?_⟩
    exact (List.eq_nil_of_length_eq_zero h.symm).symm
  | c :: k, [], rest, h, hc, hf => by
    exfalso
    rcases hf with rfl | ⟨d, r, rfl, hd⟩
    · simp [isPrefix] at h
    · simp only [List.nil_append, isPrefix, Bool.and_eq_true, decide_eq_true_eq] at h
      obtain ⟨rfl, _⟩ := h
      have := hc c (by simp)
      rcases hd with hd | hd
      · rw [this.1] at hd; simp at hd
      · exact this.2.2 hd
  | c :: k, d :: n, rest, h, hc, hf => by
    simp only [List.cons_append, isPrefix, Bool.and_eq_true, decide_eq_true_eq] at h
    obtain ⟨rfl, h⟩ := h
    obtain ⟨h0, h1, h2⟩ := prefix_bound k n rest h (fun c hc' => hc c (by simp [hc'])) hf
    exact ⟨by simp [isPrefix, h0], by simpa using h1, fun h => by rw [h2 (by simpa using h)]⟩

theorem isPrefix_append (n rest : Text) : isPrefix n (n ++ rest) = true := by
  induction n with
  | nil => rfl
  | cons c n ih => simp [isPrefix, ih]

/-- The longest match: if `n` is a prefix and every other matching key is shorter, `n` is found. -/
theorem longest_found (s n : Text) (x : E α) (hn : isPrefix n s = true) (hne : n ≠ []) : ∀ (tbl : Table α)
    (best : Option (Text × E α)),
    (∀ k y, (k, y) ∈ tbl → isPrefix k s = true → k.length < n.length ∨ (k = n ∧ y = x)) →
    (best = some (n, x) ∨ ((∀ b, best = some b → b.1.length < n.length) ∧ (n, x) ∈ tbl)) →
    longest s tbl best = some (n, x)
  | [], best, _, hb => by
    rcases hb with hb | ⟨_, hb⟩
    · exact hb
    · simp at hb
  | (k, y) :: tbl, best, hk, hb => by
    simp only [longest]
    apply longest_found s n x hn hne tbl
    · intro k' y' h; exact hk k' y' (by simp [h])
    · rcases hb with rfl | ⟨h1, h2⟩
      · left
        rw [if_neg]
        simp only [Option.map_some, Option.getD_some, Bool.and_eq_true, decide_eq_true_eq, not_and, Nat.not_lt]
        intro hp
        rcases hk k y (by simp) hp with h | ⟨rfl, _⟩
        · omega
        · omega
      · by_cases hkn : (k, y) = (n, x)
        · left
          obtain ⟨rfl, rfl⟩ := Prod.mk.inj hkn
          rw [if_pos]
          simp only [hn, Bool.true_and, decide_eq_true_eq]
          cases hbest : best with
          | none => simp only [Option.map_none, Option.getD_none]; exact List.length_pos_iff.mpr hne
          | some b => exact h1 b hbest
        · have h3 : (n, x) ∈ tbl := by
            rcases List.mem_cons.mp h2 with h | h
            · exact absurd h.symm hkn
            · exact h
          right
          refine ⟨?_, h3⟩
          intro b hb
          split at hb
          · rename_i hc
            simp only [Bool.and_eq_true] at hc
            obtain rfl := Option.some.inj hb
            rcases hk k y (by simp) hc.1 with h | ⟨rfl, rfl⟩
            · exact h
            · exact absurd rfl hkn
          · exact h1 b hb

theorem longest_none (s : Text) : ∀ (tbl : Table α), (∀ k ∈ tbl, isPrefix k.1 s = false) → longest s tbl none = none
  | [], _ => rfl
  | (k, y) :: tbl, h => by
    have := h (k, y) (by simp)
    simp only at this
    simp only [longest, this, Bool.false_and, Bool.false_eq_true, if_false]
    exact longest_none s tbl fun k hk => h k (by simp [hk])

theorem ident_found (tbl : Table α) (ht : PlainTable tbl) (n : Text) (x : E α) (hx : (n, x) ∈ tbl) (rest : Text)
    (hf : Follow rest) : ident tbl (n ++ rest) = some (x, rest) := by
  have h := longest_found (n ++ rest) n x (isPrefix_append n rest) (ht.plain _ hx).nonempty tbl none (by
    intro k y hk hp
    obtain ⟨_, h1, h2⟩ := prefix_bound k n rest hp (ht.plain _ hk).chars hf
    by_cases he : k.length = n.length
    · right
      have := h2 he
      subst this
      refine ⟨rfl, ?_⟩
      have hnd := ht.nodup
      clear hp h1 h2 he ht
      induction tbl with
      | nil => simp at hk
      | cons t tbl ih =>
        simp only [List.map_cons, List.nodup_cons] at hnd
        rcases List.mem_cons.mp hk with h | h <;> rcases List.mem_cons.mp hx with h' | h'
        · rw [← h'] at h; exact (Prod.mk.inj h).2
        · subst h; exact absurd (List.mem_map.mpr ⟨_, h', rfl⟩) hnd.1
        · subst h'; exact absurd (List.mem_map.mpr ⟨_, h, rfl⟩) hnd.1
        · exact ih h h' hnd.2
    · left; omega) (.inr ⟨by simp, hx⟩)
  simp [ident, h]

theorem ident_them (tbl : Table α) (ht : PlainTable tbl) (rest : Text) (hf : Follow rest) :
    ident tbl ("them".toList ++ rest) = none := by
  simp only [ident]
  rw [longest_none]
  intro k hk
  cases h : isPrefix k.1 ("them".toList ++ rest) with
  | false => rfl
  | true =>
    have := (prefix_bound k.1 _ rest h (ht.plain _ hk).chars hf).1
    rw [(ht.plain _ hk).them] at this
    simp at this

theorem lit_all_one (s : Text) : lit "1 of".toList ("all of".toList ++ s) = none := by
  simp [lit]

theorem lit_one_all (s : Text) : lit "all of".toList ("1 of".toList ++ s) = none := by
  simp [lit]

theorem word_free {n : Text} (hn : PlainName n) : ∃ c t, n = c :: t ∧ isSpace c = false ∧ c ≠ '(' := by
  cases h : n with
  | nil => exact absurd h hn.nonempty
  | cons c t => exact ⟨c, t, rfl, (hn.chars c (by simp [h])).1, (hn.chars c (by simp [h])).2.1⟩

theorem name_ws {n : Text} (hn : PlainName n) (rest : Text) : ws (n ++ rest) = n ++ rest := by
  obtain ⟨c, t, h1, h2, _⟩ := word_free hn
  rw [h1]; exact ws_cons _ _ h2

/-- A name followed by a blank, a parenthesis or the end does not read as a quantifier. -/
theorem name_not_quant {n : Text} (hn : PlainName n) (rest : Text) (hf : Follow rest) :
    lit "all of".toList (n ++ rest) = none ∧ lit "1 of".toList (n ++ rest) = none := by
  have h1 := hn.all
  have h2 := hn.one
  have h3 := hn.chars
  constructor
  · match n with
    | [] => exact absurd rfl hn.nonempty
    | [a] =>
      rcases hf with rfl | ⟨c, r, rfl, hc⟩
      · simp [lit]
      · by_cases ha : 'a' = a
        · by_cases hl : 'l' = c
          · subst hl; rcases hc with hc | hc <;> simp [isSpace] at hc
          · simp [lit, hl]
        · simp [lit, ha]
    | [a, b] =>
      rcases hf with rfl | ⟨c, r, rfl, hc⟩
      · simp [lit]
      · by_cases hl : 'l' = c
        · subst hl; rcases hc with hc | hc <;> simp [isSpace] at hc
        · simp [lit, hl]
    | [a, b, c] =>
      by_cases h : a = 'a' ∧ b = 'l' ∧ c = 'l'
      · obtain ⟨rfl, rfl, rfl⟩ := h; exact absurd rfl h1
      · simp only [List.cons_append, List.nil_append]
        simp [lit]
        intro ha hb hc
        exact absurd ⟨ha.symm, hb.symm, hc.symm⟩ h
    | a :: b :: c :: d :: t =>
      have := (h3 d (by simp)).1
      have hd : ' ' ≠ d := by rintro rfl; simp [isSpace] at this
      simp [lit, hd]
  · match n with
    | [] => exact absurd rfl hn.nonempty
    | [a] =>
      have ha : '1' ≠ a := by rintro rfl; exact h2 rfl
      simp [lit, ha]
    | a :: b :: t =>
      have := (h3 b (by simp)).1
      have hb : ' ' ≠ b := by rintro rfl; simp [isSpace] at this
      simp [lit, hb]

/-- An operand, followed by a blank, a parenthesis or the end, is read as what it stands for. -/
theorem operand_read (find : Text → Text → Bool) (hfind : ∀ n, find ['*'] n = true) (tbl : Table α)
    (ht : PlainTable tbl) {t : Text} {y : E α} (ho : Operand tbl t y) (rest : Text) (hf : Follow rest) :
    ∃ x, (∀ rest, Follow rest → searchId find tbl (t ++ rest) = some (x, rest)) ∧ (∀ v, x.eval v = y.eval v)
      ∧ lit ['('] (t ++ rest) = none ∧ lit "not".toList (t ++ rest) = none ∧ ws (t ++ rest) = t ++ rest := by
  have hsearch : search find tbl ['*'] = tbl.map (·.2) := by
    simp only [search]
    congr 1
    apply List.filter_eq_self.mpr
    intro k _
    exact hfind k.1
  cases ho with
  | name n x hx =>
    have hn : PlainName t := ht.plain _ hx
    refine ⟨y, ?_, fun v => rfl, ?_, ?_, name_ws hn rest⟩
    · intro rest hf
      obtain ⟨h1, h2⟩ := name_not_quant hn rest hf
      simp only [searchId, quantified, h1, h2, ident_found tbl ht t y hx rest hf]
    · obtain ⟨c, r, h1, _, h2⟩ := word_free hn
      rw [h1]; exact lit_head _ _ (Ne.symm h2)
    · have h := hn.not
      have hc := hn.chars
      match t with
      | [] => exact absurd rfl hn.nonempty
      | [a] =>
        rcases hf with rfl | ⟨c, r, rfl, hc⟩
        · simp [lit]
        · by_cases hl : 'o' = c
          · subst hl; rcases hc with hc | hc <;> simp [isSpace] at hc
          · simp [lit, hl]
      | [a, b] =>
        rcases hf with rfl | ⟨c, r, rfl, hc⟩
        · simp [lit]
        · by_cases hl : 't' = c
          · subst hl; rcases hc with hc | hc <;> simp [isSpace] at hc
          · simp [lit, hl]
      | a :: b :: c :: r =>
        simp [isPrefix] at h
        simp [lit]
        intro h1 h2 h3
        exact h h1 h2 h3
  | allThem w hw =>
    refine ⟨join false (tbl.map (·.2)), ?_, fun v => by simp [join_eval, eval_conj], by simp [lit], by simp [lit],
      by rw [show ("all of".toList ++ w ++ "them".toList ++ rest) = 'a' :: _ from rfl]; exact ws_cons _ _ (by decide)⟩
    intro rest hf
    have h1 := ident_them tbl ht rest hf
    have h2 : ws (w ++ ("them".toList ++ rest)) = "them".toList ++ rest := by
      rw [ws_blank _ _ hw]; exact ws_cons _ _ (by decide)
    have h3 : selection find tbl ("them".toList ++ rest) = some (tbl.map (·.2), rest) := by
      simp only [selection, lit_append, hsearch]
    rw [List.append_assoc, List.append_assoc]
    simp only [searchId, quantified, lit_append, h2, h1, h3, lit_all_one]
  | oneThem w hw =>
    refine ⟨join true (tbl.map (·.2)), ?_, fun v => by simp [join_eval, eval_disj], by simp [lit], by simp [lit],
      by rw [show ("1 of".toList ++ w ++ "them".toList ++ rest) = '1' :: _ from rfl]; exact ws_cons _ _ (by decide)⟩
    intro rest hf
    have h1 := ident_them tbl ht rest hf
    have h2 : ws (w ++ ("them".toList ++ rest)) = "them".toList ++ rest := by
      rw [ws_blank _ _ hw]; exact ws_cons _ _ (by decide)
    have h3 : selection find tbl ("them".toList ++ rest) = some (tbl.map (·.2), rest) := by
      simp only [selection, lit_append, hsearch]
    rw [List.append_assoc, List.append_assoc]
    simp only [searchId, quantified, lit_append, h2, h1, h3, lit_one_all]
  | allOf w n x hw hx =>
    have hn := ht.plain _ hx
    refine ⟨force false x, ?_, fun v => by simp [force_eval, eval_conj], by simp [lit], by simp [lit],
      by rw [show ("all of".toList ++ w ++ n ++ rest) = 'a' :: _ from rfl]; exact ws_cons _ _ (by decide)⟩
    intro rest hf
    have h2 : ws (w ++ (n ++ rest)) = n ++ rest := by rw [ws_blank _ _ hw]; exact name_ws hn rest
    rw [List.append_assoc, List.append_assoc]
    simp only [searchId, quantified, lit_append, h2, ident_found tbl ht n x hx rest hf]
  | oneOf w n x hw hx =>
    have hn := ht.plain _ hx
    refine ⟨force true x, ?_, fun v => by simp [force_eval, eval_disj], by simp [lit], by simp [lit],
      by rw [show ("1 of".toList ++ w ++ n ++ rest) = '1' :: _ from rfl]; exact ws_cons _ _ (by decide)⟩
    intro rest hf
    have h2 : ws (w ++ (n ++ rest)) = n ++ rest := by rw [ws_blank _ _ hw]; exact name_ws hn rest
    rw [List.append_assoc, List.append_assoc]
    simp only [searchId, quantified, lit_append, h2, ident_found tbl ht n x hx rest hf, lit_one_all]

/-! ## Conditions -/

/-- The same condition with other expressions at its operands. -/
def mapLeaf (f : Text → E α → E α) : Syn α → Syn α
  | .leaf t x => .leaf t (f t x)
  | .paren w₁ s w₂ => .paren w₁ (mapLeaf f s) w₂
  | .not w s => .not w (mapLeaf f s)
  | .and l w₁ w₂ r => .and (mapLeaf f l) w₁ w₂ (mapLeaf f r)
  | .or l w₁ w₂ r => .or (mapLeaf f l) w₁ w₂ (mapLeaf f r)

theorem mapLeaf_text (f : Text → E α → E α) (g : Grammar α) (s : Syn α) : (mapLeaf f s).text g = s.text g := by
  induction s <;> simp_all [mapLeaf, Syn.text]

theorem mapLeaf_atomic (f : Text → E α → E α) (s : Syn α) : (mapLeaf f s).atomic = s.atomic := by
  cases s <;> rfl

theorem mapLeaf_factor (f : Text → E α → E α) (s : Syn α) : (mapLeaf f s).factor = s.factor := by
  cases s <;> rfl

theorem mapLeaf_term (f : Text → E α → E α) (s : Syn α) : (mapLeaf f s).term = s.term := by
  cases s <;> rfl

theorem mapLeaf_wf (f : Text → E α → E α) (s : Syn α) (h : s.Wf) : (mapLeaf f s).Wf := by
  induction s with
  | leaf t x => trivial
  | paren w₁ s w₂ ih => exact ⟨h.1, h.2.1, ih h.2.2⟩
  | not w s ih => exact ⟨h.1, by rw [mapLeaf_atomic]; exact h.2.1, ih h.2.2⟩
  | and l w₁ w₂ r ih₁ ih₂ =>
    obtain ⟨h1, h2, h3, h4, h5, h6⟩ := h
    exact ⟨h1, h2, by rw [mapLeaf_term]; exact h3, by rw [mapLeaf_factor]; exact h4, ih₁ h5, ih₂ h6⟩
  | or l w₁ w₂ r ih₁ ih₂ =>
    obtain ⟨h1, h2, h3, h5, h6⟩ := h
    exact ⟨h1, h2, by rw [mapLeaf_term]; exact h3, ih₁ h5, ih₂ h6⟩

theorem follow_space {w : Text} (hw : Blank w) (hne : w ≠ []) (r : Text) : Follow (w ++ r) := by
  cases w with
  | nil => exact absurd rfl hne
  | cons c w => exact .inr ⟨c, w ++ r, rfl, .inl (hw.space c (by simp))⟩

theorem follow_paren {w : Text} (hw : Blank w) (r : Text) : Follow (w ++ [')'] ++ r) := by
  cases w with
  | nil => exact .inr ⟨')', r, rfl, .inr rfl⟩
  | cons c w => exact .inr ⟨c, w ++ [')'] ++ r, rfl, .inl (hw.space c (by simp))⟩

/-- The expression the model reads. -/
def readAs (find : Text → Text → Bool) (tbl : Table α) (t : Text) (x : E α) : E α :=
  ((searchId find tbl t).map (·.1)).getD x

theorem condition_readable (find : Text → Text → Bool) (hfind : ∀ n, find ['*'] n = true) (tbl : Table α)
    (ht : PlainTable tbl) (s : Syn α) : ∀ rest, s.Wf → Spaced s → Operands tbl s → Follow rest →
    (mapLeaf (readAs find tbl) s).Readable (condition find tbl) rest
      ∧ ∀ v, (mapLeaf (readAs find tbl) s).value v = s.value v := by
  induction s with
  | leaf t y =>
    intro rest _ _ ho hf
    obtain ⟨x, h1, h2, h3, h4, h5⟩ := operand_read find hfind tbl ht ho rest hf
    have h6 : readAs find tbl t y = x := by
      have := h1 [] (.inl rfl)
      rw [List.append_nil] at this
      simp [readAs, this]
    simp only [mapLeaf, h6, Syn.Readable, Syn.value]
    exact ⟨⟨h1 rest hf, h3, h4, h5⟩, h2⟩
  | paren w₁ s w₂ ih =>
    intro rest hw hs ho _
    exact ih _ hw.2.2 hs ho (follow_paren hw.2.1 rest)
  | not w s ih =>
    intro rest hw hs ho hf
    obtain ⟨h1, h2⟩ := ih rest hw.2.2 hs ho hf
    exact ⟨⟨h1, fun h => by simp [condition] at h⟩, fun v => by simp [mapLeaf, Syn.value, h2 v]⟩
  | and l w₁ w₂ r ih₁ ih₂ =>
    intro rest hw hs ho hf
    obtain ⟨h1, h2⟩ := ih₁ (w₁ ++ (condition find tbl).andTok ++ w₂ ++ (mapLeaf (readAs find tbl) r).text (condition find tbl) ++ rest)
      hw.2.2.2.2.1 hs.2.1 ho.1 (by simpa using follow_space hw.1 hs.1 _)
    obtain ⟨h3, h4⟩ := ih₂ rest hw.2.2.2.2.2 hs.2.2 ho.2 hf
    exact ⟨⟨h1, h3⟩, fun v => by simp [mapLeaf, Syn.value, h2 v, h4 v]⟩
  | or l w₁ w₂ r ih₁ ih₂ =>
    intro rest hw hs ho hf
    obtain ⟨h1, h2⟩ := ih₁ (w₁ ++ (condition find tbl).orTok ++ w₂ ++ (mapLeaf (readAs find tbl) r).text (condition find tbl) ++ rest)
      hw.2.2.2.1 hs.2.1 ho.1 (by simpa using follow_space hw.1 hs.1 _)
    obtain ⟨h3, h4⟩ := ih₂ rest hw.2.2.2.2 hs.2.2 ho.2 hf
    exact ⟨⟨h1, h3⟩, fun v => by simp [mapLeaf, Syn.value, h2 v, h4 v]⟩

theorem condition_sane (find : Text → Text → Bool) (tbl : Table α) : (condition find tbl).Sane :=
  ⟨⟨'n', _, rfl, by decide, by decide⟩, ⟨'a', _, rfl, by decide, by decide⟩, ⟨'o', _, rfl, by decide, by decide⟩,
    by simp [condition]⟩

/-! ## Values -/

theorem patternLoop_plain (s : Text) (h : NoWildcards s) : patternLoop s = s := by
  induction s with
  | nil => rfl
  | cons c s ih =>
    obtain ⟨h1, h2, h3⟩ := h c (by simp)
    have ih := ih fun d hd => h d (by simp [hd])
    rw [patternLoop.eq_def]
    split <;> simp_all

end Verif.Sigma
