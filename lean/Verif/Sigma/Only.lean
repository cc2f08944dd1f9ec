import Verif.Sigma.Props
import Verif.QueryText.Only
/-!
# C82: nothing else is accepted

The converse of `C82_condition_partial`: a condition that is accepted is one of the grammar.  Its operands are more than Sigma knows: any
word is one.
-/
namespace Verif.Sigma
open Verif.QueryText

variable {α : Type}

/-- The quantifiers. -/
def quantifier (any : Bool) : Text := if any then "1 of".toList else "all of".toList

/-- All or any of some expressions hold. -/
def Holds (any : Bool) (xs : List (E α)) (v : α → Bool) : Bool := if any then xs.any (·.eval v) else xs.all (·.eval v)

/-- What an operand that is accepted looks like and what it says: an identifier; a quantifier over the parts of an identifier; or,
with a quantifier or without (which means all), `them` or a word, which stand for the identifiers found by it. -/
inductive Accepted (find : Text → Text → Bool) (tbl : Table α) : Text → E α → Prop where
  | name (n : Text) (x : E α) (h : (n, x) ∈ tbl) : Accepted find tbl n x
  | parts (any : Bool) (w n : Text) (x y : E α) (hw : Blank w) (h : (n, x) ∈ tbl) (hy : ∀ v, y.eval v = Holds any (members x) v) :
      Accepted find tbl (quantifier any ++ w ++ n) y
  | them (any : Bool) (w : Text) (y : E α) (hw : Blank w)
      (hy : ∀ v, y.eval v = Holds any ((tbl.filter fun k => find ['*'] k.1).map (·.2)) v) :
      Accepted find tbl (quantifier any ++ w ++ "them".toList) y
  | words (any : Bool) (w p : Text) (y : E α) (hw : Blank w) (hp : p ≠ []) (hs : ∀ c ∈ p, isSpace c = false)
      (hy : ∀ v, y.eval v = Holds any ((tbl.filter fun k => find p k.1).map (·.2)) v) :
      Accepted find tbl (quantifier any ++ w ++ p) y
  | bareThem (y : E α) (hy : ∀ v, y.eval v = Holds false ((tbl.filter fun k => find ['*'] k.1).map (·.2)) v) :
      Accepted find tbl "them".toList y
  | bareWord (p : Text) (y : E α) (hp : p ≠ []) (hs : ∀ c ∈ p, isSpace c = false)
      (hy : ∀ v, y.eval v = Holds false ((tbl.filter fun k => find p k.1).map (·.2)) v) : Accepted find tbl p y

/-- All operands are such. -/
def AllAccepted (find : Text → Text → Bool) (tbl : Table α) : Syn α → Prop
  | .leaf t x => Accepted find tbl t x
  | .paren _ s _ => AllAccepted find tbl s
  | .not _ s => AllAccepted find tbl s
  | .and l _ _ r => AllAccepted find tbl l ∧ AllAccepted find tbl r
  | .or l _ _ r => AllAccepted find tbl l ∧ AllAccepted find tbl r

theorem prefix_back {k s : Text} (h : isPrefix k s = true) : ∃ r, s = k ++ r := by
  induction k generalizing s with
  | nil => exact ⟨s, rfl⟩
  | cons a k ih =>
    cases s with
    | nil => cases h
    | cons b s =>
      simp only [isPrefix, Bool.and_eq_true, decide_eq_true_eq] at h
      obtain ⟨r, rfl⟩ := ih h.2
      exact ⟨r, by rw [h.1]; rfl⟩

theorem longest_back (s : Text) : ∀ (tbl : Table α) (best : Option (Text × E α)) (k : Text) (x : E α),
    longest s tbl best = some (k, x) → best = some (k, x) ∨ ((k, x) ∈ tbl ∧ ∃ r, s = k ++ r) := by
  intro tbl
  induction tbl with
  | nil => intro best k x h; exact .inl h
  | cons e tbl ih =>
    intro best k x h
    obtain ⟨k', x'⟩ := e
    rw [longest] at h
    rcases ih _ _ _ h with h1 | ⟨h1, h2⟩
    · split at h1
      · rename_i hc
        cases h1
        simp only [Bool.and_eq_true] at hc
        exact .inr ⟨List.mem_cons_self, prefix_back hc.1⟩
      · exact .inl h1
    · exact .inr ⟨List.mem_cons_of_mem _ h1, h2⟩

theorem ident_back {tbl : Table α} {s r : Text} {x : E α} (h : ident tbl s = some (x, r)) : ∃ n, (n, x) ∈ tbl ∧ s = n ++ r := by
  unfold ident at h
  split at h
  · cases h
  rename_i k y hk
  cases h
  rcases longest_back s tbl none k x hk with h | ⟨h1, r, rfl⟩
  · cases h
  · exact ⟨k, h1, by simp⟩

theorem word_back {s p r : Text} (h : word s = some (p, r)) : p ≠ [] ∧ (∀ c ∈ p, isSpace c = false) ∧ s = p ++ r := by
  unfold word at h
  split at h
  · cases h
  rename_i p' hne
  cases h
  refine ⟨?_, ?_, ?_⟩
  · intro e; exact hne e
  · intro c hc
    have := List.all_eq_true.1 (List.all_takeWhile (l := s) (p := fun c => !isSpace c)) c hc
    simpa using this
  · have (q : Char → Bool) : ∀ s : Text, s = s.takeWhile q ++ s.drop (s.takeWhile q).length := by
      intro s
      induction s with
      | nil => rfl
      | cons a s ih =>
        by_cases h : q a = true
        · simpa [h] using ih
        · simp [h]
    exact this _ s

/-- A selection is `them` or a word. -/
theorem selection_back {find : Text → Text → Bool} {tbl : Table α} {s r : Text} {xs : List (E α)} (h : selection find tbl s = some (xs, r)) :
    (s = "them".toList ++ r ∧ xs = (tbl.filter fun k => find ['*'] k.1).map (·.2))
    ∨ ∃ p, p ≠ [] ∧ (∀ c ∈ p, isSpace c = false) ∧ s = p ++ r ∧ xs = (tbl.filter fun k => find p k.1).map (·.2) := by
  unfold selection at h
  split at h
  · rename_i e; cases h; exact .inl ⟨lit_back e, rfl⟩
  split at h
  · rename_i e; cases h
    obtain ⟨h1, h2, h3⟩ := word_back e
    exact .inr ⟨_, h1, h2, h3, rfl⟩
  · cases h

theorem quantified_back {β : Type} {tok : Text} {p : Text → Option (β × Text)} {f : β → E α} {s r : Text} {x : E α}
    (h : quantified tok p f s = some (x, r)) : ∃ (w t : Text) (y : β), Blank w ∧ s = tok ++ w ++ t ∧ p t = some (y, r) ∧ x = f y := by
  unfold quantified at h
  split at h
  · cases h
  rename_i r1 h1
  split at h
  · cases h
  rename_i y r2 h2
  cases h
  obtain ⟨w, hw, e⟩ := ws_back r1
  exact ⟨w, ws r1, y, hw, by rw [lit_back h1, List.append_assoc, ← e], h2, rfl⟩

theorem force_holds (any : Bool) (x : E α) (v : α → Bool) : (force any x).eval v = Holds any (members x) v := by
  cases x <;> cases any <;> simp [force, Holds, members, eval_conj, eval_disj]

theorem join_holds (any : Bool) (xs : List (E α)) (v : α → Bool) : (join any xs).eval v = Holds any xs v := by
  unfold join
  rw [hoist_eval]
  cases any <;> simp [Holds, eval_conj, eval_disj]

theorem searchId_back {find : Text → Text → Bool} {tbl : Table α} {s r : Text} {x : E α} (h : searchId find tbl s = some (x, r)) :
    ∃ t, s = t ++ r ∧ Accepted find tbl t x := by
  have parts (any : Bool) {x : E α} {r : Text} (h : quantified (quantifier any) (ident tbl) (force any) s = some (x, r)) :
      ∃ t, s = t ++ r ∧ Accepted find tbl t x := by
    obtain ⟨w, t, y, hw, e, hp, rfl⟩ := quantified_back h
    obtain ⟨n, hn, rfl⟩ := ident_back hp
    exact ⟨_, by rw [e]; simp, .parts any w n y _ hw hn (force_holds any y)⟩
  have found (any : Bool) {x : E α} {r : Text} (h : quantified (quantifier any) (selection find tbl) (join any) s = some (x, r)) :
      ∃ t, s = t ++ r ∧ Accepted find tbl t x := by
    obtain ⟨w, t, y, hw, e, hp, rfl⟩ := quantified_back h
    rcases selection_back hp with ⟨rfl, rfl⟩ | ⟨p, h1, h2, rfl, rfl⟩
    · exact ⟨quantifier any ++ w ++ "them".toList, by rw [e]; simp, .them any w _ hw (join_holds any _)⟩
    · exact ⟨quantifier any ++ w ++ p, by rw [e]; simp, .words any w p _ hw h1 h2 (join_holds any _)⟩
  unfold searchId at h
  split at h
  · rename_i h1; cases h; exact parts false h1
  split at h
  · rename_i h1; cases h; exact parts true h1
  split at h
  · rename_i h1; cases h; exact found false h1
  split at h
  · rename_i h1; cases h; exact found true h1
  split at h
  · rename_i h1; cases h
    obtain ⟨n, hn, rfl⟩ := ident_back h1
    exact ⟨n, rfl, .name n x hn⟩
  split at h
  · rename_i h1; cases h
    rcases selection_back h1 with ⟨rfl, rfl⟩ | ⟨p, hp1, hp2, rfl, rfl⟩
    · exact ⟨_, rfl, .bareThem _ (join_holds false _)⟩
    · exact ⟨p, rfl, .bareWord p _ hp1 hp2 (join_holds false _)⟩
  · cases h

theorem reads_accepted {find : Text → Text → Bool} {tbl : Table α} : ∀ (s : Syn α) (rest : Text), s.Reads (condition find tbl) rest →
    AllAccepted find tbl s := by
  intro s
  induction s with
  | leaf t x =>
    intro rest h
    obtain ⟨t', e, h'⟩ := searchId_back (h : searchId find tbl (t ++ rest) = some (x, rest))
    rw [List.append_cancel_right e]; exact h'
  | paren a s b ih => intro rest h; exact ih _ h
  | not a s ih => intro rest h; exact ih _ h
  | and l a b r ih1 ih2 => intro rest h; exact ⟨ih1 _ h.1, ih2 _ h.2⟩
  | or l a b r ih1 ih2 => intro rest h; exact ⟨ih1 _ h.1, ih2 _ h.2⟩

/-- **C82 (nothing else).**  A condition that is accepted is built with `not`, `and`, `or` and parentheses, with the usual precedence,
from operands of the forms above, possibly with whitespace at the end, and it has the truth value that follows. -/
theorem C82_only (find : Text → Text → Bool) (tbl : Table α) {t : Text} {e : E α} (h : parse (condition find tbl) t = some e) :
    ∃ (s : Syn α) (w : Text), s.Wf ∧ Blank w ∧ t = s.text (condition find tbl) ++ w ∧ AllAccepted find tbl s ∧ ∀ v, e.eval v = s.value v := by
  obtain ⟨s, w, h1, h2, h3, h4, h5⟩ := parse_back (g := condition find tbl)
    (fun s x r h => let ⟨t, e, _⟩ := searchId_back h; ⟨t, e⟩) h
  exact ⟨s, w, h1, h2, h3, reads_accepted s w h4, h5⟩

example : (parse (condition found [("sel".toList, E.leaf 'a'), ("fil".toList, .leaf 'b')]) "sel and not 1 of fil".toList).isSome := by
  decide +kernel

end Verif.Sigma
