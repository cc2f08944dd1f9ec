/-!
# Parser combinators

`libvast/vast/concept/parseable/core` and `.../string`: which input a parser accepts and where it stops, also if it fails.  The position is the rest of the
input.  Attributes are left out: a guard sees the text that was consumed.  `action_parser`, `as_parser` and `ignore_parser` only concern attributes and are
left out; `maybe_parser` differs from `optional_parser` only in attributes.  `rule`, with which grammars become recursive, is in `Verif.Grammar`.
-/
namespace Verif.Combinator

/-- Parsers over characters `α`. -/
inductive Parser (α : Type)
  /-- `eps` -/
  | eps
  /-- `eoi` -/
  | eoi
  /-- A character of a class. -/
  | sat (p : α → Bool)
  /-- `lit`, `str` -/
  | lit (w : List α)
  /-- `symbol_table` -/
  | symbols (keys : List (List α))
  /-- `skip` -/
  | skip (n : Nat)
  /-- `p >> q` -/
  | seq (p q : Parser α)
  /-- `p | q` -/
  | choice (p q : Parser α)
  /-- `*p` -/
  | kleene (p : Parser α)
  /-- `+p` -/
  | plus (p : Parser α)
  /-- `-p`, `~p` -/
  | opt (p : Parser α)
  /-- `p % q` -/
  | list (p q : Parser α)
  /-- `&p` -/
  | conj (p : Parser α)
  /-- `!p` -/
  | neg (p : Parser α)
  /-- `p - q` -/
  | diff (p q : Parser α)
  /-- `rep(p, min, max)` -/
  | rep (p : Parser α) (min max : Nat)
  /-- `p.with(g)` -/
  | guard (p : Parser α) (g : List α → Bool)
  /-- `sequence_choice_parser` -/
  | seqChoice (p q : Parser α)
  /-- `p.when(b)` -/
  | cond (b : Bool) (p : Parser α)

variable {α : Type}

/-- What a call returns, and the position after it. -/
abbrev Res (α : Type) := Option (Bool × List α)

/-- `while (step) ;`, at most `fuel` times (`none`: more).  The position before the step that failed, and after it. -/
def iter (step : List α → Res α) : Nat → List α → Option (List α × List α)
  | 0, _ => none
  | k + 1, s => match step s with
    | none => none
    | some (true, t) => iter step k t
    | some (false, t) => some (s, t)

/-- `q(f, l) && p(f, l)` -/
def both (q p : List α → Res α) (s : List α) : Res α := match q s with
  | none => none
  | some (false, t) => some (false, t)
  | some (true, t) => p t

/-- The loop of `parse_repeat` (core/repeat.hpp:26-31): the number of successes and the position. -/
def times (step : List α → Res α) : Nat → List α → Option (Nat × List α)
  | 0, s => some (0, s)
  | m + 1, s => match step s with
    | none => none
    | some (true, t) => (times step m t).map fun x => (x.1 + 1, x.2)
    | some (false, t) => some (0, t)

/-- string/literal.hpp:25-34, string/string.hpp:25-34. -/
def strip [DecidableEq α] : List α → List α → Option (List α)
  | [], s => some s
  | _ :: _, [] => none
  | a :: w, b :: s => if a = b then strip w s else none

/-- string/symbol_table.hpp:36-48: the length of the longest symbol that matches. -/
def longest [DecidableEq α] (s : List α) : List (List α) → Nat → Nat
  | [], m => m
  | k :: ks, m => longest s ks (if (strip k s).isSome ∧ k.length > m then k.length else m)

/-- The functions `parse`.  `fuel`: how often a loop may run. -/
def Parser.run [DecidableEq α] (fuel : Nat) : Parser α → List α → Res α
  | .eps, s => some (true, s)                                             -- core/epsilon.hpp:20-22
  | .eoi, s => some (s.isEmpty, s)                                        -- core/end_of_input.hpp:21-23
  | .sat _, [] => some (false, [])                                        -- string/char_class.hpp:40-46
  | .sat p, c :: s => if p c then some (true, s) else some (false, c :: s)
  | .lit w, s => match strip w s with
    | some t => some (true, t)
    | none => some (false, s)
  | .symbols ks, s =>                                                     -- string/symbol_table.hpp:34-54
    if longest s ks 0 = 0 then some (false, s) else some (true, s.drop (longest s ks 0))
  | .skip n, s => if n ≥ s.length then some (false, s) else some (true, s.drop n) -- core/skip.hpp:24-29
  | .seq p q, s =>                                                        -- core/sequence.hpp:69-75
    match p.run fuel s with
    | none => none
    | some (false, _) => some (false, s)
    | some (true, t) => match q.run fuel t with
      | none => none
      | some (false, _) => some (false, s)
      | some (true, u) => some (true, u)
  | .choice p q, s =>                                                     -- core/choice.hpp:66-75
    match p.run fuel s with
    | none => none
    | some (true, t) => some (true, t)
    | some (false, _) => match q.run fuel s with
      | none => none
      | some (true, t) => some (true, t)
      | some (false, _) => some (false, s)
  | .kleene p, s => (iter (p.run fuel) fuel s).map fun x => (true, x.2)   -- core/kleene.hpp:28-32
  | .plus p, s =>                                                         -- core/plus.hpp:28-34
    match p.run fuel s with
    | none => none
    | some (false, t) => some (false, t)
    | some (true, t) => (iter (p.run fuel) fuel t).map fun x => (true, x.2)
  | .opt p, s => (p.run fuel s).map fun x => (true, x.2)                  -- core/optional.hpp:35-44, core/maybe.hpp:26-29
  | .list p q, s =>                                                       -- core/list.hpp:30-38
    match p.run fuel s with
    | none => none
    | some (false, t) => some (false, t)
    | some (true, t) =>
      (iter (both (q.run fuel) (p.run fuel)) fuel t).map fun x => (true, x.1)
  | .conj p, s => (p.run fuel s).map fun x => (x.1, s)                    -- core/and.hpp:25-28
  | .neg p, s => (p.run fuel s).map fun x => (!x.1, s)                    -- core/not.hpp:24-27
  | .diff p q, s =>                                                       -- core/difference.hpp:27-33
    match q.run fuel s with
    | none => none
    | some (false, t) => p.run fuel t
    | some (true, _) => some (false, s)
  | .rep p min max, s =>                                                  -- core/repeat.hpp:21-37
    if max = 0 then some (true, s)
    else (times (p.run fuel) max s).map fun x => if x.1 ≥ min then (true, x.2) else (false, s)
  | .guard p g, s =>                                                      -- core/guard.hpp:34-50
    (p.run fuel s).map fun x => (x.1 && g (s.take (s.length - x.2.length)), x.2)
  | .seqChoice p q, s =>                                                  -- core/sequence_choice.hpp:49-56
    match p.run fuel s with
    | none => none
    | some (true, t) => (q.run fuel t).map fun x => (true, x.2)
    | some (false, t) => q.run fuel t
  | .cond b p, s => if b then p.run fuel s else some (false, s)           -- core/when.hpp:24-26

end Verif.Combinator
