/-!
# Printer combinators

`libvast/vast/concept/printable/core` and `.../string`: what a printer writes, also if it fails.  The types of the values are those of the model, so that a
printer gets only values that it can be called with; sequences of more than two values are pairs of pairs.
-/
namespace Verif.Printer

/-- Printers of values of a type; `Unit` is `unused_type`. -/
inductive Printer : Type → Type 1
  /-- `lit`, `chr`, `eps` -/
  | lit (w : List Char) : Printer Unit
  /-- `any` -/
  | any : Printer Char
  /-- `str` -/
  | str : Printer (List Char)
  /-- `p << q` -/
  | seq {α β : Type} (p : Printer α) (q : Printer β) : Printer (α × β)
  /-- `p << q`, where the left side has no value -/
  | before {α : Type} (p : Printer Unit) (q : Printer α) : Printer α
  /-- `p << q`, where the right side has no value -/
  | after {α : Type} (p : Printer α) (q : Printer Unit) : Printer α
  /-- `p | q` -/
  | choice {α β : Type} (p : Printer α) (q : Printer β) : Printer (α ⊕ β)
  /-- `p | q` without values -/
  | either (p q : Printer Unit) : Printer Unit
  /-- `*p` -/
  | kleene {α : Type} (p : Printer α) : Printer (List α)
  /-- `+p` -/
  | plus {α : Type} (p : Printer α) : Printer (List α)
  /-- `p % q` -/
  | list {α : Type} (p : Printer α) (q : Printer Unit) : Printer (List α)
  /-- `-p` -/
  | opt {α : Type} (p : Printer α) : Printer (Option α)
  /-- `~p`, and `-p` without a value -/
  | maybe {α : Type} (p : Printer α) : Printer α
  /-- `&p` -/
  | conj (p : Printer Unit) : Printer Unit
  /-- `!p` -/
  | neg (p : Printer Unit) : Printer Unit
  /-- `p.with(g)` -/
  | guard {α : Type} (g : α → Bool) (p : Printer α) : Printer α
  /-- `p ->* f` -/
  | act {α β : Type} (f : β → α) (p : Printer α) : Printer β

/-- What a call returns, and what it has written. -/
abbrev Out := Bool × List Char

/-- `x && y` -/
def both (x y : Out) : Out := if x.1 then (y.1, x.2 ++ y.2) else x

/-- The loops of core/kleene.hpp:33-35, core/plus.hpp:35-38 and core/list.hpp:40-42. -/
def each {α : Type} (f : α → Out) : List α → Out
  | [] => (true, [])
  | x :: xs => both (f x) (each f xs)

/-- The functions `print`. -/
def Printer.print : {α : Type} → Printer α → α → Out
  | _, .lit w, _ => (true, w)                                             -- string/literal.hpp:51-53, string/char.hpp:24-31, core/epsilon.hpp:20-22
  | _, .any, c => (true, [c])                                             -- string/any.hpp:19-25
  | _, .str, s => (true, s)                                               -- string/string.hpp:20-27
  | _, .seq p q, x => both (p.print x.1) (q.print x.2)                    -- core/sequence.hpp:69-71, 95-102
  | _, .before p q, x => both (p.print ()) (q.print x)                    -- core/sequence.hpp:69-71, 105-112
  | _, .after p q, x => both (p.print x) (q.print ())                     -- core/sequence.hpp:69-71, 105-112
  | _, .choice p _, .inl x => p.print x                                   -- core/choice.hpp:67-69, 85-89
  | _, .choice _ q, .inr x => q.print x                                   -- core/choice.hpp:67-69, 97-100
  | _, .either p q, x => if (p.print x).1 then p.print x else ((q.print x).1, (p.print x).2 ++ (q.print x).2) -- core/choice.hpp:67-69, 79-82, 92-94
  | _, .kleene p, xs => each p.print xs                                   -- core/kleene.hpp:28-37
  | _, .plus p, xs => if xs.isEmpty then (false, []) else each p.print xs -- core/plus.hpp:28-40
  | _, .list _ _, [] => (true, [])                                        -- core/list.hpp:31-44
  | _, .list p q, x :: xs => both (p.print x) (each (fun y => both (q.print ()) (p.print y)) xs)
  | _, .opt _, none => (true, [])                                         -- core/optional.hpp:38-40
  | _, .opt p, some x => p.print x
  | _, .maybe p, x => (true, (p.print x).2)                               -- core/maybe.hpp:27-30, core/optional.hpp:32-35
  | _, .conj p, _ => p.print ()                                           -- core/and.hpp:24-26
  | _, .neg p, _ => (!(p.print ()).1, (p.print ()).2)                     -- core/not.hpp:24-26
  | _, .guard g p, x => if g x then p.print x else (false, [])            -- core/guard.hpp:29-43
  | _, .act f p, x => p.print (f x)                                       -- core/action.hpp:32-46

end Verif.Printer
