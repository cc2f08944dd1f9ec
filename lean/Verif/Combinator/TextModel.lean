/-!
# Parser combinators with text

`libvast/vast/concept/parseable/core` and `.../string` with their attributes, for parsers whose attributes are characters and texts.  Combinations
that have attributes of other types (tuples, variants, vectors of texts) have no type here.
-/
namespace Verif.Combinator.Text

/-- `attribute`: `unused_type`, `char`, `std::string`. -/
inductive Ty
  | unused
  | chr
  | str
deriving DecidableEq

/-- Parsers. -/
inductive Parser
  /-- A character of a class. -/
  | sat (p : Char → Bool)
  /-- `str` -/
  | str (w : List Char)
  /-- `ignore(p)` -/
  | ignore (p : Parser)
  /-- `p >> q` -/
  | seq (p q : Parser)
  /-- `p | q` -/
  | choice (p q : Parser)
  /-- `*p` -/
  | kleene (p : Parser)
  /-- `+p` -/
  | plus (p : Parser)
  /-- `~p` -/
  | maybe (p : Parser)
  /-- `!p` -/
  | neg (p : Parser)
  /-- `p - q` -/
  | diff (p q : Parser)

/-- The attribute of a sequence: core/sequence.hpp:44-62 with `attr_fold` (support/detail/attr_fold.hpp). -/
def seqTy : Ty → Ty → Option Ty
  | .unused, t => some t
  | t, .unused => some t
  | .chr, .chr => some .str
  | .chr, .str => some .str
  | .str, .chr => some .str
  | .str, .str => none

/-- The attribute of a choice: core/choice.hpp:41-55. -/
def choiceTy : Ty → Ty → Option Ty
  | .unused, t => some t
  | t, .unused => some t
  | t, u => if t = u then some t else none

/-- The attribute of a container: detail/container.hpp:21-25. -/
def manyTy : Ty → Option Ty
  | .unused => some .unused
  | .chr => some .str
  | .str => none

/-- `attribute` of a parser. -/
def Parser.ty : Parser → Option Ty
  | .sat _ => some .chr                                   -- string/char_class.hpp:37
  | .str _ => some .str                                   -- string/string.hpp:19
  | .ignore _ => some .unused                             -- core/ignore.hpp:20
  | .seq p q => do seqTy (← p.ty) (← q.ty)
  | .choice p q => do choiceTy (← p.ty) (← q.ty)
  | .kleene p => do manyTy (← p.ty)                       -- core/kleene.hpp:21-22
  | .plus p => do manyTy (← p.ty)                         -- core/plus.hpp:21-22
  | .maybe p => p.ty                                      -- core/maybe.hpp:19
  | .neg _ => some .unused                                -- core/not.hpp:18
  | .diff p _ => p.ty                                     -- core/difference.hpp:20

/-- The object that is passed as the attribute. -/
inductive Dest
  | unused
  | chr (c : Char)
  | str (s : List Char)
deriving DecidableEq

/-- `absorb` (detail/char_helpers.hpp:18-33). -/
def Dest.absorb : Dest → Char → Dest
  | .unused, _ => .unused
  | .chr _, c => .chr c
  | .str s, c => .str (s ++ [c])

/-- A new object of a type; a character that is not initialised is `junk`. -/
def fresh (junk : Char) : Ty → Dest
  | .unused => .unused
  | .chr => .chr junk
  | .str => .str []

/-- `a = std::move(attr)`. -/
def assign : Dest → Dest → Dest
  | .str _, .chr c => .str [c]
  | .str _, .str s => .str s
  | .chr _, .chr c => .chr c
  | d, _ => d

/-- `push_back` (detail/container.hpp:39-52). -/
def push (s : List Char) : Dest → List Char
  | .unused => s
  | .chr c => s ++ [c]
  | .str t => s ++ t

/-- What a call returns, the position after it, and the attribute.  `none`: a loop runs too often, or the call does not compile. -/
abbrev Res := Option (Bool × List Char × Dest)

/-- `while (step) ;` -/
def iter (step : List Char → Dest → Res) : Nat → List Char → Dest → Option (List Char × Dest)
  | 0, _, _ => none
  | k + 1, s, d => match step s d with
    | none => none
    | some (true, t, d') => iter step k t d'
    | some (false, t, d') => some (t, d')

/-- The loop of string/string.hpp:37-50. -/
def copy : List Char → List Char → List Char → Bool × List Char × List Char
  | [], s, a => (true, s, a)
  | _ :: _, [], a => (false, [], a)
  | c :: w, b :: s, a => if b = c then copy w s (a ++ [b]) else (false, b :: s, a)

/-- `container::parse` (detail/container.hpp:54-84). -/
def element (junk : Char) (τ : Option Ty) (run : List Char → Dest → Res) (s : List Char) : Dest → Res
  | .unused => run s .unused
  | .chr _ => none
  | .str a => match τ with
    | none => none
    | some τ => match run s (fresh junk τ) with
      | none => none
      | some (false, t, _) => some (false, t, .str a)
      | some (true, t, x) => some (true, t, .str (push a x))

/-- `choice_parser::do_parse` for a parser that is no choice (core/choice.hpp:84-98). -/
def alternative (junk : Char) (τ : Option Ty) (run : List Char → Dest → Res) (s : List Char) (d : Dest) : Res :=
  match τ with
  | none => none
  | some τ =>
    if d = .unused ∨ τ = .unused then
      match run s .unused with
      | none => none
      | some (b, t, _) => some (b, t, d)
    else match run s (fresh junk τ) with
      | none => none
      | some (false, t, _) => some (false, t, d)
      | some (true, t, x) => some (true, t, assign d x)

/-- `is_choice_parser_v`. -/
def Parser.isChoice : Parser → Bool
  | .choice _ _ => true
  | _ => false

/-- The functions `parse`. -/
def Parser.run (junk : Char) (fuel : Nat) : Parser → List Char → Dest → Res
  | .sat _, [], d => some (false, [], d)                                       -- string/char_class.hpp:40-46
  | .sat p, c :: s, d => if p c then some (true, s, d.absorb c) else some (false, c :: s, d)
  | .str w, s, .unused => if (copy w s []).1 then some (true, (copy w s []).2.1, .unused) else some (false, s, .unused) -- string/string.hpp:25-34
  | .str _, _, .chr _ => none
  | .str w, s, .str _ =>                                                       -- string/string.hpp:37-50
    if (copy w s []).1 then some (true, (copy w s []).2.1, .str (copy w s []).2.2) else some (false, s, .str (copy w s []).2.2)
  | .ignore p, s, d => match p.run junk fuel s .unused with                    -- core/ignore.hpp:26-29
    | none => none
    | some (b, t, _) => some (b, t, d)
  | .seq p q, s, d => match p.run junk fuel s d with                           -- core/sequence.hpp:69-75, 109-116
    | none => none
    | some (false, _, d') => some (false, s, d')
    | some (true, t, d') => match q.run junk fuel t d' with
      | none => none
      | some (false, _, d'') => some (false, s, d'')
      | some (true, u, d'') => some (true, u, d'')
  | .choice p q, s, d =>                                                       -- core/choice.hpp:66-75, 78-84
    match if p.isChoice then p.run junk fuel s d else alternative junk p.ty (p.run junk fuel) s d with
    | none => none
    | some (true, t, d') => some (true, t, d')
    | some (false, _, d') =>
      match if q.isChoice then q.run junk fuel s d' else alternative junk q.ty (q.run junk fuel) s d' with
      | none => none
      | some (true, t, d'') => some (true, t, d'')
      | some (false, _, d'') => some (false, s, d'')
  | .kleene p, s, d => match iter (element junk p.ty (p.run junk fuel)) fuel s d with -- core/kleene.hpp:28-32
    | none => none
    | some (t, d') => some (true, t, d')
  | .plus p, s, d => match element junk p.ty (p.run junk fuel) s d with        -- core/plus.hpp:28-34
    | none => none
    | some (false, t, d') => some (false, t, d')
    | some (true, t, d') => match iter (element junk p.ty (p.run junk fuel)) fuel t d' with
      | none => none
      | some (t, d') => some (true, t, d')
  | .maybe p, s, d => match p.run junk fuel s d with                           -- core/maybe.hpp:26-29
    | none => none
    | some (_, t, d') => some (true, t, d')
  | .neg p, s, d => match p.run junk fuel s .unused with                       -- core/not.hpp:24-27
    | none => none
    | some (b, _, _) => some (!b, s, d)
  | .diff p q, s, d => match q.run junk fuel s .unused with                    -- core/difference.hpp:27-33
    | none => none
    | some (false, t, _) => p.run junk fuel t d
    | some (true, _, _) => some (false, s, d)

end Verif.Combinator.Text
