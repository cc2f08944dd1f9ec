/-!
# Splitting, joining and replacing

Models `split`, `join` and `replace_all` of /repo/libvast/src/detail/string.cpp and
vast/detail/string.hpp. A string is a list of bytes. The precondition of `split`, a separator that is
not empty, is a hypothesis of the theorems.
-/

namespace Verif.Escape

/-- string.cpp:130-142: whether the separator at `i` is escaped; `seen` are the characters before
    `i`. -/
def escaped (esc seen : List UInt8) : Bool :=
  !esc.isEmpty && decide (esc.length < seen.length) && esc.isSuffixOf seen

/-- string.cpp:110-153: the loop of `split`. `seen` are the characters before `i`, `cur` those from
    `prev` to `i`, and `rest` those from `i` on. The fuel is the length of `rest`. -/
def splitLoop (sep esc : List UInt8) (max : Nat) (incl : Bool) :
    Nat → List UInt8 → List UInt8 → List UInt8 → Nat → List (List UInt8)
  | _, _, cur, [], _ => if cur = [] then [] else [cur]
  | 0, _, cur, c :: rest, _ => [cur ++ c :: rest]
  | n + 1, seen, cur, c :: rest, splits =>
    if sep.isPrefixOf (c :: rest) ∧ escaped esc seen = false then
      if splits = max then [cur ++ c :: rest]
      else cur :: ((if incl then [sep] else []) ++
        splitLoop sep esc max incl n (seen ++ sep) [] ((c :: rest).drop sep.length) (splits + 1))
    else splitLoop sep esc max incl n (seen ++ [c]) (cur ++ [c]) rest splits

/-- string.cpp:96-154 `split` -/
def split (s sep esc : List UInt8) (max : Nat) (incl : Bool) : List (List UInt8) :=
  splitLoop sep esc max incl s.length [] [] s 0

/-- string.hpp:160-171 `join` -/
def join : List (List UInt8) → List UInt8 → List UInt8
  | [], _ => []
  | [x], _ => x
  | x :: y :: ys, sep => x ++ sep ++ join (y :: ys) sep

/-- string.cpp:89 `str.find(search, pos)`: the characters of `s` before and behind the first
    occurrence. -/
def find (search : List UInt8) : List UInt8 → Option (List UInt8 × List UInt8)
  | [] => if search = [] then some ([], []) else none
  | c :: rest =>
    if search.isPrefixOf (c :: rest) then some ([], (c :: rest).drop search.length)
    else (find search rest).map fun r => (c :: r.1, r.2)

/-- string.cpp:86-94 `replace_all`: the loop. `done` are the characters before `pos`, `rest` those from
    `pos` on. `none`: the fuel is used up. -/
def replaceLoop (search replace : List UInt8) : Nat → List UInt8 → List UInt8 → Option (List UInt8)
  | 0, _, _ => none
  | n + 1, done, rest =>
    match find search rest with
    | none => some (done ++ rest)
    | some (before, behind) => replaceLoop search replace n (done ++ before ++ replace) behind

end Verif.Escape
