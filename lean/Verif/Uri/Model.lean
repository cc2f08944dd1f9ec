import Verif.DataText.Model
import Verif.Escape.Model
/-!
# Identifiers of resources

`libvast/vast/uri.hpp`, its parser (`libvast/vast/concept/parseable/vast/uri.hpp`) and its printer
(`libvast/vast/concept/printable/vast/uri.hpp`).
-/
namespace Verif.Uri
open Verif.Data Verif.DataText

/-- `uri` (`libvast/vast/uri.hpp:49-56`).  The query is a `std::map`: pairs in the order of their keys. -/
structure Uri where
  scheme : Str := []
  host : Str := []
  port : Nat := 0
  path : List Str := []
  query : List (Str × Str) := []
  fragment : Str := []
deriving DecidableEq

/-! ## Printing -/

/-- `key_value_printer` (printable/vast/uri.hpp:24-35). -/
def printPair (kv : Str × Str) : Str := Escape.percentEscape kv.1 ++ 61 :: Escape.percentEscape kv.2

/-- `uri_printer` (printable/vast/uri.hpp:42-88). -/
def print (u : Uri) : Str :=
  (if u.scheme = [] then [] else u.scheme ++ [58])
  ++ (if u.host = [] then [] else 47 :: 47 :: Escape.percentEscape u.host)
  ++ (if u.port = 0 then [] else 58 :: printNat u.port)
  ++ 47 :: join [47] u.path
  ++ (if u.query = [] then [] else 63 :: join [38] (u.query.map printPair))
  ++ (if u.fragment = [] then [] else 35 :: Escape.percentEscape u.fragment)

/-! ## Parsing (parseable/vast/uri.hpp:21-48) -/

/-- `printable - scheme_ignore_char` (32-34). -/
def schemeChar (b : UInt8) : Bool := Escape.isPrint b && b ≠ 58 && b ≠ 47

/-- `printable - path_ignore_char` (36-37). -/
def pathChar (b : UInt8) : Bool := Escape.isPrint b && b ≠ 47 && b ≠ 63 && b ≠ 35 && b ≠ 32

/-- `printable - '='` (38). -/
def keyChar (b : UInt8) : Bool := Escape.isPrint b && b ≠ 61

/-- `printable - query_ignore_char` (39-40). -/
def valueChar (b : UInt8) : Bool := Escape.isPrint b && b ≠ 38 && b ≠ 35 && b ≠ 32

/-- `printable - ' '` (42). -/
def fragmentChar (b : UInt8) : Bool := Escape.isPrint b && b ≠ 32

/-- `percent_unescape` (29-31); it never reads outside of the string. -/
def unescape (s : Str) : Str := (Escape.percentUnescape s).getD []

/-- `query_unescape` (25-28). -/
def queryUnescape (s : Str) : Str := unescape (s.map fun b => if b = 43 then 32 else b)

/-- `~(scheme >> ':')` (44). -/
def schemeP (s : Str) : Str × Str :=
  match s.dropWhile schemeChar with
  | 58 :: r => (s.takeWhile schemeChar, r)
  | _ => ([], s)

/-- `~("//" >> host)` (45). -/
def hostP (s : Str) : Str × Str :=
  match s with
  | 47 :: 47 :: r => (r.takeWhile schemeChar, r.dropWhile schemeChar)
  | _ => ([], s)

/-- `~(':' >> port)` (46); `u16` reads at most five digits and wraps. -/
def portP (s : Str) : Nat × Str :=
  match s with
  | 58 :: r => match uintP 16 5 1 r with
    | some (n, r) => (n, r)
    | none => (0, s)
  | _ => (0, s)

/-- `path_segment % '/'` (47).  `fuel` bounds the number of segments. -/
def pathP : (fuel : Nat) → Str → List Str × Str
  | 0, s => ([], s)
  | fuel + 1, s => match s.dropWhile pathChar with
    | 47 :: r => (unescape (s.takeWhile pathChar) :: (pathP fuel r).1, (pathP fuel r).2)
    | r => ([unescape (s.takeWhile pathChar)], r)

/-- `query` (41). -/
def pairP (s : Str) : Option ((Str × Str) × Str) :=
  if s.takeWhile keyChar = [] then none
  else match s.dropWhile keyChar with
    | 61 :: r =>
      if r.takeWhile valueChar = [] then none
      else some ((unescape (s.takeWhile keyChar), queryUnescape (r.takeWhile valueChar)), r.dropWhile valueChar)
    | _ => none

/-- `insert` of a `std::map`: what is there stays. -/
def insert (x : Str × Str) : List (Str × Str) → List (Str × Str)
  | [] => [x]
  | y :: ys => if x.1 < y.1 then x :: y :: ys else if y.1 < x.1 then y :: insert x ys else y :: ys

/-- `query % '&'` (48) after the first pair, with the pairs so far. -/
def pairsP : (fuel : Nat) → List (Str × Str) → Str → List (Str × Str) × Str
  | 0, q, s => (q, s)
  | fuel + 1, q, s => match s with
    | 38 :: r => match pairP r with
      | some (kv, r) => pairsP fuel (insert kv q) r
      | none => (q, s)
    | _ => (q, s)

/-- `~('?' >> query % '&')` (48). -/
def queryP (s : Str) : List (Str × Str) × Str :=
  match s with
  | 63 :: r => match pairP r with
    | some (kv, r) => pairsP r.length (insert kv []) r
    | none => ([], s)
  | _ => ([], s)

/-- `~('#' >> fragment)` (49). -/
def fragmentP (s : Str) : Str × Str :=
  match s with
  | 35 :: r => (r.takeWhile fragmentChar, r.dropWhile fragmentChar)
  | _ => ([], s)

/-- `uri_parser` on a whole string. -/
def parse (s : Str) : Option Uri :=
  let scheme := schemeP s
  let host := hostP scheme.2
  let port := portP host.2
  match port.2 with
  | 47 :: r =>
    let path := pathP (r.length + 1) r
    let query := queryP path.2
    let fragment := fragmentP query.2
    if fragment.2 = [] then some ⟨scheme.1, host.1, port.1, path.1, query.1, fragment.1⟩ else none
  | _ => none

end Verif.Uri
