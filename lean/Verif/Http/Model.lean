import Verif.Uri.Model
import Verif.Calendar.Text
/-!
# HTTP messages

`libvast/vast/http.hpp`, `libvast/src/http.cpp`, the parser of requests (`libvast/vast/concept/parseable/vast/http.hpp`) and the printer of
responses (`libvast/vast/concept/printable/vast/http.hpp`).
-/
namespace Verif.Http
open Verif.Data Verif.DataText Verif.Uri

/-- `http::header` (http.hpp:20-23). -/
structure Header where
  name : Str
  value : Str
deriving DecidableEq

/-- `http::request` (http.hpp:26-39).  Simplification: the version is the literal, not the `double` that is made of it. -/
structure Request where
  method : Str
  uri : Uri
  protocol : Str
  version : Lit
  headers : List Header
  body : Str
deriving DecidableEq

/-- `::toupper` in the C locale (parseable/vast/http.hpp:30). -/
def upper (b : UInt8) : UInt8 := if 97 ≤ b.toNat ∧ b.toNat ≤ 122 then b - 32 else b

/-- `printable - ':'` (33). -/
def nameChar (b : UInt8) : Bool := Escape.isPrint b && b ≠ 58

/-- `printable - ' '` (67). -/
def wordChar (b : UInt8) : Bool := Escape.isPrint b && b ≠ 32

/-- `alpha` (70). -/
def alphaChar (b : UInt8) : Bool := decide (65 ≤ b.toNat ∧ b.toNat ≤ 90 ∨ 97 ≤ b.toNat ∧ b.toNat ≤ 122)

/-- `http_header_parser` (33-36). -/
def headerP (s : Str) : Option (Header × Str) :=
  if s.takeWhile nameChar = [] then none
  else match s.dropWhile nameChar with
    | 58 :: r =>
      let r := r.dropWhile (fun b => b == 32)
      if r.takeWhile Escape.isPrint = [] then none
      else some (⟨(s.takeWhile nameChar).map upper, r.takeWhile Escape.isPrint⟩, r.dropWhile Escape.isPrint)
    | _ => none

/-- `*(header >> crlf)` (72, 77).  `fuel` bounds the number of headers. -/
def headersP : (fuel : Nat) → Str → List Header × Str
  | 0, s => ([], s)
  | fuel + 1, s => match headerP s with
    | some (h, 13 :: 10 :: r) => (h :: (headersP fuel r).1, (headersP fuel r).2)
    | _ => ([], s)

/-- `uri_parser` in front of something else (parseable/vast/uri.hpp:44-49). -/
def uriP (s : Str) : Option (Uri × Str) :=
  let scheme := schemeP s
  let host := hostP scheme.2
  let port := portP host.2
  match port.2 with
  | 47 :: r =>
    let path := pathP (r.length + 1) r
    let query := queryP path.2
    let fragment := fragmentP query.2
    some (⟨scheme.1, host.1, port.1, path.1, query.1, fragment.1⟩, fragment.2)
  | _ => none

/-- After the request line (76-78): `*header >> crlf >> body`, up to the end of the text. -/
def restP (s : Str) : Option (List Header × Str) :=
  match (headersP s.length s).2 with
  | 13 :: 10 :: b => if b.dropWhile Escape.isPrint = [] then some ((headersP s.length s).1, b) else none
  | _ => none

/-- After the URI (76): `' ' >> proto >> '/' >> version >> crlf`. -/
def protoP (s : Str) : Option ((Str × Lit) × Str) :=
  match s with
  | 32 :: r =>
    if r.takeWhile alphaChar = [] then none
    else match r.dropWhile alphaChar with
      | 47 :: q => match realP true q with
        | some (l, 13 :: 10 :: z) => some ((r.takeWhile alphaChar, l), z)
        | _ => none
      | _ => none
  | _ => none

/-- `http_request_parser` (64-81) on a whole text. -/
def parse (s : Str) : Option Request :=
  if s.takeWhile wordChar = [] then none
  else match s.dropWhile wordChar with
    | 32 :: r => (uriP r).bind fun (u, r) => (protoP r).bind fun (p, r) => (restP r).map fun (hs, b) =>
        ⟨s.takeWhile wordChar, u, p.1, p.2, hs, b⟩
    | _ => none

/-- The comparison of names in `message::header` (http.cpp:18-25). -/
def sameName : Str → Str → Bool
  | [], [] => true
  | a :: x, b :: y => upper a == upper b && sameName x y
  | _, _ => false

/-- `message::header` (http.cpp:17-28). -/
def header (name : Str) (hs : List Header) : Option Header := hs.find? fun h => sameName h.name name

/-- `http::response` (http.hpp:41-45).  Simplification: the version is the text that the printer of numbers makes of it. -/
structure Response where
  protocol : Str
  version : Str
  code : Nat
  status : Str
  headers : List Header
  body : Str

/-- `http_header_printer` (printable/vast/http.hpp:27-30). -/
def printHeader (h : Header) : Str := h.name ++ [58, 32] ++ h.value

/-- `http_response_printer` (42-60). -/
def print (r : Response) : Str :=
  r.protocol ++ [47] ++ r.version ++ [32] ++ printNat r.code ++ [32] ++ r.status ++ [13, 10] ++
    join [13, 10] (r.headers.map printHeader) ++ [13, 10, 13, 10] ++ r.body

end Verif.Http
