import Verif.Uri.Spec
import Mathlib.Data.List.Forall2
/-!
The texts that are read as identifiers of resources, and what they mean.
-/
namespace Verif.Uri.Spec
open Verif.Data

/-- A hexadecimal digit and its value. -/
inductive Hex : UInt8 → Nat → Prop
  | digit (n : Nat) : n < 10 → Hex (UInt8.ofNat (48 + n)) n
  | upper (n : Nat) : n < 6 → Hex (UInt8.ofNat (65 + n)) (10 + n)
  | lower (n : Nat) : n < 6 → Hex (UInt8.ofNat (97 + n)) (10 + n)

/-- A text with escapes, and what it stands for. -/
inductive Decoded : Str → Str → Prop
  | nil : Decoded [] []
  | plain {c : UInt8} {r x : Str} : c ≠ 37 → Decoded r x → Decoded (c :: r) (c :: x)
  | escape {a b : UInt8} {m n : Nat} {r x : Str} : Hex a m → Hex b n → Decoded r x → Decoded (37 :: a :: b :: r) (UInt8.ofNat (16 * m + n) :: x)

/-- What is made of a text: a text with a wrong escape is dropped as a whole. -/
def Means (t x : Str) : Prop := Decoded t x ∨ (∀ y, ¬ Decoded t y) ∧ x = []

/-- The same if `+` stands for a space. -/
def PlusMeans (t x : Str) : Prop := Means (t.map fun b => if b = 43 then 32 else b) x

/-- Only printable characters, and not those. -/
def Only (not : List UInt8) (t : Str) : Prop := ∀ b ∈ t, Printable b ∧ b ∉ not

/-- `scheme:`. -/
def SchemeText (t scheme : Str) : Prop := t = [] ∧ scheme = [] ∨ t = scheme ++ [58] ∧ Only [58, 47] scheme

/-- `//host`. -/
def HostText (t host : Str) : Prop := t = [] ∧ host = [] ∨ t = [47, 47] ++ host ∧ Only [58, 47] host

/-- The number with these decimal digits. -/
def decimal : List Nat → Nat
  | [] => 0
  | d :: ds => d * 10 ^ ds.length + decimal ds

/-- `:port`. -/
def PortText (t : Str) (port : Nat) : Prop :=
  t = [] ∧ port = 0 ∨ ∃ ds : List Nat, t = 58 :: ds.map (fun d => UInt8.ofNat (48 + d)) ∧ ds ≠ [] ∧ ds.length ≤ 5 ∧ (∀ d ∈ ds, d < 10) ∧
    port = decimal ds % 2 ^ 16

/-- `/segment/segment`. -/
def PathText (t : Str) (path : List Str) : Prop :=
  ∃ ts : List Str, ts ≠ [] ∧ t = ts.flatMap (47 :: ·) ∧ List.Forall₂ (fun t x => Only [47, 63, 35, 32] t ∧ Means t x) ts path

/-- `key=value`. -/
def PairText (t : Str) (kv : Str × Str) : Prop :=
  ∃ k v : Str, t = k ++ 61 :: v ∧ k ≠ [] ∧ v ≠ [] ∧ Only [61] k ∧ Only [38, 35, 32] v ∧ Means k kv.1 ∧ PlusMeans v kv.2

/-- The first value that is given for the key. -/
def FirstOf (k v : Str) (kvs : List (Str × Str)) : Prop := ∃ before after, kvs = before ++ (k, v) :: after ∧ ∀ w, (k, w) ∉ before

/-- `?key=value&key=value`; the first value of a key counts. -/
def QueryText (t : Str) (query : List (Str × Str)) : Prop :=
  t = [] ∧ query = [] ∨ ∃ (p : Str) (ps : List Str) (kvs : List (Str × Str)), t = 63 :: p ++ ps.flatMap (38 :: ·) ∧
    List.Forall₂ PairText (p :: ps) kvs ∧ query.Pairwise (fun a b => a.1 < b.1) ∧ ∀ k v, (k, v) ∈ query ↔ FirstOf k v kvs

/-- `#fragment`. -/
def FragmentText (t fragment : Str) : Prop := t = [] ∧ fragment = [] ∨ t = 35 :: fragment ∧ Only [32] fragment

/-- The text of an identifier. -/
def Text (s : Str) (u : Uri) : Prop :=
  ∃ a b c d e f : Str, s = a ++ b ++ c ++ d ++ e ++ f ∧ SchemeText a u.scheme ∧ HostText b u.host ∧ PortText c u.port ∧ PathText d u.path ∧
    QueryText e u.query ∧ FragmentText f u.fragment

end Verif.Uri.Spec
