import Verif.Http.Model
import Verif.Uri.TextSpec
/-!
What requests and responses look like.
-/
namespace Verif.Http.Spec
open Verif.Data Verif.DataText Verif.Uri.Spec

/-- The same letter in lower and in upper case. -/
def Cases (a b : UInt8) : Prop := ∃ n < 26, a = UInt8.ofNat (97 + n) ∧ b = UInt8.ofNat (65 + n)

/-- `b` is `a`, in upper case if `a` is a letter. -/
def Up (a b : UInt8) : Prop := Cases a b ∨ a = b ∧ ∀ c, ¬ Cases a c

/-- The same up to upper and lower case. -/
def Same (x y : Str) : Prop := List.Forall₂ (fun a b => a = b ∨ Cases a b ∨ Cases b a) x y

/-- Letters. -/
def Alpha (b : UInt8) : Prop := 65 ≤ b.toNat ∧ b.toNat ≤ 90 ∨ 97 ≤ b.toNat ∧ b.toNat ≤ 122

/-- The end of a line. -/
def crlf : Str := [13, 10]

/-- `name: value`, the name in any case. -/
def HeaderText (t : Str) (h : Header) : Prop :=
  ∃ (name : Str) (n : Nat), t = name ++ [58] ++ List.replicate n 32 ++ h.value ++ crlf ∧ name ≠ [] ∧ h.value ≠ [] ∧ Only [58] name ∧ Only [] h.value ∧
    h.value.head? ≠ some 32 ∧ List.Forall₂ Up name h.name

/-- `1.1`. -/
def VersionText (t : Str) (l : Lit) : Prop :=
  ∃ (neg : Bool) (sign : Str) (ds fs : List Nat), l = ⟨neg, ds, fs⟩ ∧
    (sign = [45] ∧ neg = true ∨ sign = [43] ∧ neg = false ∨ sign = [] ∧ neg = false) ∧
    t = sign ++ ds.map (fun d => UInt8.ofNat (48 + d)) ++ [46] ++ fs.map (fun d => UInt8.ofNat (48 + d)) ∧
    (∀ d ∈ ds ++ fs, d < 10) ∧ ds.length ≤ 20 ∧ fs.length ≤ 20 ∧ ¬ (ds = [] ∧ fs = [])

/-- A request, given the text of its URI. -/
def RequestText (s target : Str) (r : Request) : Prop :=
  ∃ (version : Str) (hs : List Str), s = r.method ++ [32] ++ target ++ [32] ++ r.protocol ++ [47] ++ version ++ crlf ++ hs.flatten ++ crlf ++ r.body ∧
    r.method ≠ [] ∧ Only [32] r.method ∧ r.protocol ≠ [] ∧ (∀ b ∈ r.protocol, Alpha b) ∧ VersionText version r.version ∧
    List.Forall₂ HeaderText hs r.headers ∧ Only [] r.body

/-- How a message is read: lines up to an empty one, and the rest. -/
inductive Message : Str → List Str → Str → Prop
  | empty (body : Str) : Message (crlf ++ body) [] body
  | line {l s : Str} {ls : List Str} {body : Str} : l ≠ [] → (∀ b ∈ l, b ≠ 13) → Message s ls body → Message (l ++ crlf ++ s) (l :: ls) body

end Verif.Http.Spec
