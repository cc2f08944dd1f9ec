import Verif.Uri.Model
/-!
Which identifiers can be written and read back.
-/
namespace Verif.Uri.Spec
open Verif.Data

/-- The bytes that need no escape anywhere: letters, digits, and `- . _ ~`. -/
def Unreserved (b : UInt8) : Prop :=
  (48 ≤ b.toNat ∧ b.toNat ≤ 57) ∨ (65 ≤ b.toNat ∧ b.toNat ≤ 90) ∨ (97 ≤ b.toNat ∧ b.toNat ≤ 122) ∨ b = 45 ∨ b = 46 ∨ b = 95 ∨ b = 126

/-- A printable character. -/
def Printable (b : UInt8) : Prop := 32 ≤ b.toNat ∧ b.toNat ≤ 126

/-- The identifiers that are read back.  The keys and values of the query may contain any byte. -/
structure Readable (u : Uri) : Prop where
  /-- No `:` and no `/` in the scheme. -/
  scheme : ∀ b ∈ u.scheme, Printable b ∧ b ≠ 58 ∧ b ≠ 47
  host : ∀ b ∈ u.host, Unreserved b
  port : u.port < 2 ^ 16
  /-- A port needs a scheme or a host. -/
  port_after : u.port ≠ 0 → u.scheme ≠ [] ∨ u.host ≠ []
  /-- There is a path, and no `/`, `?`, `#`, `%` or space in its segments. -/
  path : u.path ≠ []
  segments : ∀ x ∈ u.path, ∀ b ∈ x, Printable b ∧ b ≠ 47 ∧ b ≠ 63 ∧ b ≠ 35 ∧ b ≠ 37 ∧ b ≠ 32
  /-- A path after neither a host nor a port does not begin with an empty segment before another one. -/
  path_start : u.host = [] → u.port = 0 → u.path.head? = some [] → u.path.length = 1
  /-- The keys ascend. -/
  keys : u.query.Pairwise fun a b => a.1 < b.1
  /-- No empty keys and values. -/
  pairs : ∀ kv ∈ u.query, kv.1 ≠ [] ∧ kv.2 ≠ []
  fragment : ∀ b ∈ u.fragment, Unreserved b

end Verif.Uri.Spec
