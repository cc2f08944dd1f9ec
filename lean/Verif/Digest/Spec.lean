/-!
# Powers of two, and digests that are wide enough
-/
namespace Verif.Digest.Spec

/-- A power of two. -/
def Pow2 (x : Nat) : Prop := ∃ k, x = 2 ^ k

/-- So many bytes are enough for digests of `n` values: there are as many digests as pairs of values, so that about one collision is
expected. -/
def Enough (n bytes : Nat) : Prop := n * n ≤ 2 ^ (8 * bytes)

end Verif.Digest.Spec
