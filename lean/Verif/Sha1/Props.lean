import Verif.Sha1.Lemmas
/-!
# C76: the SHA-1 hasher computes SHA-1
-/
namespace Verif.Sha1

/-- However a message is cut into chunks, and whatever the memory of the hasher holds at first, feeding the
chunks gives the SHA-1 digest of the message. -/
theorem C76_sha1 (junk : List UInt8) (h : junk.length = 64) (chunks : List (List UInt8)) :
    hashChunks junk chunks = sha1 chunks.flatten := by
  have := chunks_inv chunks _ _ (init_inv junk h)
  simpa [hashChunks] using digest_spec _ _ this

/-- In particular the digest does not depend on the cuts. -/
theorem C76_chunks (j1 j2 : List UInt8) (h1 : j1.length = 64) (h2 : j2.length = 64) (xs ys : List (List UInt8))
    (h : xs.flatten = ys.flatten) : hashChunks j1 xs = hashChunks j2 ys := by
  rw [C76_sha1 j1 h1, C76_sha1 j2 h2, h]

/-- A digest has 20 bytes. -/
theorem sha1_length (msg : List UInt8) : (sha1 msg).length = 20 := by
  simp [sha1, bigEndian_length]

set_option maxRecDepth 100000 in
/-- The digest of `abc` in two chunks is the one in FIPS 180-4's example. -/
example : hashChunks (List.replicate 64 7) [[97], [98, 99]] =
    [0xa9, 0x99, 0x3e, 0x36, 0x47, 0x06, 0x81, 0x6a, 0xba, 0x3e, 0x25, 0x71, 0x78, 0x50, 0xc2, 0x6c, 0x9c, 0xd0, 0xd8, 0x9d] := by
  decide +kernel

end Verif.Sha1
