import Verif.Sha1.Model
/-!
# SHA-1 as in FIPS 180-4

Words are big-endian; the message is padded with a bit 1, zeros and its length in bits; each block
of 64 bytes updates five words in eighty rounds.  Only the type `H5` of five words is taken from the model.
-/
namespace Verif.Sha1

/-- Rotation to the left (FIPS 180-4, 2.2.2). -/
def rotl (n : UInt32) (x : UInt32) : UInt32 := (x <<< n) ||| (x >>> (32 - n))

/-- The function of round `t` (FIPS 180-4, 4.1.1). -/
def specF (t : Nat) (x y z : UInt32) : UInt32 :=
  if t ≤ 19 then (x &&& y) ^^^ (~~~ x &&& z)
  else if t ≤ 39 then x ^^^ y ^^^ z
  else if t ≤ 59 then (x &&& y) ^^^ (x &&& z) ^^^ (y &&& z)
  else x ^^^ y ^^^ z

/-- The constant of round `t` (FIPS 180-4, 4.2.1). -/
def specK (t : Nat) : UInt32 :=
  if t ≤ 19 then 0x5a827999 else if t ≤ 39 then 0x6ed9eba1 else if t ≤ 59 then 0x8f1bbcdc else 0xca62c1d6

/-- Word `i` of a block, big-endian (FIPS 180-4, 3.1). -/
def wordAt (block : List UInt8) (i : Nat) : UInt32 :=
  .ofNat ((block.getD (4 * i) 0).toNat * 2 ^ 24 + (block.getD (4 * i + 1) 0).toNat * 2 ^ 16 +
    (block.getD (4 * i + 2) 0).toNat * 2 ^ 8 + (block.getD (4 * i + 3) 0).toNat)

/-- The message schedule (FIPS 180-4, 6.1.2, step 1). -/
def sched (block : List UInt8) (t : Nat) : UInt32 :=
  if t < 16 then wordAt block t
  else rotl 1 (sched block (t - 3) ^^^ sched block (t - 8) ^^^ sched block (t - 14) ^^^ sched block (t - 16))
termination_by t

/-- Round `t` (FIPS 180-4, 6.1.2, step 3). -/
def specRound (block : List UInt8) (h : H5) (t : Nat) : H5 :=
  ⟨rotl 5 h.a + specF t h.b h.c h.d + h.e + specK t + sched block t, h.a, rotl 30 h.b, h.c, h.d⟩

/-- What one block does (FIPS 180-4, 6.1.2). -/
def compress (h : H5) (block : List UInt8) : H5 :=
  let r := (List.range 80).foldl (specRound block) h
  ⟨r.a + h.a, r.b + h.b, r.c + h.c, r.d + h.d, r.e + h.e⟩

/-- An integer of `n` bytes, big-endian. -/
def bigEndian : Nat → Nat → List UInt8
  | 0, _ => []
  | n + 1, x => .ofNat (x / 256 ^ n) :: bigEndian n x

/-- The padded message (FIPS 180-4, 5.1.1). -/
def padded (msg : List UInt8) : List UInt8 :=
  msg ++ [0x80] ++ List.replicate ((119 - msg.length % 64) % 64) 0 ++ bigEndian 8 (8 * msg.length)

/-- The blocks of 64 bytes, `n` of them. -/
def blocksOf : Nat → List UInt8 → List (List UInt8)
  | 0, _ => []
  | n + 1, xs => xs.take 64 :: blocksOf n (xs.drop 64)

/-- The initial words (FIPS 180-4, 5.3.1). -/
def specInit : H5 := ⟨0x67452301, 0xefcdab89, 0x98badcfe, 0x10325476, 0xc3d2e1f0⟩

/-- SHA-1 of a message. -/
def sha1 (msg : List UInt8) : List UInt8 :=
  let p := padded msg
  let h := (blocksOf (p.length / 64) p).foldl compress specInit
  bigEndian 4 h.a.toNat ++ bigEndian 4 h.b.toNat ++ bigEndian 4 h.c.toNat ++ bigEndian 4 h.d.toNat ++ bigEndian 4 h.e.toNat

end Verif.Sha1
