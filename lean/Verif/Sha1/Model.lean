/-!
# SHA-1

Models `libvast/src/concept/hashable/sha1.cpp` and the state in
`libvast/vast/concept/hashable/sha1.hpp:44-47`, on a little-endian host.  `size_t` positions within the buffer
are natural numbers; the bit counter is a 64-bit integer.
-/
namespace Verif.Sha1

/-- The five words `H_`. -/
structure H5 where
  a : UInt32
  b : UInt32
  c : UInt32
  d : UInt32
  e : UInt32
deriving DecidableEq, Repr

/-- `rotate_left` (libvast/src/concept/hashable/sha1.cpp:18-20). -/
def rotateLeft (x : UInt32) (n : UInt32) : UInt32 := (x <<< n) ||| (x >>> (32 - n))

/-- The integer whose bytes in memory are these, on a little-endian host. -/
def loadLE : List UInt8 → Nat
  | [] => 0
  | b :: bs => b.toNat + 256 * loadLE bs

/-- The `n` bytes of an integer in memory, on a little-endian host. -/
def storeLE : Nat → Nat → List UInt8
  | 0, _ => []
  | n + 1, x => .ofNat x :: storeLE n (x / 256)

/-- Loading a 32-bit integer from four bytes in memory. -/
def load32 (b0 b1 b2 b3 : UInt8) : UInt32 := .ofNat (loadLE [b0, b1, b2, b3])

/-- The four bytes of a 32-bit integer in memory. -/
def store32 (x : UInt32) : List UInt8 := storeLE 4 x.toNat

/-- The eight bytes of a 64-bit integer in memory. -/
def store64 (x : UInt64) : List UInt8 := storeLE 8 x.toNat

/-- `byte_swap` on 32 bits (libvast/vast/detail/byte_swap.hpp:41-43): the bytes in the opposite order. -/
def byteSwap32 (x : UInt32) : UInt32 := .ofNat (loadLE (store32 x).reverse)

/-- `byte_swap` on 64 bits (libvast/vast/detail/byte_swap.hpp:45-47). -/
def byteSwap64 (x : UInt64) : UInt64 := .ofNat (loadLE (store64 x).reverse)

/-- The functions that `f` may point to. -/
inductive Fn where
  | choice
  | parity
  | majority
deriving DecidableEq, Repr

/-- `choice`, `parity`, `majority` (libvast/src/concept/hashable/sha1.cpp:49-59). -/
def Fn.apply : Fn → UInt32 → UInt32 → UInt32 → UInt32
  | .choice, x, y, z => (x &&& y) ^^^ (~~~ x &&& z)
  | .parity, x, y, z => x ^^^ y ^^^ z
  | .majority, x, y, z => (x &&& y) ^^^ (x &&& z) ^^^ (y &&& z)

/-- The constants `K` (libvast/src/concept/hashable/sha1.cpp:47). -/
def K : List UInt32 := [0x5a827999, 0x6ed9eba1, 0x8f1bbcdc, 0xca62c1d6]

/-- The loop that extends `w` (libvast/src/concept/hashable/sha1.cpp:114-115), `n` rounds from the current
length on. -/
def extendW : Nat → List UInt32 → List UInt32
  | 0, w => w
  | n + 1, w =>
    let t := w.length
    extendW n (w ++ [rotateLeft (w.getD (t - 3) 0 ^^^ w.getD (t - 8) 0 ^^^ w.getD (t - 14) 0 ^^^ w.getD (t - 16) 0) 1])

/-- The variables of the main loop. -/
structure Vars where
  h : H5
  k : UInt32
  f : Fn

/-- The body of the main loop (libvast/src/concept/hashable/sha1.cpp:124-140). -/
def round (w : List UInt32) (t : Nat) (v : Vars) : Vars :=
  let T := rotateLeft v.h.a 5 + v.f.apply v.h.b v.h.c v.h.d + v.h.e + v.k + w.getD t 0
  let h : H5 := ⟨T, v.h.a, rotateLeft v.h.b 30, v.h.c, v.h.d⟩
  if t = 19 then ⟨h, K.getD 1 0, .parity⟩
  else if t = 39 then ⟨h, K.getD 2 0, .majority⟩
  else if t = 59 then ⟨h, K.getD 3 0, .parity⟩
  else ⟨h, v.k, v.f⟩

/-- The main loop from round `t` on, `n` rounds. -/
def rounds (w : List UInt32) : Nat → Nat → Vars → Vars
  | 0, _, v => v
  | n + 1, t, v => rounds w n (t + 1) (round w t v)

/-- One pass of the outer loop of `sha1::transform` (libvast/src/concept/hashable/sha1.cpp:105-147): the block
that starts at byte `off` of the data. -/
def transformBlock (data : List UInt8) (off : Nat) (h : H5) : H5 :=
  let m := (List.range 16).map fun i =>
    byteSwap32 (load32 (data.getD (off + 4 * i) 0) (data.getD (off + 4 * i + 1) 0)
      (data.getD (off + 4 * i + 2) 0) (data.getD (off + 4 * i + 3) 0))
  let w := extendW 64 m
  let v := rounds w 80 0 ⟨h, K.getD 0 0, .choice⟩
  ⟨h.a + v.h.a, h.b + v.h.b, h.c + v.h.c, h.d + v.h.d, h.e + v.h.e⟩

/-- `sha1::transform` (libvast/src/concept/hashable/sha1.cpp:104-148). -/
def transform (data : List UInt8) (blocks : Nat) (h : H5) : H5 :=
  (List.range blocks).foldl (fun h blk => transformBlock data (64 * blk) h) h

/-- The hasher: `H_`, the buffer `m_` (64 bytes, uninitialised at first), `pos_` and `total_`. -/
structure State where
  h : H5
  m : List UInt8
  pos : Nat
  total : UInt64

/-- The constructor (libvast/src/concept/hashable/sha1.cpp:63-69); `junk` is what memory happens to hold. -/
def State.init (junk : List UInt8) : State :=
  ⟨⟨0x67452301, 0xefcdab89, 0x98badcfe, 0x10325476, 0xc3d2e1f0⟩, junk, 0, 0⟩

/-- `memcpy(m + pos, data, data.size())`. -/
def copyTo (m : List UInt8) (pos : Nat) (data : List UInt8) : List UInt8 :=
  m.take pos ++ data ++ m.drop (pos + data.length)

/-- `absorb_bytes` with a block size of 64 (libvast/src/concept/hashable/sha1.cpp:22-44), which is all that
`sha1::operator()` does (sha1.cpp:71-77). -/
def absorb (data : List UInt8) (s : State) : State :=
  let (data, s) :=
    if s.pos ≠ 0 ∧ s.pos + data.length ≥ 64 then
      let m := copyTo s.m s.pos (data.take (64 - s.pos))
      (data.drop (64 - s.pos), { s with m := m, h := transform m 1 s.h, total := s.total + 64 * 8, pos := 0 })
    else (data, s)
  let (data, s) :=
    if data.length ≥ 64 then
      let blocks := (data.length + 64 - 64) / 64
      let bytes := blocks * 64
      (data.drop bytes, { s with h := transform data blocks s.h, total := s.total + UInt64.ofNat bytes * 8 })
    else (data, s)
  { s with m := copyTo s.m s.pos data, pos := s.pos + data.length }

/-- `sha1::finalize` (libvast/src/concept/hashable/sha1.cpp:84-102). -/
def finalize (s : State) : State :=
  let s := { s with total := s.total + UInt64.ofNat s.pos * 8 }
  let s := { s with m := copyTo s.m s.pos [0x80], pos := s.pos + 1 }
  let s :=
    if s.pos > 56 then
      let m := if s.pos ≠ 64 then copyTo s.m s.pos (List.replicate (64 - s.pos) 0) else s.m
      { s with m := m, h := transform m 1 s.h, pos := 0 }
    else s
  let m := copyTo s.m s.pos (List.replicate (56 - s.pos) 0)
  let m := copyTo m (64 - 8) (store64 (byteSwap64 s.total))
  let h := transform m 1 s.h
  { s with m := m, h := ⟨byteSwap32 h.a, byteSwap32 h.b, byteSwap32 h.c, byteSwap32 h.d, byteSwap32 h.e⟩ }

/-- The bytes of the result in memory (libvast/src/concept/hashable/sha1.cpp:79-82). -/
def digest (s : State) : List UInt8 :=
  let h := (finalize s).h
  store32 h.a ++ store32 h.b ++ store32 h.c ++ store32 h.d ++ store32 h.e

/-- Hashing a sequence of chunks. -/
def hashChunks (junk : List UInt8) (chunks : List (List UInt8)) : List UInt8 :=
  digest (chunks.foldl (fun s c => absorb c s) (.init junk))

end Verif.Sha1
