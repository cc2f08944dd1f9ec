/-!
# Base64

Models /repo/libvast/src/detail/base64.cpp and vast/detail/base64.hpp. `none` is a write outside the
destination buffer.
-/

namespace Verif.Base64

/-- base64.hpp:17-20 `alphabet`. -/
def alphabet : List UInt8 :=
  [65, 66, 67, 68, 69, 70, 71, 72, 73, 74, 75, 76, 77, 78, 79, 80, 81, 82, 83, 84, 85, 86, 87, 88, 89,
   90, 97, 98, 99, 100, 101, 102, 103, 104, 105, 106, 107, 108, 109, 110, 111, 112, 113, 114, 115, 116,
   117, 118, 119, 120, 121, 122, 48, 49, 50, 51, 52, 53, 54, 55, 56, 57, 43, 47]

/-- base64.hpp:22-39 `inverse`. -/
def inverse : List Int :=
  [-1, -1, -1, -1, -1, -1, -1, -1, -1, -1, -1, -1, -1, -1, -1, -1,
  -1, -1, -1, -1, -1, -1, -1, -1, -1, -1, -1, -1, -1, -1, -1, -1,
  -1, -1, -1, -1, -1, -1, -1, -1, -1, -1, -1, 62, -1, -1, -1, 63,
  52, 53, 54, 55, 56, 57, 58, 59, 60, 61, -1, -1, -1, -1, -1, -1,
  -1, 0, 1, 2, 3, 4, 5, 6, 7, 8, 9, 10, 11, 12, 13, 14,
  15, 16, 17, 18, 19, 20, 21, 22, 23, 24, 25, -1, -1, -1, -1, -1,
  -1, 26, 27, 28, 29, 30, 31, 32, 33, 34, 35, 36, 37, 38, 39, 40,
  41, 42, 43, 44, 45, 46, 47, 48, 49, 50, 51, -1, -1, -1, -1, -1,
  -1, -1, -1, -1, -1, -1, -1, -1, -1, -1, -1, -1, -1, -1, -1, -1,
  -1, -1, -1, -1, -1, -1, -1, -1, -1, -1, -1, -1, -1, -1, -1, -1,
  -1, -1, -1, -1, -1, -1, -1, -1, -1, -1, -1, -1, -1, -1, -1, -1,
  -1, -1, -1, -1, -1, -1, -1, -1, -1, -1, -1, -1, -1, -1, -1, -1,
  -1, -1, -1, -1, -1, -1, -1, -1, -1, -1, -1, -1, -1, -1, -1, -1,
  -1, -1, -1, -1, -1, -1, -1, -1, -1, -1, -1, -1, -1, -1, -1, -1,
  -1, -1, -1, -1, -1, -1, -1, -1, -1, -1, -1, -1, -1, -1, -1, -1,
  -1, -1, -1, -1, -1, -1, -1, -1, -1, -1, -1, -1, -1, -1, -1, -1]

/-- An access to the alphabet. -/
def digit (n : Nat) : UInt8 := alphabet.getD n 0

/-- base64.cpp:27 -/
def enc0 (a : Nat) : Nat := (a &&& 0xfc) >>> 2

/-- base64.cpp:28 -/
def enc1 (a b : Nat) : Nat := ((a &&& 0x03) <<< 4) + ((b &&& 0xf0) >>> 4)

/-- base64.cpp:29 -/
def enc2 (b c : Nat) : Nat := ((c &&& 0xc0) >>> 6) + ((b &&& 0x0f) <<< 2)

/-- base64.cpp:30 -/
def enc3 (c : Nat) : Nat := c &&& 0x3f

/-- base64.cpp:23-50 `encode`: the bytes that are written. -/
def encodeBytes : List UInt8 → List UInt8
  | a :: b :: c :: rest =>
    digit (enc0 a.toNat) :: digit (enc1 a.toNat b.toNat) :: digit (enc2 b.toNat c.toNat) :: digit (enc3 c.toNat) :: encodeBytes rest
  | [a, b] => [digit (enc0 a.toNat), digit (enc1 a.toNat b.toNat), digit ((b.toNat &&& 0x0f) <<< 2), 61]
  | [a] => [digit (enc0 a.toNat), digit ((a.toNat &&& 0x03) <<< 4), 61, 61]
  | [] => []

/-- base64.hpp:42-44 `encoded_size` -/
def encodedSize (n : Nat) : Nat := 4 * ((n + 2) / 3)

/-- base64.hpp:47-49 `decoded_size` -/
def decodedSize (n : Nat) : Nat := n / 4 * 3

/-- base64.cpp:52-58 `encode`, for strings. -/
def encode (str : List UInt8) : Option (List UInt8) :=
  if (encodeBytes str).length ≤ encodedSize str.length then some (encodeBytes str) else none

/-- base64.cpp:73-75 and 82-84: the three bytes for four digits, as unsigned characters. -/
def dec (d0 d1 d2 d3 : Nat) : List UInt8 :=
  [UInt8.ofNat ((d0 <<< 2) + ((d1 &&& 0x30) >>> 4)), UInt8.ofNat (((d1 &&& 0xf) <<< 4) + ((d2 &&& 0x3c) >>> 2)),
   UInt8.ofNat (((d2 &&& 0x3) <<< 6) + d3)]

/-- base64.cpp:81-87: the bytes for fewer than four digits. The missing digits are not initialised; the
bytes that depend on them are not written. -/
def flushDigits (c4 : List Nat) : List UInt8 :=
  (dec (c4.getD 0 0) (c4.getD 1 0) (c4.getD 2 0) (c4.getD 3 0)).take (c4.length - 1)

/-- base64.cpp:66-87 `decode`: the bytes that are written, with the digits of an unfinished group. -/
def decodeBytes : List UInt8 → List Nat → List UInt8
  | [], c4 => flushDigits c4
  | x :: xs, c4 =>
    if x = 61 ∨ inverse.getD x.toNat (-1) = -1 then flushDigits c4
    else if c4.length + 1 = 4 then
      dec (c4.getD 0 0) (c4.getD 1 0) (c4.getD 2 0) (inverse.getD x.toNat (-1)).toNat ++ decodeBytes xs []
    else decodeBytes xs (c4 ++ [(inverse.getD x.toNat (-1)).toNat])

/-- base64.cpp:92-98 `decode`, for strings. -/
def decode (str : List UInt8) : Option (List UInt8) :=
  if (decodeBytes str []).length ≤ decodedSize str.length then some (decodeBytes str []) else none

end Verif.Base64
