import Verif.Hash.Sha1

/-
thirdparty/hash/md5.{h,c}: the incremental MD5 of the library.

`md5_process` reads its 64 bytes as sixteen little-endian words in each of its three branches
(aligned, copied, big-endian host; md5.c:146-194): they differ only in how the bytes are fetched, and
the model has one `word` for them.  `nbytes << 3` (md5.c:328) overflows an `int` from 2^28 bytes on,
which C leaves undefined: `append` yields `none` there.
-/
namespace Ltio.Hash.Md5

abbrev Word := BitVec 32

/-! ### Specification: RFC 1321, independent of the code -/
namespace Spec

/-- The word of four octets, least significant octet first (RFC 1321 section 2). -/
def leWord (a b c d : BitVec 8) : Word := d ++ c ++ b ++ a

/-- Section 3.4: F, G, H, I by round. -/
def fn (i : Nat) (x y z : Word) : Word :=
  if i < 16 then (x &&& y) ||| (~~~x &&& z)
  else if i < 32 then (x &&& z) ||| (y &&& ~~~z)
  else if i < 48 then x ^^^ y ^^^ z
  else y ^^^ (x ||| ~~~z)

/-- Section 3.4: the table T (`floor(4294967296 * abs(sin(i + 1)))`). -/
def T : List Word :=
  [0xd76aa478#32, 0xe8c7b756#32, 0x242070db#32, 0xc1bdceee#32, 0xf57c0faf#32, 0x4787c62a#32, 0xa8304613#32, 0xfd469501#32,
   0x698098d8#32, 0x8b44f7af#32, 0xffff5bb1#32, 0x895cd7be#32, 0x6b901122#32, 0xfd987193#32, 0xa679438e#32, 0x49b40821#32,
   0xf61e2562#32, 0xc040b340#32, 0x265e5a51#32, 0xe9b6c7aa#32, 0xd62f105d#32, 0x02441453#32, 0xd8a1e681#32, 0xe7d3fbc8#32,
   0x21e1cde6#32, 0xc33707d6#32, 0xf4d50d87#32, 0x455a14ed#32, 0xa9e3e905#32, 0xfcefa3f8#32, 0x676f02d9#32, 0x8d2a4c8a#32,
   0xfffa3942#32, 0x8771f681#32, 0x6d9d6122#32, 0xfde5380c#32, 0xa4beea44#32, 0x4bdecfa9#32, 0xf6bb4b60#32, 0xbebfbc70#32,
   0x289b7ec6#32, 0xeaa127fa#32, 0xd4ef3085#32, 0x04881d05#32, 0xd9d4d039#32, 0xe6db99e5#32, 0x1fa27cf8#32, 0xc4ac5665#32,
   0xf4292244#32, 0x432aff97#32, 0xab9423a7#32, 0xfc93a039#32, 0x655b59c3#32, 0x8f0ccc92#32, 0xffeff47d#32, 0x85845dd1#32,
   0x6fa87e4f#32, 0xfe2ce6e0#32, 0xa3014314#32, 0x4e0811a1#32, 0xf7537e82#32, 0xbd3af235#32, 0x2ad7d2bb#32, 0xeb86d391#32]

/-- Section 3.4: which word of the block operation `i` adds. -/
def k (i : Nat) : Nat :=
  if i < 16 then i else if i < 32 then (5 * i + 1) % 16 else if i < 48 then (3 * i + 5) % 16 else 7 * i % 16

/-- Section 3.4: the shift amounts, four per round in turn. -/
def s (i : Nat) : Nat :=
  (if i < 16 then [7, 12, 17, 22] else if i < 32 then [5, 9, 14, 20]
   else if i < 48 then [4, 11, 16, 23] else [6, 10, 15, 21]).getD (i % 4) 0

/-- The four registers A, B, C, D. -/
structure Vars where
  a : Word
  b : Word
  c : Word
  d : Word
  deriving DecidableEq

/-- Section 3.4: `a = b + ((a + f(b,c,d) + X[k] + T[i]) <<< s)`, and the registers take turns. -/
def step (X : Nat → Word) (v : Vars) (i : Nat) : Vars :=
  ⟨v.d, v.b + (v.a + fn i v.b v.c v.d + X (k i) + T.getD i 0).rotateLeft (s i), v.b, v.c⟩

/-- Section 3.4: one block. -/
def compress (H : Vars) (X : Nat → Word) : Vars :=
  let v := (List.range 64).foldl (step X) H
  ⟨H.a + v.a, H.b + v.b, H.c + v.c, H.d + v.d⟩

/-- Section 3.3: the initial registers (01 23 45 67, 89 ab cd ef, fe dc ba 98, 76 54 32 10, low-order
bytes first). -/
def H0 : Vars := ⟨0x67452301#32, 0xefcdab89#32, 0x98badcfe#32, 0x10325476#32⟩

/-- Word `j` of block `i`. -/
def blockWord (p : Nat → BitVec 8) (i j : Nat) : Word :=
  leWord (p (64 * i + 4 * j)) (p (64 * i + 4 * j + 1)) (p (64 * i + 4 * j + 2)) (p (64 * i + 4 * j + 3))

/-- The registers after `n` blocks of the octets `p`. -/
def hashBlocks (p : Nat → BitVec 8) : Nat → Vars
  | 0 => H0
  | n + 1 => compress (hashBlocks p n) (blockWord p n)

/-- The eight octets of a 64-bit number, least significant first. -/
def le64 (n : Nat) : List UInt8 :=
  [n % 256, n / 2 ^ 8 % 256, n / 2 ^ 16 % 256, n / 2 ^ 24 % 256,
   n / 2 ^ 32 % 256, n / 2 ^ 40 % 256, n / 2 ^ 48 % 256, n / 2 ^ 56 % 256].map UInt8.ofNat

/-- Sections 3.1 and 3.2: one 1 bit, 0 bits up to 56 octets modulo 64, and the length in bits (its low
64 bits). -/
def pad (m : List UInt8) : List UInt8 :=
  m ++ [0x80] ++ List.replicate ((119 - m.length % 64) % 64) 0 ++ le64 (8 * m.length)

/-- The octets of a word, least significant first. -/
def leBytes (w : Word) : List UInt8 :=
  [w.toNat % 256, w.toNat / 2 ^ 8 % 256, w.toNat / 2 ^ 16 % 256, w.toNat / 2 ^ 24 % 256].map UInt8.ofNat

/-- The octet at a position of a list (0 beyond its end). -/
def octet (m : List UInt8) (i : Nat) : BitVec 8 := (m.getD i 0).toBitVec

/-- Section 3.5: MD5 of an octet string. -/
def md5 (m : List UInt8) : List UInt8 :=
  let h := hashBlocks (octet (pad m)) ((pad m).length / 64)
  leBytes h.a ++ leBytes h.b ++ leBytes h.c ++ leBytes h.d

end Spec

/-! ### The code -/

/-- `T_MASK` (md5.c:64). -/
def tMask : Word := ~~~0#32

/-- One line `SET(a, b, c, d, k, s, Ti)`: the registers it names (a is 0 … d is 3), the word, the shift
and the constant. -/
structure Op where
  ra : Nat
  rb : Nat
  rc : Nat
  rd : Nat
  k : Nat
  s : Nat
  T : Word
  deriving DecidableEq

/-- The sixteen operations of round 1 (md5.c:207-222, constants 65-128). -/
def ops1 : List Op :=
  [⟨0, 1, 2, 3, 0, 7, (tMask ^^^ 0x28955b87#32)⟩, ⟨3, 0, 1, 2, 1, 12, (tMask ^^^ 0x173848a9#32)⟩,
   ⟨2, 3, 0, 1, 2, 17, 0x242070db#32⟩, ⟨1, 2, 3, 0, 3, 22, (tMask ^^^ 0x3e423111#32)⟩,
   ⟨0, 1, 2, 3, 4, 7, (tMask ^^^ 0x0a83f050#32)⟩, ⟨3, 0, 1, 2, 5, 12, 0x4787c62a#32⟩,
   ⟨2, 3, 0, 1, 6, 17, (tMask ^^^ 0x57cfb9ec#32)⟩, ⟨1, 2, 3, 0, 7, 22, (tMask ^^^ 0x02b96afe#32)⟩,
   ⟨0, 1, 2, 3, 8, 7, 0x698098d8#32⟩, ⟨3, 0, 1, 2, 9, 12, (tMask ^^^ 0x74bb0850#32)⟩,
   ⟨2, 3, 0, 1, 10, 17, (tMask ^^^ 0x0000a44e#32)⟩, ⟨1, 2, 3, 0, 11, 22, (tMask ^^^ 0x76a32841#32)⟩,
   ⟨0, 1, 2, 3, 12, 7, 0x6b901122#32⟩, ⟨3, 0, 1, 2, 13, 12, (tMask ^^^ 0x02678e6c#32)⟩,
   ⟨2, 3, 0, 1, 14, 17, (tMask ^^^ 0x5986bc71#32)⟩, ⟨1, 2, 3, 0, 15, 22, 0x49b40821#32⟩]

/-- The sixteen operations of round 2 (md5.c:233-248, constants 65-128). -/
def ops2 : List Op :=
  [⟨0, 1, 2, 3, 1, 5, (tMask ^^^ 0x09e1da9d#32)⟩, ⟨3, 0, 1, 2, 6, 9, (tMask ^^^ 0x3fbf4cbf#32)⟩,
   ⟨2, 3, 0, 1, 11, 14, 0x265e5a51#32⟩, ⟨1, 2, 3, 0, 0, 20, (tMask ^^^ 0x16493855#32)⟩,
   ⟨0, 1, 2, 3, 5, 5, (tMask ^^^ 0x29d0efa2#32)⟩, ⟨3, 0, 1, 2, 10, 9, 0x02441453#32⟩,
   ⟨2, 3, 0, 1, 15, 14, (tMask ^^^ 0x275e197e#32)⟩, ⟨1, 2, 3, 0, 4, 20, (tMask ^^^ 0x182c0437#32)⟩,
   ⟨0, 1, 2, 3, 9, 5, 0x21e1cde6#32⟩, ⟨3, 0, 1, 2, 14, 9, (tMask ^^^ 0x3cc8f829#32)⟩,
   ⟨2, 3, 0, 1, 3, 14, (tMask ^^^ 0x0b2af278#32)⟩, ⟨1, 2, 3, 0, 8, 20, 0x455a14ed#32⟩,
   ⟨0, 1, 2, 3, 13, 5, (tMask ^^^ 0x561c16fa#32)⟩, ⟨3, 0, 1, 2, 2, 9, (tMask ^^^ 0x03105c07#32)⟩,
   ⟨2, 3, 0, 1, 7, 14, 0x676f02d9#32⟩, ⟨1, 2, 3, 0, 12, 20, (tMask ^^^ 0x72d5b375#32)⟩]

/-- The sixteen operations of round 3 (md5.c:259-274, constants 65-128). -/
def ops3 : List Op :=
  [⟨0, 1, 2, 3, 5, 4, (tMask ^^^ 0x0005c6bd#32)⟩, ⟨3, 0, 1, 2, 8, 11, (tMask ^^^ 0x788e097e#32)⟩,
   ⟨2, 3, 0, 1, 11, 16, 0x6d9d6122#32⟩, ⟨1, 2, 3, 0, 14, 23, (tMask ^^^ 0x021ac7f3#32)⟩,
   ⟨0, 1, 2, 3, 1, 4, (tMask ^^^ 0x5b4115bb#32)⟩, ⟨3, 0, 1, 2, 4, 11, 0x4bdecfa9#32⟩,
   ⟨2, 3, 0, 1, 7, 16, (tMask ^^^ 0x0944b49f#32)⟩, ⟨1, 2, 3, 0, 10, 23, (tMask ^^^ 0x4140438f#32)⟩,
   ⟨0, 1, 2, 3, 13, 4, 0x289b7ec6#32⟩, ⟨3, 0, 1, 2, 0, 11, (tMask ^^^ 0x155ed805#32)⟩,
   ⟨2, 3, 0, 1, 3, 16, (tMask ^^^ 0x2b10cf7a#32)⟩, ⟨1, 2, 3, 0, 6, 23, 0x04881d05#32⟩,
   ⟨0, 1, 2, 3, 9, 4, (tMask ^^^ 0x262b2fc6#32)⟩, ⟨3, 0, 1, 2, 12, 11, (tMask ^^^ 0x1924661a#32)⟩,
   ⟨2, 3, 0, 1, 15, 16, 0x1fa27cf8#32⟩, ⟨1, 2, 3, 0, 2, 23, (tMask ^^^ 0x3b53a99a#32)⟩]

/-- The sixteen operations of round 4 (md5.c:285-300, constants 65-128). -/
def ops4 : List Op :=
  [⟨0, 1, 2, 3, 0, 6, (tMask ^^^ 0x0bd6ddbb#32)⟩, ⟨3, 0, 1, 2, 7, 10, 0x432aff97#32⟩,
   ⟨2, 3, 0, 1, 14, 15, (tMask ^^^ 0x546bdc58#32)⟩, ⟨1, 2, 3, 0, 5, 21, (tMask ^^^ 0x036c5fc6#32)⟩,
   ⟨0, 1, 2, 3, 12, 6, 0x655b59c3#32⟩, ⟨3, 0, 1, 2, 3, 10, (tMask ^^^ 0x70f3336d#32)⟩,
   ⟨2, 3, 0, 1, 10, 15, (tMask ^^^ 0x00100b82#32)⟩, ⟨1, 2, 3, 0, 1, 21, (tMask ^^^ 0x7a7ba22e#32)⟩,
   ⟨0, 1, 2, 3, 8, 6, 0x6fa87e4f#32⟩, ⟨3, 0, 1, 2, 15, 10, (tMask ^^^ 0x01d3191f#32)⟩,
   ⟨2, 3, 0, 1, 6, 15, (tMask ^^^ 0x5cfebceb#32)⟩, ⟨1, 2, 3, 0, 13, 21, 0x4e0811a1#32⟩,
   ⟨0, 1, 2, 3, 4, 6, (tMask ^^^ 0x08ac817d#32)⟩, ⟨3, 0, 1, 2, 11, 10, (tMask ^^^ 0x42c50dca#32)⟩,
   ⟨2, 3, 0, 1, 2, 15, 0x2ad7d2bb#32⟩, ⟨1, 2, 3, 0, 9, 21, (tMask ^^^ 0x14792c6e#32)⟩]

/-- `ROTATE_LEFT` (md5.c:197). -/
def rotl (x : Word) (n : Nat) : Word := (x <<< n) ||| (x >>> (32 - n))

/-- `F` (md5.c:202). -/
def fF (x y z : Word) : Word := (x &&& y) ||| (~~~x &&& z)
/-- `G` (md5.c:228). -/
def fG (x y z : Word) : Word := (x &&& z) ||| (y &&& ~~~z)
/-- `H` (md5.c:254). -/
def fH (x y z : Word) : Word := x ^^^ y ^^^ z
/-- `I` (md5.c:280). -/
def fI (x y z : Word) : Word := y ^^^ (x ||| ~~~z)

/-- `SET` (md5.c:203-205, 229-231, 255-257, 281-283): `t = a + F(b,c,d) + X[k] + Ti;
a = ROTATE_LEFT(t, s) + b`, on registers kept by number. -/
def setOp (F : Word → Word → Word → Word) (X : Nat → Word) (r : Nat → Word) (o : Op) : Nat → Word :=
  fun j => if j = o.ra then rotl (r o.ra + F (r o.rb) (r o.rc) (r o.rd) + X o.k + o.T) o.s + r o.rb else r j

/-- The word `X[k]` of 64 bytes (md5.c:146-194). -/
def word (data : Nat → BitVec 8) (k : Nat) : Word :=
  data (4 * k + 3) ++ data (4 * k + 2) ++ data (4 * k + 1) ++ data (4 * k)

/-- The 64 operations (md5.c:200-300). -/
def rounds (X : Nat → Word) (r : Nat → Word) : Nat → Word :=
  ops4.foldl (setOp fI X) (ops3.foldl (setOp fH X) (ops2.foldl (setOp fG X) (ops1.foldl (setOp fF X) r)))

/-- The registers by number (md5.c:134-136). -/
def regs (h : Spec.Vars) : Nat → Word := fun j => if j = 0 then h.a else if j = 1 then h.b else if j = 2 then h.c else h.d

/-- `md5_state_t` (md5.h:67-71).  `oob` records whether a byte was ever stored outside `buf`. -/
structure St where
  count0 : BitVec 32
  count1 : BitVec 32
  abcd : Spec.Vars
  buf : Nat → BitVec 8
  oob : Bool

/-- The new `abcd` of `md5_process` (md5.c:303-309). -/
def processed (h : Spec.Vars) (data : Nat → BitVec 8) : Spec.Vars :=
  ⟨h.a + rounds (word data) (regs h) 0, h.b + rounds (word data) (regs h) 1,
   h.c + rounds (word data) (regs h) 2, h.d + rounds (word data) (regs h) 3⟩

/-- `md5_process` (md5.c:131-310). -/
def process (s : St) (data : Nat → BitVec 8) : St :=
  ⟨s.count0, s.count1, processed s.abcd data, s.buf, s.oob⟩

/-- `md5_init` (md5.c:312-320); `buf` keeps whatever bytes it held. -/
def init (g : Nat → BitVec 8) : St :=
  ⟨0#32, 0#32, ⟨0x67452301#32, tMask ^^^ 0x10325476#32, tMask ^^^ 0x67452301#32, 0x10325476#32⟩, g, false⟩

/-- The bytes `data[0], data[1], …` of an array. -/
def arr (d : List UInt8) (i : Nat) : BitVec 8 := (d.getD i 0).toBitVec

/-- `memcpy(pms->buf + offset, p, n)` (md5.c:341, 357). -/
def copyIn (s : St) (offset : Nat) (d : List UInt8) (n : Nat) : St :=
  ⟨s.count0, s.count1, s.abcd,
   fun i => if offset ≤ i ∧ i < offset + n then arr d (i - offset) else s.buf i,
   s.oob || decide (64 < offset + n)⟩

/-- The loop over full blocks (md5.c:350-351), with what is left. -/
def fullBlocks (s : St) (d : List UInt8) : St × List UInt8 :=
  if 64 ≤ d.length then fullBlocks (process s (arr d)) (d.drop 64) else (s, d)
termination_by d.length
decreasing_by simp only [List.length_drop]; omega

/-- Full blocks and the final partial block (md5.c:349-357). -/
def appendTail (s : St) (d : List UInt8) : St :=
  if (fullBlocks s d).2.length ≠ 0 then
    copyIn (fullBlocks s d).1 0 (fullBlocks s d).2 (fullBlocks s d).2.length
  else (fullBlocks s d).1

/-- The message length (md5.c:334-337). -/
def addCount (s : St) (nbytes : Nat) : St :=
  ⟨s.count0 + BitVec.ofNat 32 (nbytes <<< 3),
   (s.count1 + BitVec.ofNat 32 (nbytes >>> 29)) +
     (if s.count0 + BitVec.ofNat 32 (nbytes <<< 3) < BitVec.ofNat 32 (nbytes <<< 3) then 1#32 else 0#32),
   s.abcd, s.buf, s.oob⟩

/-- How much of the data the initial partial block takes (md5.c:340). -/
def copyLen (offset nbytes : Nat) : Nat := if offset + nbytes > 64 then 64 - offset else nbytes

/-- After the length: initial partial block, full blocks, final partial block (md5.c:339-357). -/
def appendData (s : St) (offset : Nat) (d : List UInt8) : St :=
  if offset ≠ 0 then
    if offset + copyLen offset d.length < 64 then copyIn s offset d (copyLen offset d.length)
    else appendTail (process (copyIn s offset d (copyLen offset d.length))
      (copyIn s offset d (copyLen offset d.length)).buf) (d.drop (copyLen offset d.length))
  else appendTail s d

/-- `md5_append` (md5.c:322-358). -/
def append (s : St) (d : List UInt8) : Option St :=
  if 2 ^ 28 ≤ d.length then none                     -- `nbytes << 3` overflows
  else if d.length ≤ 0 then some s
  else some (appendData (addCount s d.length) ((s.count0 >>> 3) &&& 63#32).toNat d)

/-- Several calls of `md5_append`. -/
def appends (s : St) : List (List UInt8) → Option St
  | [] => some s
  | d :: ds => (append s d).bind (fun s' => appends s' ds)

/-- The static array `pad` (md5.c:363-368). -/
def padTable : List UInt8 := 0x80 :: List.replicate 63 0

/-- `data[i]` (md5.c:372-374): the low octets of `count[i >> 2] >> ((i & 3) << 3)`. -/
def countBytes (s : St) : List UInt8 :=
  (List.range 8).map (fun i =>
    UInt8.ofBitVec (((if i >>> 2 = 0 then s.count0 else s.count1) >>> ((i &&& 3) <<< 3)).truncate 8))

/-- How much padding (md5.c:376): unsigned arithmetic. -/
def padLen (s : St) : Nat := (((55#32 - (s.count0 >>> 3)) &&& 63#32) + 1#32).toNat

/-- One word of the digest (md5.c:379-380). -/
def wordBytes (w : Word) : List UInt8 :=
  [UInt8.ofBitVec ((w >>> 0).truncate 8), UInt8.ofBitVec ((w >>> 8).truncate 8),
   UInt8.ofBitVec ((w >>> 16).truncate 8), UInt8.ofBitVec ((w >>> 24).truncate 8)]

/-- The state at the end of `md5_finish` (md5.c:360-378). -/
def finishSt (s : St) : Option St :=
  (append s (padTable.take (padLen s))).bind (fun s1 => append s1 (countBytes s))

/-- `md5_finish` (md5.c:360-381). -/
def finish (s : St) : Option (List UInt8) :=
  (finishSt s).map (fun t =>
    wordBytes t.abcd.a ++ wordBytes t.abcd.b ++ wordBytes t.abcd.c ++ wordBytes t.abcd.d)

/-! ### One block -/

/-- The operation RFC 1321 prescribes at step `i`. -/
def specOp (i : Nat) : Op :=
  ⟨(4 - i % 4) % 4, (5 - i % 4) % 4, (6 - i % 4) % 4, (7 - i % 4) % 4, Spec.k i, Spec.s i, Spec.T.getD i 0⟩

theorem ops1_spec : ops1 = (List.range' 0 16).map specOp := by decide +kernel
theorem ops2_spec : ops2 = (List.range' 16 16).map specOp := by decide +kernel
theorem ops3_spec : ops3 = (List.range' 32 16).map specOp := by decide +kernel
theorem ops4_spec : ops4 = (List.range' 48 16).map specOp := by decide +kernel

theorem s_lt (i : Nat) : Spec.s i < 32 := by
  unfold Spec.s
  have h : i % 4 < 4 := Nat.mod_lt _ (by omega)
  generalize i % 4 = m at h
  have hm : m = 0 ∨ m = 1 ∨ m = 2 ∨ m = 3 := by omega
  rcases hm with rfl | rfl | rfl | rfl <;> (repeat' split) <;> decide

theorem rotl_eq (x : Word) (n : Nat) (h : n < 32) : rotl x n = x.rotateLeft n := by
  rw [BitVec.rotateLeft_def, Nat.mod_eq_of_lt h]
  rfl

/-- The registers by number hold the RFC's A, B, C, D, shifted by the number of steps done. -/
structure Rel (i : Nat) (r : Nat → Word) (v : Spec.Vars) : Prop where
  ha : r ((4 - i % 4) % 4) = v.a
  hb : r ((5 - i % 4) % 4) = v.b
  hc : r ((6 - i % 4) % 4) = v.c
  hd : r ((7 - i % 4) % 4) = v.d

theorem rel_step (F : Word → Word → Word → Word) (X : Nat → Word) (i : Nat) (r : Nat → Word) (v : Spec.Vars)
    (hF : F = Spec.fn i) (h : Rel i r v) : Rel (i + 1) (setOp F X r (specOp i)) (Spec.step X v i) := by
  obtain ⟨ha, hb, hc, hd⟩ := h
  have h4 : i % 4 < 4 := Nat.mod_lt _ (by omega)
  unfold setOp specOp Spec.step
  rw [rotl_eq _ _ (s_lt i)]
  subst hF
  simp only [ha, hb, hc, hd]
  constructor
  · rw [if_neg (by omega), ← hd]; congr 1; omega
  · rw [if_pos (by omega), BitVec.add_comm]
  · rw [if_neg (by omega), ← hb]; congr 1; omega
  · rw [if_neg (by omega), ← hc]; congr 1; omega

theorem rel_steps (F : Word → Word → Word → Word) (X : Nat → Word) (i n : Nat) (r : Nat → Word) (v : Spec.Vars)
    (hF : ∀ j, i ≤ j → j < i + n → F = Spec.fn j) (h : Rel i r v) :
    Rel (i + n) (((List.range' i n).map specOp).foldl (setOp F X) r) ((List.range' i n).foldl (Spec.step X) v) := by
  induction n with
  | zero => exact h
  | succ n ih =>
    have h1 := ih (fun j h1 h2 => hF j h1 (by omega))
    rw [List.range'_concat, List.map_append, List.foldl_append, List.foldl_append]
    simp only [Nat.one_mul, List.map_cons, List.map_nil, List.foldl_cons, List.foldl_nil]
    exact rel_step F X (i + n) _ _ (hF _ (by omega) (by omega)) h1

theorem fn1 (j : Nat) (h : j < 16) : fF = Spec.fn j := by
  funext x y z; unfold Spec.fn; rw [if_pos h]; rfl
theorem fn2 (j : Nat) (h1 : 16 ≤ j) (h : j < 32) : fG = Spec.fn j := by
  funext x y z; unfold Spec.fn; rw [if_neg (by omega), if_pos h]; rfl
theorem fn3 (j : Nat) (h1 : 32 ≤ j) (h : j < 48) : fH = Spec.fn j := by
  funext x y z; unfold Spec.fn; rw [if_neg (by omega), if_neg (by omega), if_pos h]; rfl
theorem fn4 (j : Nat) (h1 : 48 ≤ j) : fI = Spec.fn j := by
  funext x y z; unfold Spec.fn; rw [if_neg (by omega), if_neg (by omega), if_neg (by omega)]; rfl

theorem range64 : List.range 64 = List.range' 0 16 ++ List.range' 16 16 ++ List.range' 32 16 ++ List.range' 48 16 := by
  decide

theorem rounds_rel (X : Nat → Word) (h : Spec.Vars) :
    Rel 64 (rounds X (regs h)) ((List.range 64).foldl (Spec.step X) h) := by
  have h0 : Rel 0 (regs h) h := ⟨rfl, rfl, rfl, rfl⟩
  have h1 := rel_steps fF X 0 16 _ _ (fun j _ hj => fn1 j (by omega)) h0
  have h2 := rel_steps fG X 16 16 _ _ (fun j _ hj => fn2 j (by omega) (by omega)) h1
  have h3 := rel_steps fH X 32 16 _ _ (fun j _ hj => fn3 j (by omega) (by omega)) h2
  have h4 := rel_steps fI X 48 16 _ _ (fun j _ hj => fn4 j (by omega)) h3
  rw [range64, List.foldl_append, List.foldl_append, List.foldl_append]
  unfold rounds
  rw [ops1_spec, ops2_spec, ops3_spec, ops4_spec]
  exact h4

theorem processed_spec (h : Spec.Vars) (data : Nat → BitVec 8) :
    processed h data = Spec.compress h (word data) := by
  have hr := rounds_rel (word data) h
  obtain ⟨ha, hb, hc, hd⟩ := hr
  unfold processed Spec.compress
  simp only []
  rw [← ha, ← hb, ← hc, ← hd]

theorem step_congr (X X' : Nat → Word) (h : ∀ j < 16, X j = X' j) : Spec.step X = Spec.step X' := by
  funext v i
  have hk : Spec.k i < 16 := by
    unfold Spec.k
    repeat' split
    all_goals omega
  unfold Spec.step
  rw [h _ hk]

theorem compress_congr (H : Spec.Vars) (X X' : Nat → Word) (h : ∀ j < 16, X j = X' j) :
    Spec.compress H X = Spec.compress H X' := by
  unfold Spec.compress
  rw [step_congr X X' h]

/-- 64 bytes equal to block `q` of a stream. -/
theorem processed_block (p data : Nat → BitVec 8) (q : Nat) (h : ∀ i < 64, data i = p (64 * q + i)) :
    processed (Spec.hashBlocks p q) data = Spec.hashBlocks p (q + 1) := by
  rw [processed_spec, Spec.hashBlocks]
  refine compress_congr _ _ _ (fun j hj => ?_)
  have h0 := h (4 * j) (by omega)
  have h1 := h (4 * j + 1) (by omega)
  have h2 := h (4 * j + 2) (by omega)
  have h3 := h (4 * j + 3) (by omega)
  unfold word
  rw [h0, h1, h2, h3]
  rfl

/-! ### The stream of bytes -/

attribute [local irreducible] processed Spec.compress

/-- The state has absorbed `n` bytes of the stream `p` (the length is not part of this). -/
structure At (p : Nat → BitVec 8) (n : Nat) (s : St) : Prop where
  hH : s.abcd = Spec.hashBlocks p (n / 64)
  hm : ∀ i < n % 64, s.buf i = p (64 * (n / 64) + i)
  ok : s.oob = false

/-- The length counter holds `8 n`. -/
def Counts (n : Nat) (s : St) : Prop :=
  s.count0 = BitVec.ofNat 32 (8 * n) ∧ s.count1 = BitVec.ofNat 32 (8 * n / 2 ^ 32)

theorem process_abcd (s : St) (data : Nat → BitVec 8) : (process s data).abcd = processed s.abcd data := by rw [process]
theorem process_oob (s : St) (data : Nat → BitVec 8) : (process s data).oob = s.oob := by rw [process]
theorem process_count0 (s : St) (data : Nat → BitVec 8) : (process s data).count0 = s.count0 := by rw [process]
theorem process_count1 (s : St) (data : Nat → BitVec 8) : (process s data).count1 = s.count1 := by rw [process]

attribute [local irreducible] process

theorem at_fullBlocks (p : Nat → BitVec 8) (d : List UInt8) (q : Nat) (s : St) (h : At p (64 * q) s)
    (hd : ∀ i < d.length, arr d i = p (64 * q + i)) :
    ∃ k, d.length = 64 * k + (fullBlocks s d).2.length ∧ (fullBlocks s d).2.length < 64 ∧
      At p (64 * (q + k)) (fullBlocks s d).1 ∧
      (∀ i < (fullBlocks s d).2.length, arr (fullBlocks s d).2 i = p (64 * (q + k) + i)) ∧
      (fullBlocks s d).1.count0 = s.count0 ∧ (fullBlocks s d).1.count1 = s.count1 := by
  induction hn : d.length using Nat.strongRecOn generalizing d q s with
  | ind n ih =>
    rw [fullBlocks.eq_def]
    by_cases hl : 64 ≤ d.length
    · rw [if_pos hl]
      have q1 : 64 * q / 64 = q := by omega
      have q2 : 64 * (q + 1) / 64 = q + 1 := by omega
      have hp : At p (64 * (q + 1)) (process s (arr d)) := by
        refine ⟨?_, fun i hi => absurd hi (by omega), (process_oob s _).trans h.ok⟩
        rw [process_abcd, h.hH, q1, q2]
        exact processed_block p (arr d) q (fun i hi => hd i (by omega))
      obtain ⟨k, h1, h2, h3, h4, h5, h6⟩ := ih (n - 64) (by omega) (d.drop 64) (q + 1) _ hp (by
        intro i hi
        rw [List.length_drop] at hi
        have := hd (64 + i) (by omega)
        unfold arr at this ⊢
        rw [List.getD_eq_getElem?_getD, List.getElem?_drop, ← List.getD_eq_getElem?_getD, this]
        congr 1; omega) (by rw [List.length_drop, hn])
      rw [process_count0] at h5
      rw [process_count1] at h6
      refine ⟨k + 1, by omega, h2, ?_, ?_, h5, h6⟩
      · have e : q + (k + 1) = q + 1 + k := by omega
        rw [e]; exact h3
      · have e : q + (k + 1) = q + 1 + k := by omega
        rw [e]; exact h4
    · rw [if_neg hl]
      exact ⟨0, by simp only []; omega, by simp only []; omega, by simpa using h, by simpa using hd, rfl, rfl⟩

theorem at_copy (p : Nat → BitVec 8) (n k : Nat) (d : List UInt8) (s : St) (h : At p n s) (hk : n % 64 + k < 64)
    (hd : ∀ i < k, arr d i = p (n + i)) : At p (n + k) (copyIn s (n % 64) d k) := by
  have e1 : (n + k) / 64 = n / 64 := by omega
  have e2 : (n + k) % 64 = n % 64 + k := by omega
  refine ⟨?_, ?_, ?_⟩
  · rw [e1]; exact h.hH
  · intro i hi
    rw [e2] at hi
    rw [e1]
    simp only [copyIn]
    by_cases hc : n % 64 ≤ i ∧ i < n % 64 + k
    · rw [if_pos hc, hd _ (by omega)]; congr 1; omega
    · rw [if_neg hc]; exact h.hm i (by omega)
  · simp only [copyIn, h.ok, Bool.false_or, decide_eq_false_iff_not]; omega

theorem at_appendTail (p : Nat → BitVec 8) (d : List UInt8) (q : Nat) (s : St) (h : At p (64 * q) s)
    (hd : ∀ i < d.length, arr d i = p (64 * q + i)) :
    At p (64 * q + d.length) (appendTail s d) ∧
      (appendTail s d).count0 = s.count0 ∧ (appendTail s d).count1 = s.count1 := by
  obtain ⟨k, h1, h2, h3, h4, h5, h6⟩ := at_fullBlocks p d q s h hd
  unfold appendTail
  by_cases hl : (fullBlocks s d).2.length ≠ 0
  · rw [if_pos hl]
    have hz : (64 * (q + k)) % 64 = 0 := by omega
    have := at_copy p (64 * (q + k)) (fullBlocks s d).2.length (fullBlocks s d).2 _ h3 (by omega) h4
    rw [hz] at this
    have e : 64 * (q + k) + (fullBlocks s d).2.length = 64 * q + d.length := by omega
    rw [e] at this
    exact ⟨this, h5, h6⟩
  · rw [if_neg hl]
    have e : 64 * (q + k) = 64 * q + d.length := by omega
    rw [e] at h3
    exact ⟨h3, h5, h6⟩

theorem at_appendData (p : Nat → BitVec 8) (d : List UInt8) (n : Nat) (s : St) (h : At p n s)
    (hd : ∀ i < d.length, arr d i = p (n + i)) :
    At p (n + d.length) (appendData s (n % 64) d) ∧
      (appendData s (n % 64) d).count0 = s.count0 ∧ (appendData s (n % 64) d).count1 = s.count1 := by
  unfold appendData
  by_cases ho : n % 64 ≠ 0
  · rw [if_pos ho]
    unfold copyLen
    by_cases hb : n % 64 + d.length > 64
    · rw [if_pos hb, if_neg (by omega)]
      have hp : At p (64 * (n / 64 + 1)) (process (copyIn s (n % 64) d (64 - n % 64))
          (copyIn s (n % 64) d (64 - n % 64)).buf) := by
        refine ⟨?_, fun i hi => absurd hi (by omega), ?_⟩
        · have e : 64 * (n / 64 + 1) / 64 = n / 64 + 1 := by omega
          rw [e, process_abcd, copyIn]
          simp only []
          rw [h.hH]
          apply processed_block
          intro i hi
          by_cases hc : n % 64 ≤ i ∧ i < n % 64 + (64 - n % 64)
          · rw [if_pos hc, hd _ (by omega)]; congr 1; omega
          · rw [if_neg hc]; exact h.hm i (by omega)
        · simp only [process_oob, copyIn, h.ok, Bool.false_or, decide_eq_false_iff_not]; omega
      have ht := at_appendTail p (d.drop (64 - n % 64)) (n / 64 + 1) _ hp (by
        intro i hi
        rw [List.length_drop] at hi
        have := hd (64 - n % 64 + i) (by omega)
        unfold arr at this ⊢
        rw [List.getD_eq_getElem?_getD, List.getElem?_drop, ← List.getD_eq_getElem?_getD, this]
        congr 1; omega)
      have e : 64 * (n / 64 + 1) + (d.drop (64 - n % 64)).length = n + d.length := by
        rw [List.length_drop]; omega
      rw [e, process_count0, process_count1] at ht
      exact ht
    · rw [if_neg hb]
      by_cases hs : n % 64 + d.length < 64
      · rw [if_pos hs]
        exact ⟨at_copy p n d.length d s h hs hd, rfl, rfl⟩
      · rw [if_neg hs]
        have hp : At p (64 * (n / 64 + 1)) (process (copyIn s (n % 64) d d.length)
            (copyIn s (n % 64) d d.length).buf) := by
          refine ⟨?_, fun i hi => absurd hi (by omega), ?_⟩
          · have e : 64 * (n / 64 + 1) / 64 = n / 64 + 1 := by omega
            rw [e, process_abcd, copyIn]
            simp only []
            rw [h.hH]
            apply processed_block
            intro i hi
            by_cases hc : n % 64 ≤ i ∧ i < n % 64 + d.length
            · rw [if_pos hc, hd _ (by omega)]; congr 1; omega
            · rw [if_neg hc]; exact h.hm i (by omega)
          · simp only [process_oob, copyIn, h.ok, Bool.false_or, decide_eq_false_iff_not]; omega
        have ht := at_appendTail p (d.drop d.length) (n / 64 + 1) _ hp (by
          intro i hi
          rw [List.length_drop] at hi
          omega)
        have e : 64 * (n / 64 + 1) + (d.drop d.length).length = n + d.length := by
          rw [List.length_drop]; omega
        rw [e, process_count0, process_count1] at ht
        exact ht
  · rw [if_neg ho]
    have e : n = 64 * (n / 64) := by omega
    have h' : At p (64 * (n / 64)) s := e ▸ h
    have := at_appendTail p d (n / 64) s h' (by
      intro i hi; rw [hd i hi]; congr 1; omega)
    rw [← e] at this
    exact this

theorem counts_add (n k : Nat) (s : St) (h : Counts n s) : Counts (n + k) (addCount s k) := by
  obtain ⟨h0, h1⟩ := h
  have e0 : k <<< 3 = 8 * k := by rw [Nat.shiftLeft_eq]; omega
  have e1 : k >>> 29 = 8 * k / 2 ^ 32 := by rw [Nat.shiftRight_eq_div_pow]; omega
  unfold Counts addCount
  simp only [h0, h1, e0, e1]
  constructor
  · apply BitVec.eq_of_toNat_eq
    simp only [BitVec.toNat_add, BitVec.toNat_ofNat]
    omega
  · by_cases hc : BitVec.ofNat 32 (8 * n) + BitVec.ofNat 32 (8 * k) < BitVec.ofNat 32 (8 * k)
    · rw [if_pos hc]
      rw [BitVec.lt_def] at hc
      simp only [BitVec.toNat_add, BitVec.toNat_ofNat] at hc
      apply BitVec.eq_of_toNat_eq
      simp only [BitVec.toNat_add, BitVec.toNat_ofNat]
      omega
    · rw [if_neg hc]
      rw [BitVec.lt_def] at hc
      simp only [BitVec.toNat_add, BitVec.toNat_ofNat] at hc
      apply BitVec.eq_of_toNat_eq
      simp only [BitVec.toNat_add, BitVec.toNat_ofNat]
      omega

theorem and63 (x : BitVec 32) : (x &&& 63#32).toNat = x.toNat % 64 := by
  rw [BitVec.toNat_and]
  have : (63#32).toNat = 2 ^ 6 - 1 := by decide
  rw [this, Nat.and_two_pow_sub_one_eq_mod]

theorem offset_eq (n : Nat) (s : St) (h : Counts n s) : ((s.count0 >>> 3) &&& 63#32).toNat = n % 64 := by
  rw [and63, BitVec.toNat_ushiftRight, h.1, BitVec.toNat_ofNat, Nat.shiftRight_eq_div_pow]
  omega

theorem at_append (p : Nat → BitVec 8) (d : List UInt8) (n : Nat) (s : St) (h : At p n s) (hc : Counts n s)
    (hl : d.length < 2 ^ 28) (hd : ∀ i < d.length, arr d i = p (n + i)) :
    ∃ t, append s d = some t ∧ At p (n + d.length) t ∧ Counts (n + d.length) t := by
  unfold append
  rw [if_neg (by omega)]
  by_cases hz : d.length ≤ 0
  · rw [if_pos hz]
    have : d.length = 0 := by omega
    rw [this]
    exact ⟨s, rfl, h, hc⟩
  · rw [if_neg hz, offset_eq n s hc]
    have h' : At p n (addCount s d.length) := ⟨h.hH, h.hm, h.ok⟩
    have := at_appendData p d n _ h' hd
    have hc' := counts_add n d.length s hc
    refine ⟨_, rfl, this.1, ?_, ?_⟩
    · rw [this.2.1]; exact hc'.1
    · rw [this.2.2]; exact hc'.2

theorem at_appends (p : Nat → BitVec 8) (ds : List (List UInt8)) (n : Nat) (s : St) (h : At p n s) (hc : Counts n s)
    (hl : ∀ d ∈ ds, d.length < 2 ^ 28) (hd : ∀ i < ds.flatten.length, arr ds.flatten i = p (n + i)) :
    ∃ t, appends s ds = some t ∧ At p (n + ds.flatten.length) t ∧ Counts (n + ds.flatten.length) t := by
  induction ds generalizing n s with
  | nil => exact ⟨s, rfl, h, hc⟩
  | cons d ds ih =>
    rw [List.flatten_cons, List.length_append] at hd
    obtain ⟨t, ht, h1, h2⟩ := at_append p d n s h hc (hl d (by simp)) (by
      intro i hi
      rw [← hd i (by omega)]
      unfold arr
      rw [List.getD_append _ _ _ _ hi])
    obtain ⟨u, hu, h3, h4⟩ := ih (n + d.length) t h1 h2 (fun x hx => hl x (by simp [hx])) (by
      intro i hi
      have := hd (d.length + i) (by omega)
      unfold arr at this ⊢
      rw [List.getD_append_right _ _ _ _ (by omega), Nat.add_sub_cancel_left] at this
      rw [this]; congr 1; omega)
    refine ⟨u, ?_, ?_, ?_⟩
    · rw [appends, ht]; exact hu
    · rw [List.flatten_cons, List.length_append, ← Nat.add_assoc]; exact h3
    · rw [List.flatten_cons, List.length_append, ← Nat.add_assoc]; exact h4

/-! ### Padding -/

theorem padLen_eq (n : Nat) (s : St) (h : Counts n s) : padLen s = 1 + (119 - n % 64) % 64 := by
  unfold padLen
  rw [BitVec.toNat_add, and63, BitVec.toNat_sub, BitVec.toNat_ushiftRight, h.1, BitVec.toNat_ofNat,
    Nat.shiftRight_eq_div_pow]
  simp only [BitVec.toNat_ofNat]
  omega

theorem padTable_take (k : Nat) (h : k < 64) : padTable.take (1 + k) = [0x80] ++ List.replicate k 0 := by
  unfold padTable
  rw [Nat.add_comm, List.take_succ_cons, List.take_replicate, Nat.min_eq_left (by omega)]
  rfl

theorem trunc_shift (w n k : Nat) (x : BitVec w) (hx : x.toNat = n % 2 ^ w) (hk : k + 8 ≤ w) :
    UInt8.ofBitVec ((x >>> k).truncate 8) = UInt8.ofNat (n / 2 ^ k % 256) := by
  apply UInt8.toNat_inj.mp
  simp only [UInt8.toNat_ofBitVec, BitVec.truncate_eq_setWidth, BitVec.toNat_setWidth, BitVec.toNat_ushiftRight, hx,
    Nat.shiftRight_eq_div_pow, UInt8.toNat_ofNat']
  have e1 : n % 2 ^ w / 2 ^ k = n / 2 ^ k % 2 ^ (w - k) := by
    have : 2 ^ w = 2 ^ k * 2 ^ (w - k) := by rw [← Nat.pow_add]; congr 1; omega
    rw [this, Nat.mod_mul_right_div_self]
  rw [e1, Nat.mod_mod_of_dvd _ (Nat.pow_dvd_pow 2 (by omega))]
  omega

theorem countBytes_eq (n : Nat) (s : St) (h : Counts n s) : countBytes s = Spec.le64 (8 * n) := by
  have e0 : s.count0.toNat = 8 * n % 2 ^ 32 := by rw [h.1, BitVec.toNat_ofNat]
  have e1 : s.count1.toNat = 8 * n / 2 ^ 32 % 2 ^ 32 := by rw [h.2, BitVec.toNat_ofNat]
  have hr : List.range 8 = [0, 1, 2, 3, 4, 5, 6, 7] := by decide
  unfold countBytes Spec.le64
  rw [hr]
  simp only [List.map_cons, List.map_nil]
  have hh : ∀ i j : Nat, i >>> 2 = j → (i >>> 2 = 0 ↔ j = 0) := by intro i j h; rw [h]
  simp only [show (0 >>> 2 = 0) = True by decide, show (1 >>> 2 = 0) = True by decide,
    show (2 >>> 2 = 0) = True by decide, show (3 >>> 2 = 0) = True by decide,
    show (4 >>> 2 = 0) = False by decide, show (5 >>> 2 = 0) = False by decide,
    show (6 >>> 2 = 0) = False by decide, show (7 >>> 2 = 0) = False by decide, if_true, if_false]
  rw [show ((0 : Nat) &&& 3) <<< 3 = 0 by decide, show ((1 : Nat) &&& 3) <<< 3 = 8 by decide,
    show ((2 : Nat) &&& 3) <<< 3 = 16 by decide, show ((3 : Nat) &&& 3) <<< 3 = 24 by decide,
    show ((4 : Nat) &&& 3) <<< 3 = 0 by decide, show ((5 : Nat) &&& 3) <<< 3 = 8 by decide,
    show ((6 : Nat) &&& 3) <<< 3 = 16 by decide, show ((7 : Nat) &&& 3) <<< 3 = 24 by decide]
  rw [trunc_shift 32 (8 * n) 0 s.count0 e0 (by omega), trunc_shift 32 (8 * n) 8 s.count0 e0 (by omega),
    trunc_shift 32 (8 * n) 16 s.count0 e0 (by omega), trunc_shift 32 (8 * n) 24 s.count0 e0 (by omega),
    trunc_shift 32 (8 * n / 2 ^ 32) 0 s.count1 e1 (by omega), trunc_shift 32 (8 * n / 2 ^ 32) 8 s.count1 e1 (by omega),
    trunc_shift 32 (8 * n / 2 ^ 32) 16 s.count1 e1 (by omega), trunc_shift 32 (8 * n / 2 ^ 32) 24 s.count1 e1 (by omega)]
  rw [Nat.div_div_eq_div_mul, Nat.div_div_eq_div_mul, Nat.div_div_eq_div_mul, Nat.div_div_eq_div_mul]
  rw [show 2 ^ 32 * 2 ^ 0 = 2 ^ 32 by decide, show 2 ^ 32 * 2 ^ 8 = 2 ^ 40 by decide,
    show 2 ^ 32 * 2 ^ 16 = 2 ^ 48 by decide, show 2 ^ 32 * 2 ^ 24 = 2 ^ 56 by decide, Nat.pow_zero, Nat.div_one]

theorem wordBytes_eq (w : Word) : wordBytes w = Spec.leBytes w := by
  have h : w.toNat = w.toNat % 2 ^ 32 := by have := w.isLt; omega
  unfold wordBytes Spec.leBytes
  rw [trunc_shift 32 w.toNat 0 w h (by omega), trunc_shift 32 w.toNat 8 w h (by omega),
    trunc_shift 32 w.toNat 16 w h (by omega), trunc_shift 32 w.toNat 24 w h (by omega), Nat.pow_zero, Nat.div_one]
  rfl

theorem at_init (p g : Nat → BitVec 8) : At p 0 (init g) :=
  ⟨rfl, fun i hi => absurd hi (by omega), rfl⟩

theorem counts_init (g : Nat → BitVec 8) : Counts 0 (init g) := ⟨rfl, rfl⟩

theorem pad_eq (m : List UInt8) (s : St) (h : Counts m.length s) :
    Spec.pad m = m ++ (padTable.take (padLen s) ++ countBytes s) := by
  rw [padLen_eq m.length s h, padTable_take _ (by omega), countBytes_eq m.length s h]
  unfold Spec.pad
  simp only [List.append_assoc]

theorem finish_at (m : List UInt8) (s : St) (h : At (Spec.octet (Spec.pad m)) m.length s) (hc : Counts m.length s) :
    ∃ t, finishSt s = some t ∧ At (Spec.octet (Spec.pad m)) (Spec.pad m).length t := by
  have hp := pad_eq m s hc
  have hlen : (padTable.take (padLen s)).length = padLen s := by
    rw [List.length_take]
    have := padLen_eq m.length s hc
    have e : padTable.length = 64 := rfl
    omega
  have hL := padLen_eq m.length s hc
  obtain ⟨t, ht, h1, h2⟩ := at_append _ (padTable.take (padLen s)) m.length s h hc (by omega) (by
    intro i hi
    unfold arr Spec.octet
    rw [hp, List.getD_append_right _ _ _ _ (by omega), Nat.add_sub_cancel_left, List.getD_append _ _ _ _ hi])
  have hcb : (countBytes s).length = 8 := by
    rw [countBytes_eq m.length s hc]; rfl
  obtain ⟨u, hu, h3, _⟩ := at_append _ (countBytes s) _ t h1 h2 (by omega) (by
    intro i hi
    unfold arr Spec.octet
    rw [hp, List.getD_append_right _ _ _ _ (by omega), Nat.add_assoc, Nat.add_sub_cancel_left,
      List.getD_append_right _ _ _ _ (by omega), Nat.add_sub_cancel_left])
  refine ⟨u, ?_, ?_⟩
  · unfold finishSt
    rw [ht]
    exact hu
  · have e : (Spec.pad m).length = m.length + (padTable.take (padLen s)).length + (countBytes s).length := by
      rw [hp, List.length_append, List.length_append, Nat.add_assoc]
    rw [e]
    exact h3

theorem getD_arr (m : List UInt8) (s : St) (h : Counts m.length s) (i : Nat) (hi : i < m.length) :
    arr m i = Spec.octet (Spec.pad m) i := by
  unfold arr Spec.octet
  rw [pad_eq m s h, List.getD_append _ _ _ _ hi]

theorem octet_pad (m : List UInt8) (i : Nat) (hi : i < m.length) : arr m i = Spec.octet (Spec.pad m) i := by
  unfold arr Spec.octet Spec.pad
  rw [List.append_assoc, List.append_assoc, List.getD_append _ _ _ _ hi]

/-- **C110 (MD5)**: however a message is divided into `md5_append` calls (each under 2^28 bytes, empty
ones included), whatever bytes the state held before `md5_init`, the digest is the RFC 1321 MD5 of the
whole message. -/
theorem c110_md5 (g : Nat → BitVec 8) (ds : List (List UInt8)) (hl : ∀ d ∈ ds, d.length < 2 ^ 28) :
    (appends (init g) ds).bind finish = some (Spec.md5 ds.flatten) := by
  obtain ⟨t, ht, h1, h2⟩ := at_appends (Spec.octet (Spec.pad ds.flatten)) ds 0 (init g) (at_init _ g) (counts_init g) hl
    (by intro i hi; rw [Nat.zero_add]; exact octet_pad _ i hi)
  rw [Nat.zero_add] at h1 h2
  obtain ⟨u, hu, h3⟩ := finish_at ds.flatten t h1 h2
  rw [ht, Option.bind_some]
  unfold finish
  rw [hu, Option.map_some, h3.hH]
  simp only [wordBytes_eq]
  unfold Spec.md5
  simp only []

/-- **C110 (no byte is stored outside the block buffer)**. -/
theorem c110_in_bounds (g : Nat → BitVec 8) (ds : List (List UInt8)) (hl : ∀ d ∈ ds, d.length < 2 ^ 28) :
    ∃ u, (appends (init g) ds).bind finishSt = some u ∧ u.oob = false := by
  obtain ⟨t, ht, h1, h2⟩ := at_appends (Spec.octet (Spec.pad ds.flatten)) ds 0 (init g) (at_init _ g) (counts_init g) hl
    (by intro i hi; rw [Nat.zero_add]; exact octet_pad _ i hi)
  rw [Nat.zero_add] at h1 h2
  obtain ⟨u, hu, h3⟩ := finish_at ds.flatten t h1 h2
  refine ⟨u, ?_, h3.ok⟩
  rw [ht, Option.bind_some, hu]

/-- **C110 (an append of 2^28 bytes or more is undefined)**: violation.  `md5_append` takes an `int`
length, but a length of 256 MiB already overflows the `int` shift that turns it into bits. -/
theorem c110_large_violated (s : St) (d : List UInt8) (h : 2 ^ 28 ≤ d.length) : append s d = none := by
  unfold append
  rw [if_pos h]

example : Spec.md5 [] = [0xd4, 0x1d, 0x8c, 0xd9, 0x8f, 0x00, 0xb2, 0x04,
    0xe9, 0x80, 0x09, 0x98, 0xec, 0xf8, 0x42, 0x7e] := by decide +kernel

/-- RFC 1321 appendix A.5: MD5 ("message digest"). -/
example : Spec.md5 ("message digest".toList.map (fun c => UInt8.ofNat c.toNat)) =
    [0xf9, 0x6b, 0x69, 0x7d, 0x7c, 0xb7, 0x93, 0x8d, 0x52, 0x5a, 0x2f, 0x31, 0xaa, 0xf1, 0x61, 0xd0] := by
  decide +kernel

/-- A message given in three calls that cross a block boundary. -/
example : ∀ d ∈ [List.replicate 60 (0x61 : UInt8), [], List.replicate 10 0x62], d.length < 2 ^ 28 := by decide +kernel

end Ltio.Hash.Md5
