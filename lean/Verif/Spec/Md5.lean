import Verif.Spec.Sha
/-!
# RFC 1321: MD5

Written from the RFC, independently of the model of the library.
-/
namespace Pgfe.Spec.Md5

/-- The `n` bytes of a number, least significant byte first (section 2). -/
def bytesLE (n x : Nat) : List Byte := (List.range n).map (fun i => BitVec.ofNat 8 (x / 256 ^ i))

/-- The number a byte string denotes, least significant byte first. -/
def natLE (l : List Byte) : Nat := l.foldr (fun b a => b.toNat + 256 * a) 0

/-- Sections 3.1 and 3.2: one byte 0x80, the fewest zero bytes that leave 8 bytes of the last
64-byte block, and the low-order 64 bits of the length in bits, low-order bytes first. -/
def pad (m : List Byte) : List Byte :=
  m ++ [0x80#8] ++ List.replicate (Pgfe.Spec.Sha.padZeros 64 8 m.length) 0x00#8
    ++ bytesLE 8 (8 * m.length % 2 ^ 64)

/-- The four auxiliary functions of section 3.4. -/
def F (x y z : W32) : W32 := (x &&& y) ||| (~~~x &&& z)
def G (x y z : W32) : W32 := (x &&& z) ||| (y &&& ~~~z)
def H (x y z : W32) : W32 := x ^^^ y ^^^ z
def I (x y z : W32) : W32 := y ^^^ (x ||| ~~~z)

/-- The table T[1 ... 64]: the integer part of 2^32 times abs(sin(i)), as printed in the appendix
of the RFC (md5.c, `MD5Transform`). -/
def T : List W32 := [
  0xd76aa478#32, 0xe8c7b756#32, 0x242070db#32, 0xc1bdceee#32, 0xf57c0faf#32, 0x4787c62a#32,
  0xa8304613#32, 0xfd469501#32, 0x698098d8#32, 0x8b44f7af#32, 0xffff5bb1#32, 0x895cd7be#32,
  0x6b901122#32, 0xfd987193#32, 0xa679438e#32, 0x49b40821#32, 0xf61e2562#32, 0xc040b340#32,
  0x265e5a51#32, 0xe9b6c7aa#32, 0xd62f105d#32, 0x02441453#32, 0xd8a1e681#32, 0xe7d3fbc8#32,
  0x21e1cde6#32, 0xc33707d6#32, 0xf4d50d87#32, 0x455a14ed#32, 0xa9e3e905#32, 0xfcefa3f8#32,
  0x676f02d9#32, 0x8d2a4c8a#32, 0xfffa3942#32, 0x8771f681#32, 0x6d9d6122#32, 0xfde5380c#32,
  0xa4beea44#32, 0x4bdecfa9#32, 0xf6bb4b60#32, 0xbebfbc70#32, 0x289b7ec6#32, 0xeaa127fa#32,
  0xd4ef3085#32, 0x04881d05#32, 0xd9d4d039#32, 0xe6db99e5#32, 0x1fa27cf8#32, 0xc4ac5665#32,
  0xf4292244#32, 0x432aff97#32, 0xab9423a7#32, 0xfc93a039#32, 0x655b59c3#32, 0x8f0ccc92#32,
  0xffeff47d#32, 0x85845dd1#32, 0x6fa87e4f#32, 0xfe2ce6e0#32, 0xa3014314#32, 0x4e0811a1#32,
  0xf7537e82#32, 0xbd3af235#32, 0x2ad7d2bb#32, 0xeb86d391#32]

/-- Section 3.4: the operation number `t` (counted from 0) uses function `fn t`, word `k t`, shift
`s t` and constant T[t + 1]. -/
def fn (t : Nat) : W32 → W32 → W32 → W32 :=
  if t < 16 then F else if t < 32 then G else if t < 48 then H else I

def k (t : Nat) : Nat :=
  if t < 16 then t else if t < 32 then (5 * t + 1) % 16 else if t < 48 then (3 * t + 5) % 16
  else 7 * t % 16

def s (t : Nat) : Nat :=
  if t < 16 then [7, 12, 17, 22].getD (t % 4) 0
  else if t < 32 then [5, 9, 14, 20].getD (t % 4) 0
  else if t < 48 then [4, 11, 16, 23].getD (t % 4) 0
  else [6, 10, 15, 21].getD (t % 4) 0

structure V4 where
  a : W32
  b : W32
  c : W32
  d : W32
  deriving DecidableEq

/-- Word `j` of a block. -/
def X (block : List Byte) (j : Nat) : W32 := BitVec.ofNat 32 (natLE ((block.drop (4 * j)).take 4))

/-- Operation `t`: `a = b + ((a + f(b,c,d) + X[k] + T[i]) <<< s)`, after which the registers change
roles: the operations are listed as [ABCD ...] [DABC ...] [CDAB ...] [BCDA ...]. -/
def step (block : List Byte) (v : V4) (t : Nat) : V4 :=
  ⟨v.d, v.b + (v.a + fn t v.b v.c v.d + X block (k t) + T.getD t 0).rotateLeft (s t), v.b, v.c⟩

def compress (h : V4) (block : List Byte) : V4 :=
  let v := (List.range 64).foldl (step block) h
  ⟨h.a + v.a, h.b + v.b, h.c + v.c, h.d + v.d⟩

/-- Section 3.3: A = 01 23 45 67, ... (low-order bytes first). -/
def H0 : V4 := ⟨0x67452301#32, 0xefcdab89#32, 0x98badcfe#32, 0x10325476#32⟩

def V4.bytes (v : V4) : List Byte :=
  bytesLE 4 v.a.toNat ++ bytesLE 4 v.b.toNat ++ bytesLE 4 v.c.toNat ++ bytesLE 4 v.d.toNat

/-- MD5. -/
def md5 (m : List Byte) : List Byte :=
  ((Pgfe.Spec.Sha.blocks 64 (pad m)).foldl compress H0).bytes

end Pgfe.Spec.Md5
