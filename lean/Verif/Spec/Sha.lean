import Verif.Basic
/-!
# FIPS 180-4: SHA-1, SHA-224, SHA-256, SHA-384, SHA-512, SHA-512/224, SHA-512/256

Written from the standard, independently of the model of the library.  Messages are byte strings
(the library has no interface for other bit lengths).  The tables are typed as the standard prints
them; `Props/Sha` proves that they are the roots of the first primes the standard says they are.
-/
namespace Pgfe.Spec.Sha

/-- The number a byte string denotes, most significant byte first (section 3.1). -/
def natOfBytes (l : List Byte) : Nat := l.foldl (fun a b => 256 * a + b.toNat) 0

/-- The `n` bytes of a number, most significant byte first. -/
def bytesOfNat (n x : Nat) : List Byte :=
  (List.range n).map (fun i => BitVec.ofNat 8 (x / 256 ^ (n - 1 - i)))

/-- The bytes of a word, most significant byte first. -/
def bytesOfWord {w : Nat} (x : BitVec w) : List Byte := bytesOfNat (w / 8) x.toNat

/-- The consecutive blocks of `bs` bytes of a byte string (section 5.2). -/
def blocks (bs : Nat) (l : List Byte) : List (List Byte) :=
  (List.range (l.length / bs)).map (fun i => (l.drop (i * bs)).take bs)

/-- Number of zero bytes after the byte 0x80 in the padding of an `n`-byte message: the smallest
number that makes the total, with an `lb`-byte length field, a multiple of `bs` (section 5.1). -/
def padZeros (bs lb n : Nat) : Nat := (bs - (n + 1 + lb) % bs) % bs

/-- Section 5.1: the padded message. -/
def pad (bs lb : Nat) (m : List Byte) : List Byte :=
  m ++ [0x80#8] ++ List.replicate (padZeros bs lb m.length) 0x00#8 ++ bytesOfNat lb (8 * m.length)

/-- NOT the standard's padding, but the one the library applies: when the byte 0x80 and the length
field do not fit into the last block, a further block is needed, and its first `bs - lb` bytes are not
zeros but a copy of the first `bs - lb` bytes of the block before it (bytes of the message). -/
def stalePad (bs lb : Nat) (m : List Byte) : List Byte :=
  if m.length % bs < bs - lb then pad bs lb m
  else m ++ [0x80#8] ++ List.replicate (bs - m.length % bs - 1) 0x00#8
    ++ (m.drop (m.length / bs * bs)).take (bs - lb) ++ bytesOfNat lb (8 * m.length)

/-- Word `t` of a block, for words of `w` bits. -/
def word (w : Nat) (block : List Byte) (t : Nat) : BitVec w :=
  BitVec.ofNat w (natOfBytes ((block.drop (t * (w / 8))).take (w / 8)))

/-! ## SHA-1 (sections 4.1.1, 4.2.1, 5.3.1, 6.1.2) -/

/-- Ch, Parity, Maj. -/
def Ch {w : Nat} (x y z : BitVec w) : BitVec w := (x &&& y) ^^^ (~~~x &&& z)
def Parity {w : Nat} (x y z : BitVec w) : BitVec w := x ^^^ y ^^^ z
def Maj {w : Nat} (x y z : BitVec w) : BitVec w := (x &&& y) ^^^ (x &&& z) ^^^ (y &&& z)

def sha1F (t : Nat) : W32 → W32 → W32 → W32 :=
  if t < 20 then Ch else if t < 40 then Parity else if t < 60 then Maj else Parity

def sha1K (t : Nat) : W32 :=
  if t < 20 then 0x5a827999#32 else if t < 40 then 0x6ed9eba1#32
  else if t < 60 then 0x8f1bbcdc#32 else 0xca62c1d6#32

/-- The message schedule. -/
def sha1W (block : List Byte) (t : Nat) : W32 :=
  if t < 16 then word 32 block t
  else (sha1W block (t - 3) ^^^ sha1W block (t - 8) ^^^ sha1W block (t - 14)
    ^^^ sha1W block (t - 16)).rotateLeft 1

/-- The working variables, and the hash value. -/
structure V5 where
  a : W32
  b : W32
  c : W32
  d : W32
  e : W32
  deriving DecidableEq

def sha1Round (block : List Byte) (v : V5) (t : Nat) : V5 :=
  let T := v.a.rotateLeft 5 + sha1F t v.b v.c v.d + v.e + sha1K t + sha1W block t
  { e := v.d, d := v.c, c := v.b.rotateLeft 30, b := v.a, a := T }

def sha1Compress (H : V5) (block : List Byte) : V5 :=
  let v := (List.range 80).foldl (sha1Round block) H
  ⟨v.a + H.a, v.b + H.b, v.c + H.c, v.d + H.d, v.e + H.e⟩

def sha1H0 : V5 := ⟨0x67452301#32, 0xefcdab89#32, 0x98badcfe#32, 0x10325476#32, 0xc3d2e1f0#32⟩

def V5.bytes (v : V5) : List Byte :=
  bytesOfWord v.a ++ bytesOfWord v.b ++ bytesOfWord v.c ++ bytesOfWord v.d ++ bytesOfWord v.e

/-- SHA-1. -/
def sha1 (m : List Byte) : List Byte :=
  ((blocks 64 (pad 64 8 m)).foldl sha1Compress sha1H0).bytes

/-- SHA-1 with the padding the library applies instead of the standard's. -/
def sha1Stale (m : List Byte) : List Byte :=
  ((blocks 64 (stalePad 64 8 m)).foldl sha1Compress sha1H0).bytes

/-! ## SHA-2 (sections 4.1.2, 4.1.3, 4.2.2, 4.2.3, 5.3, 6.2, 6.4) -/

/-- What distinguishes the 32-bit from the 64-bit family. -/
structure Sha2 (w : Nat) where
  bigSigma0 : BitVec w → BitVec w
  bigSigma1 : BitVec w → BitVec w
  sigma0 : BitVec w → BitVec w
  sigma1 : BitVec w → BitVec w
  K : List (BitVec w)

structure V8 (w : Nat) where
  a : BitVec w
  b : BitVec w
  c : BitVec w
  d : BitVec w
  e : BitVec w
  f : BitVec w
  g : BitVec w
  h : BitVec w
  deriving DecidableEq

namespace Sha2
variable {w : Nat} (P : Sha2 w)

/-- The message schedule. -/
def W (block : List Byte) (t : Nat) : BitVec w :=
  if t < 16 then word w block t
  else P.sigma1 (W block (t - 2)) + W block (t - 7) + P.sigma0 (W block (t - 15)) + W block (t - 16)

def round (block : List Byte) (v : V8 w) (t : Nat) : V8 w :=
  let T1 := v.h + P.bigSigma1 v.e + Ch v.e v.f v.g + P.K.getD t 0 + P.W block t
  let T2 := P.bigSigma0 v.a + Maj v.a v.b v.c
  { h := v.g, g := v.f, f := v.e, e := v.d + T1, d := v.c, c := v.b, b := v.a, a := T1 + T2 }

def compress (H : V8 w) (block : List Byte) : V8 w :=
  let v := (List.range P.K.length).foldl (P.round block) H
  ⟨v.a + H.a, v.b + H.b, v.c + H.c, v.d + H.d, v.e + H.e, v.f + H.f, v.g + H.g, v.h + H.h⟩

/-- The final hash value; a block has 16 words, the length field 2 words. -/
def hash (H0 : V8 w) (m : List Byte) : V8 w :=
  (blocks (2 * w) (pad (2 * w) (w / 4) m)).foldl P.compress H0

/-- The same with the padding the library applies instead of the standard's. -/
def hashStale (H0 : V8 w) (m : List Byte) : V8 w :=
  (blocks (2 * w) (stalePad (2 * w) (w / 4) m)).foldl P.compress H0

end Sha2

def V8.words {w : Nat} (v : V8 w) : List (BitVec w) := [v.a, v.b, v.c, v.d, v.e, v.f, v.g, v.h]
def V8.bytes {w : Nat} (v : V8 w) : List Byte := v.words.flatMap bytesOfWord

def V8.ofWords {w : Nat} (l : List (BitVec w)) : V8 w :=
  ⟨l.getD 0 0, l.getD 1 0, l.getD 2 0, l.getD 3 0, l.getD 4 0, l.getD 5 0, l.getD 6 0, l.getD 7 0⟩

/-- Section 4.2.2. -/
def K256 : List W32 := [
   0x428a2f98#32, 0x71374491#32, 0xb5c0fbcf#32, 0xe9b5dba5#32, 0x3956c25b#32, 0x59f111f1#32,
   0x923f82a4#32, 0xab1c5ed5#32, 0xd807aa98#32, 0x12835b01#32, 0x243185be#32, 0x550c7dc3#32,
   0x72be5d74#32, 0x80deb1fe#32, 0x9bdc06a7#32, 0xc19bf174#32, 0xe49b69c1#32, 0xefbe4786#32,
   0x0fc19dc6#32, 0x240ca1cc#32, 0x2de92c6f#32, 0x4a7484aa#32, 0x5cb0a9dc#32, 0x76f988da#32,
   0x983e5152#32, 0xa831c66d#32, 0xb00327c8#32, 0xbf597fc7#32, 0xc6e00bf3#32, 0xd5a79147#32,
   0x06ca6351#32, 0x14292967#32, 0x27b70a85#32, 0x2e1b2138#32, 0x4d2c6dfc#32, 0x53380d13#32,
   0x650a7354#32, 0x766a0abb#32, 0x81c2c92e#32, 0x92722c85#32, 0xa2bfe8a1#32, 0xa81a664b#32,
   0xc24b8b70#32, 0xc76c51a3#32, 0xd192e819#32, 0xd6990624#32, 0xf40e3585#32, 0x106aa070#32,
   0x19a4c116#32, 0x1e376c08#32, 0x2748774c#32, 0x34b0bcb5#32, 0x391c0cb3#32, 0x4ed8aa4a#32,
   0x5b9cca4f#32, 0x682e6ff3#32, 0x748f82ee#32, 0x78a5636f#32, 0x84c87814#32, 0x8cc70208#32,
   0x90befffa#32, 0xa4506ceb#32, 0xbef9a3f7#32, 0xc67178f2#32]

/-- Section 4.2.3. -/
def K512 : List W64 := [
   0x428a2f98d728ae22#64, 0x7137449123ef65cd#64, 0xb5c0fbcfec4d3b2f#64, 0xe9b5dba58189dbbc#64,
   0x3956c25bf348b538#64, 0x59f111f1b605d019#64, 0x923f82a4af194f9b#64, 0xab1c5ed5da6d8118#64,
   0xd807aa98a3030242#64, 0x12835b0145706fbe#64, 0x243185be4ee4b28c#64, 0x550c7dc3d5ffb4e2#64,
   0x72be5d74f27b896f#64, 0x80deb1fe3b1696b1#64, 0x9bdc06a725c71235#64, 0xc19bf174cf692694#64,
   0xe49b69c19ef14ad2#64, 0xefbe4786384f25e3#64, 0x0fc19dc68b8cd5b5#64, 0x240ca1cc77ac9c65#64,
   0x2de92c6f592b0275#64, 0x4a7484aa6ea6e483#64, 0x5cb0a9dcbd41fbd4#64, 0x76f988da831153b5#64,
   0x983e5152ee66dfab#64, 0xa831c66d2db43210#64, 0xb00327c898fb213f#64, 0xbf597fc7beef0ee4#64,
   0xc6e00bf33da88fc2#64, 0xd5a79147930aa725#64, 0x06ca6351e003826f#64, 0x142929670a0e6e70#64,
   0x27b70a8546d22ffc#64, 0x2e1b21385c26c926#64, 0x4d2c6dfc5ac42aed#64, 0x53380d139d95b3df#64,
   0x650a73548baf63de#64, 0x766a0abb3c77b2a8#64, 0x81c2c92e47edaee6#64, 0x92722c851482353b#64,
   0xa2bfe8a14cf10364#64, 0xa81a664bbc423001#64, 0xc24b8b70d0f89791#64, 0xc76c51a30654be30#64,
   0xd192e819d6ef5218#64, 0xd69906245565a910#64, 0xf40e35855771202a#64, 0x106aa07032bbd1b8#64,
   0x19a4c116b8d2d0c8#64, 0x1e376c085141ab53#64, 0x2748774cdf8eeb99#64, 0x34b0bcb5e19b48a8#64,
   0x391c0cb3c5c95a63#64, 0x4ed8aa4ae3418acb#64, 0x5b9cca4f7763e373#64, 0x682e6ff3d6b2b8a3#64,
   0x748f82ee5defb2fc#64, 0x78a5636f43172f60#64, 0x84c87814a1f0ab72#64, 0x8cc702081a6439ec#64,
   0x90befffa23631e28#64, 0xa4506cebde82bde9#64, 0xbef9a3f7b2c67915#64, 0xc67178f2e372532b#64,
   0xca273eceea26619c#64, 0xd186b8c721c0c207#64, 0xeada7dd6cde0eb1e#64, 0xf57d4f7fee6ed178#64,
   0x06f067aa72176fba#64, 0x0a637dc5a2c898a6#64, 0x113f9804bef90dae#64, 0x1b710b35131c471b#64,
   0x28db77f523047d84#64, 0x32caab7b40c72493#64, 0x3c9ebe0a15c9bebc#64, 0x431d67c49c100d4c#64,
   0x4cc5d4becb3e42b6#64, 0x597f299cfc657e2a#64, 0x5fcb6fab3ad6faec#64, 0x6c44198c4a475817#64]

/-- Sections 4.1.2, 4.2.2. -/
def P256 : Sha2 32 where
  bigSigma0 x := x.rotateRight 2 ^^^ x.rotateRight 13 ^^^ x.rotateRight 22
  bigSigma1 x := x.rotateRight 6 ^^^ x.rotateRight 11 ^^^ x.rotateRight 25
  sigma0 x := x.rotateRight 7 ^^^ x.rotateRight 18 ^^^ (x >>> 3)
  sigma1 x := x.rotateRight 17 ^^^ x.rotateRight 19 ^^^ (x >>> 10)
  K := K256

/-- Sections 4.1.3, 4.2.3. -/
def P512 : Sha2 64 where
  bigSigma0 x := x.rotateRight 28 ^^^ x.rotateRight 34 ^^^ x.rotateRight 39
  bigSigma1 x := x.rotateRight 14 ^^^ x.rotateRight 18 ^^^ x.rotateRight 41
  sigma0 x := x.rotateRight 1 ^^^ x.rotateRight 8 ^^^ (x >>> 7)
  sigma1 x := x.rotateRight 19 ^^^ x.rotateRight 61 ^^^ (x >>> 6)
  K := K512

/-- Section 5.3.2. -/
def sha224H0 : V8 32 := .ofWords [
   0xc1059ed8#32, 0x367cd507#32, 0x3070dd17#32, 0xf70e5939#32,
   0xffc00b31#32, 0x68581511#32, 0x64f98fa7#32, 0xbefa4fa4#32]
/-- Section 5.3.3. -/
def sha256H0 : V8 32 := .ofWords [
   0x6a09e667#32, 0xbb67ae85#32, 0x3c6ef372#32, 0xa54ff53a#32,
   0x510e527f#32, 0x9b05688c#32, 0x1f83d9ab#32, 0x5be0cd19#32]
/-- Section 5.3.4. -/
def sha384H0 : V8 64 := .ofWords [
   0xcbbb9d5dc1059ed8#64, 0x629a292a367cd507#64, 0x9159015a3070dd17#64, 0x152fecd8f70e5939#64,
   0x67332667ffc00b31#64, 0x8eb44a8768581511#64, 0xdb0c2e0d64f98fa7#64, 0x47b5481dbefa4fa4#64]
/-- Section 5.3.5. -/
def sha512H0 : V8 64 := .ofWords [
   0x6a09e667f3bcc908#64, 0xbb67ae8584caa73b#64, 0x3c6ef372fe94f82b#64, 0xa54ff53a5f1d36f1#64,
   0x510e527fade682d1#64, 0x9b05688c2b3e6c1f#64, 0x1f83d9abfb41bd6b#64, 0x5be0cd19137e2179#64]

/-- Section 5.3.6: the SHA-512/t IV generation function; `name` is the ASCII text "SHA-512/t". -/
def sha512tH0 (name : String) : V8 64 :=
  let h := V8.ofWords (sha512H0.words.map (fun x => x ^^^ 0xa5a5a5a5a5a5a5a5#64))
  P512.hash h (str name)

def sha224 (m : List Byte) : List Byte := (P256.hash sha224H0 m).bytes.take 28
def sha256 (m : List Byte) : List Byte := (P256.hash sha256H0 m).bytes
def sha384 (m : List Byte) : List Byte := (P512.hash sha384H0 m).bytes.take 48
def sha512 (m : List Byte) : List Byte := (P512.hash sha512H0 m).bytes
def sha512_224 (m : List Byte) : List Byte := (P512.hash (sha512tH0 "SHA-512/224") m).bytes.take 28
def sha512_256 (m : List Byte) : List Byte := (P512.hash (sha512tH0 "SHA-512/256") m).bytes.take 32

/-! The same functions with the padding the library applies instead of the standard's. -/

def sha224Stale (m : List Byte) : List Byte := (P256.hashStale sha224H0 m).bytes.take 28
def sha256Stale (m : List Byte) : List Byte := (P256.hashStale sha256H0 m).bytes
def sha384Stale (m : List Byte) : List Byte := (P512.hashStale sha384H0 m).bytes.take 48
def sha512Stale (m : List Byte) : List Byte := (P512.hashStale sha512H0 m).bytes
def sha512_224Stale (m : List Byte) : List Byte :=
  (P512.hashStale (sha512tH0 "SHA-512/224") m).bytes.take 28
def sha512_256Stale (m : List Byte) : List Byte :=
  (P512.hashStale (sha512tH0 "SHA-512/256") m).bytes.take 32

end Pgfe.Spec.Sha
