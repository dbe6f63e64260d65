import Verif.Basic
/-!
# Blowfish, after B. Schneier, "Description of a New Variable-Length Key, 64-Bit Block Cipher" (1993)

One table `T` of 1042 words: the eighteen subkeys, then the four S-boxes of 256 entries.
-/
namespace Pgfe.Spec.Blowfish

/-- Subkey number i (0..17). -/
def P (T : List W32) (i : Nat) : W32 := T.getD i 0#32
/-- Entry `x` of S-box number i (0..3). -/
def S (T : List W32) (i : Nat) (x : Nat) : W32 := T.getD (18 + 256 * i + x) 0#32

/-- Divide xL into four eight-bit quarters a, b, c, d:
F(xL) = ((S1[a] + S2[b] mod 2^32) XOR S3[c]) + S4[d] mod 2^32. -/
def F (T : List W32) (x : W32) : W32 :=
  let n := x.toNat
  ((S T 0 (n / 2 ^ 24) + S T 1 (n / 2 ^ 16 % 256)) ^^^ S T 2 (n / 2 ^ 8 % 256)) + S T 3 (n % 256)

/-- The Feistel network before round i: xL and xR. -/
def rounds (T : List W32) (k : Nat → W32) : Nat → W32 × W32 → W32 × W32
  | 0, x => x
  | i + 1, x =>
    let y := rounds T k i x
    (y.2 ^^^ F T (y.1 ^^^ k i), y.1 ^^^ k i)

/-- Encryption of a block (xL, xR) with the subkeys in the order given by `k`: sixteen rounds, undo the last
swap, xor with the last two subkeys. -/
def cipher (T : List W32) (k : Nat → W32) (x : W32 × W32) : W32 × W32 :=
  let y := rounds T k 16 x
  (y.2 ^^^ k 17, y.1 ^^^ k 16)

/-- Encryption. -/
def enc (T : List W32) : W32 × W32 → W32 × W32 := cipher T (P T)
/-- Decryption is exactly the same, except that the subkeys are used in the reverse order. -/
def dec (T : List W32) : W32 × W32 → W32 × W32 := cipher T (fun i => P T (17 - i))

/-- The 32 bits number i of the key, repeated cyclically, most significant byte first. -/
def keyWord (key : List Byte) (i : Nat) : W32 :=
  (List.range 4).foldl (fun w t => w * 256#32 + BitVec.setWidth 32 (key.getD ((4 * i + t) % key.length) 0#8)) 0#32

/-- Step 2: xor the subkeys with the bits of the key. -/
def mixKey (init : List W32) (key : List Byte) : List W32 :=
  init.mapIdx (fun i w => if i < 18 then w ^^^ keyWord key i else w)

/-- Step k of 3-7: encrypt the previous output with the current table and replace entries 2k and 2k+1. -/
def expandStep (s : List W32 × (W32 × W32)) (k : Nat) : List W32 × (W32 × W32) :=
  let x := enc s.1 s.2
  ((s.1.set (2 * k) x.1).set (2 * k + 1) x.2, x)

/-- The key schedule, starting with the all-zero block: 521 iterations replace the whole table. -/
def expand (init : List W32) (key : List Byte) : List W32 :=
  ((List.range 521).foldl expandStep (mixKey init key, (0#32, 0#32))).1

/-- Four bytes as a number, most significant first. -/
def word (b : List Byte) : W32 := b.foldl (fun w x => w * 256#32 + BitVec.setWidth 32 x) 0#32
/-- A number as four bytes, most significant first. -/
def bytes (w : W32) : List Byte :=
  [(w >>> 24).setWidth 8, (w >>> 16).setWidth 8, (w >>> 8).setWidth 8, w.setWidth 8]

/-- A block function on eight bytes. -/
def onBlock (f : W32 × W32 → W32 × W32) (b : List Byte) : List Byte :=
  let y := f (word (b.take 4), word ((b.drop 4).take 4))
  bytes y.1 ++ bytes y.2

/-- The number of blocks. -/
def blocks (n : Nat) : Nat := (n + 7) / 8

/-- The input with zero bytes up to a whole number of blocks. -/
def pad (x : List Byte) : List Byte := x ++ List.replicate (8 * blocks x.length - x.length) 0#8

/-- Each block on its own. -/
def ecb (f : W32 × W32 → W32 × W32) (x : List Byte) : List Byte :=
  (List.range (blocks x.length)).flatMap (fun i => onBlock f (((pad x).drop (8 * i)).take 8))

end Pgfe.Spec.Blowfish
