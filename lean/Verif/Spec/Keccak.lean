import Verif.Basic
/-!
# FIPS 202: KECCAK-p[1600, 24], the sponge construction, SHA-3, SHAKE and RawSHAKE, bit by bit

Written from the standard, independently of the model of the library.  Bit strings are lists of
`Bool`; the section numbers are those of FIPS 202.
-/
namespace Pgfe.Spec.Keccak

/-- A state array (3.1.1): the bit `A[x, y, z]`, `0 ≤ x, y < 5`, `0 ≤ z < 64`. -/
abbrev StateArray := Nat → Nat → Nat → Bool

/-- 3.1.2: `A[x, y, z] = S[64 (5 y + x) + z]`. -/
def arrayOf (S : List Bool) : StateArray := fun x y z => S.getD (64 * (5 * y + x) + z) false

/-- 3.1.3. -/
def stringOf (A : StateArray) : List Bool :=
  (List.range 1600).map (fun i => A (i / 64 % 5) (i / 64 / 5) (i % 64))

/-- 3.2.1, steps 1 and 2: the column parities and their combination. -/
def thetaC (A : StateArray) (x z : Nat) : Bool := A x 0 z ^^ A x 1 z ^^ A x 2 z ^^ A x 3 z ^^ A x 4 z
def thetaD (A : StateArray) (x z : Nat) : Bool :=
  thetaC A ((x + 4) % 5) z ^^ thetaC A ((x + 1) % 5) ((z + 63) % 64)
/-- 3.2.1. -/
def theta (A : StateArray) : StateArray := fun x y z => A x y z ^^ thetaD A x z

/-- 3.2.2, steps 2 and 3b: the lane `(x, y)` treated at time `t`. -/
def rhoPos : Nat → Nat × Nat
  | 0 => (1, 0)
  | t + 1 => ((rhoPos t).2, (2 * (rhoPos t).1 + 3 * (rhoPos t).2) % 5)
/-- 3.2.2: the lane treated at time `t` is rotated by `(t + 1)(t + 2)/2` (at most 300 = 5 * 64 - 20),
lane (0, 0) stays. -/
def rho (A : StateArray) : StateArray := fun x y z =>
  match (List.range 24).find? (fun t => rhoPos t == (x, y)) with
  | some t => A x y ((z + 5 * 64 - (t + 1) * (t + 2) / 2) % 64)
  | none => A x y z

/-- 3.2.3. -/
def pi (A : StateArray) : StateArray := fun x y z => A ((x + 3 * y) % 5) x z

/-- 3.2.4. -/
def chi (A : StateArray) : StateArray := fun x y z =>
  A x y z ^^ ((A ((x + 1) % 5) y z ^^ true) && A ((x + 2) % 5) y z)

/-- 3.2.5, Algorithm 5, step 3: one step of the shift register. -/
def rcStep (R : List Bool) : List Bool :=
  let R := false :: R
  let r8 := R.getD 8 false
  let R := R.set 0 (R.getD 0 false ^^ r8)
  let R := R.set 4 (R.getD 4 false ^^ r8)
  let R := R.set 5 (R.getD 5 false ^^ r8)
  let R := R.set 6 (R.getD 6 false ^^ r8)
  R.take 8
/-- Algorithm 5: `rc(t)`. -/
def rc (t : Nat) : Bool :=
  ((List.range (t % 255)).foldl (fun R _ => rcStep R)
    [true, false, false, false, false, false, false, false]).getD 0 false
/-- Algorithm 6, steps 2 and 3: bit `z` of the round constant; `RC[2^j - 1] = rc(j + 7 i)` for
`0 ≤ j ≤ 6`, the other bits are 0. -/
def rcBit (i z : Nat) : Bool :=
  match (List.range 7).find? (fun j => 2 ^ j - 1 == z) with
  | some j => rc (j + 7 * i)
  | none => false
/-- 3.2.5. -/
def iota (i : Nat) (A : StateArray) : StateArray := fun x y z =>
  if x = 0 ∧ y = 0 then A x y z ^^ rcBit i z else A x y z

/-- 3.3: `Rnd(A, i)`. -/
def rnd (A : StateArray) (i : Nat) : StateArray := iota i (chi (pi (rho (theta A))))

/-- 3.3, 3.4: KECCAK-p[1600, 24] = KECCAK-f[1600] on strings. -/
def keccakF (S : List Bool) : List Bool := stringOf ((List.range 24).foldl rnd (arrayOf S))

/-- 5.1: `pad10*1(x, m)`; `j = (- m - 2) mod x`. -/
def pad10star1 (x m : Nat) : List Bool :=
  true :: List.replicate ((x - (m + 2) % x) % x) false ++ [true]

/-- The consecutive blocks of `r` bits. -/
def bitBlocks (r : Nat) (P : List Bool) : List (List Bool) :=
  (List.range (P.length / r)).map (fun i => (P.drop (i * r)).take r)

/-- 4, Algorithm 8, step 6: one block of `r` bits is absorbed (`c = 1600 - r`). -/
def absorbBlock (r : Nat) (S P : List Bool) : List Bool :=
  keccakF (List.zipWith (· ^^ ·) S (P ++ List.replicate (1600 - r) false))

/-- Algorithm 8, steps 1 to 6: the state after absorbing `N`. -/
def absorb (r : Nat) (N : List Bool) : List Bool :=
  (bitBlocks r (N ++ pad10star1 r N.length)).foldl (absorbBlock r) (List.replicate 1600 false)

/-- `n`-fold application of KECCAK-f. -/
def keccakFs : Nat → List Bool → List Bool
  | 0, S => S
  | n + 1, S => keccakF (keccakFs n S)

/-- Algorithm 8, steps 7 to 10: `Z = Trunc_r(S) || Trunc_r(f(S)) || ...`, cut to `d` bits. -/
def squeeze (r : Nat) (S : List Bool) (d : Nat) : List Bool :=
  ((List.range (d / r + 1)).flatMap (fun k => (keccakFs k S).take r)).take d

/-- Section 5.2: `KECCAK[c](N, d)`. -/
def keccak (c : Nat) (N : List Bool) (d : Nat) : List Bool :=
  squeeze (1600 - c) (absorb (1600 - c) N) d

/-- Appendix B.1: the bits of a byte string, least significant bit of each byte first. -/
def bitsOf (m : List Byte) : List Bool := m.flatMap (fun b => (List.range 8).map (fun i => b.getLsbD i))

/-- Appendix B.1: the byte string with given bits (length a multiple of 8). -/
def bytesOf (l : List Bool) : List Byte :=
  (List.range (l.length / 8)).map (fun j =>
    BitVec.ofNat 8 ((List.range 8).foldr (fun i a => 2 * a + (l.getD (8 * j + i) false).toNat) 0))

/-! Sections 6.1, 6.2, 6.3. -/
def sha3_224 (m : List Byte) : List Byte := bytesOf (keccak 448 (bitsOf m ++ [false, true]) 224)
def sha3_256 (m : List Byte) : List Byte := bytesOf (keccak 512 (bitsOf m ++ [false, true]) 256)
def sha3_384 (m : List Byte) : List Byte := bytesOf (keccak 768 (bitsOf m ++ [false, true]) 384)
def sha3_512 (m : List Byte) : List Byte := bytesOf (keccak 1024 (bitsOf m ++ [false, true]) 512)

/-- `d` bits of RawSHAKE128, RawSHAKE256, SHAKE128, SHAKE256, for `d = 8 n`. -/
def rawshake128 (n : Nat) (m : List Byte) : List Byte :=
  bytesOf (keccak 256 (bitsOf m ++ [true, true]) (8 * n))
def rawshake256 (n : Nat) (m : List Byte) : List Byte :=
  bytesOf (keccak 512 (bitsOf m ++ [true, true]) (8 * n))
def shake128 (n : Nat) (m : List Byte) : List Byte :=
  bytesOf (keccak 256 (bitsOf m ++ [true, true, true, true]) (8 * n))
def shake256 (n : Nat) (m : List Byte) : List Byte :=
  bytesOf (keccak 512 (bitsOf m ++ [true, true, true, true]) (8 * n))

/-- Consecutive pieces of given lengths of a byte string. -/
def cut : List Nat → List Byte → List (List Byte)
  | [], _ => []
  | n :: ns, l => l.take n :: cut ns (l.drop n)

end Pgfe.Spec.Keccak
