import Verif.Model.Alg
import Verif.Spec.Md5
import Verif.Spec.Sha
import Verif.Spec.Keccak
/-!
# The function each algorithm choice denotes

Of the model only the enumeration `Alg` is used here.
-/
namespace Pgfe.Spec
open Pgfe.Model (Alg)

/-- The four functions with a variable output length. -/
def isShake : Alg → Bool
  | .RawSHAKE128 | .SHAKE128 | .RawSHAKE256 | .SHAKE256 => true
  | _ => false

/-- The functions built on KECCAK. -/
def isKeccak : Alg → Bool
  | .SHA3_224 | .SHA3_256 | .SHA3_384 | .SHA3_512 => true
  | a => isShake a

/-- The standards' functions; `n` is the output length in bytes, for the four SHAKE variants only. -/
def stdHash : Alg → Nat → List Byte → List Byte
  | .MD5, _ => Md5.md5
  | .SHA1, _ => Sha.sha1
  | .SHA224, _ => Sha.sha224
  | .SHA256, _ => Sha.sha256
  | .SHA384, _ => Sha.sha384
  | .SHA512, _ => Sha.sha512
  | .SHA512_224, _ => Sha.sha512_224
  | .SHA512_256, _ => Sha.sha512_256
  | .SHA3_224, _ => Keccak.sha3_224
  | .SHA3_256, _ => Keccak.sha3_256
  | .SHA3_384, _ => Keccak.sha3_384
  | .SHA3_512, _ => Keccak.sha3_512
  | .RawSHAKE128, n => Keccak.rawshake128 n
  | .SHAKE128, n => Keccak.shake128 n
  | .RawSHAKE256, n => Keccak.rawshake256 n
  | .SHAKE256, n => Keccak.shake256 n

/-- The functions the library computes: as `stdHash`, except that SHA-1 and SHA-2 use the padding
`stalePad` (C18-C20). -/
def libHash : Alg → Nat → List Byte → List Byte
  | .SHA1, _ => Sha.sha1Stale
  | .SHA224, _ => Sha.sha224Stale
  | .SHA256, _ => Sha.sha256Stale
  | .SHA384, _ => Sha.sha384Stale
  | .SHA512, _ => Sha.sha512Stale
  | .SHA512_224, _ => Sha.sha512_224Stale
  | .SHA512_256, _ => Sha.sha512_256Stale
  | a, n => stdHash a n

/-- How many bytes the digest function writes when asked for `bits` bits (the argument only exists
for the SHAKE variants). -/
def outSize (a : Alg) (bits : Nat) : Nat :=
  match a with
  | .MD5 => 16
  | .SHA1 => 20
  | .SHA224 | .SHA512_224 | .SHA3_224 => 28
  | .SHA256 | .SHA512_256 | .SHA3_256 => 32
  | .SHA384 | .SHA3_384 => 48
  | .SHA512 | .SHA3_512 => 64
  | .RawSHAKE128 | .SHAKE128 | .RawSHAKE256 | .SHAKE256 => bits / 8

/-- Lengths of a single update for which the update is well defined in every state of the context:
MD5: not zero (C17); SHA-1, SHA-2: below 2^31 (C31); KECCAK: up to 2^29 - 192 (C26). -/
def okUpd : Alg → Nat → Prop
  | .MD5, n => 0 < n
  | .SHA1, n | .SHA224, n | .SHA256, n | .SHA384, n | .SHA512, n | .SHA512_224, n | .SHA512_256, n =>
    n < 2 ^ 31
  | _, n => n ≤ 2 ^ 29 - 192

/-- Total lengths the standards allow. -/
def okTot : Alg → Nat → Prop
  | .SHA1, n | .SHA224, n | .SHA256, n => 8 * n < 2 ^ 64
  | .SHA384, n | .SHA512, n | .SHA512_224, n | .SHA512_256, n => 8 * n < 2 ^ 128
  | _, _ => True

/-- The messages for which the library's function is the standard's whatever their content: no second
padding block is needed. -/
def onePadBlock : Alg → Nat → Prop
  | .SHA1, n | .SHA224, n | .SHA256, n => n % 64 < 56
  | .SHA384, n | .SHA512, n | .SHA512_224, n | .SHA512_256, n => n % 128 < 112
  | _, _ => True

/-- The concatenation of the parts (pointer, length) whose pointer is not NULL. -/
def concatParts : List (Option (List Byte) × Nat) → List Byte
  | [] => []
  | (none, _) :: r => concatParts r
  | (some x, n) :: r => x.take n ++ concatParts r

/-- The canonical spelling of every algorithm: the name of its enumerator. -/
def canonical : Alg → String
  | .MD5 => "MD5"
  | .SHA1 => "SHA1"
  | .SHA224 => "SHA224"
  | .SHA256 => "SHA256"
  | .SHA384 => "SHA384"
  | .SHA512 => "SHA512"
  | .SHA512_224 => "SHA512_224"
  | .SHA512_256 => "SHA512_256"
  | .SHA3_224 => "SHA3_224"
  | .SHA3_256 => "SHA3_256"
  | .SHA3_384 => "SHA3_384"
  | .SHA3_512 => "SHA3_512"
  | .RawSHAKE128 => "RawSHAKE128"
  | .SHAKE128 => "SHAKE128"
  | .RawSHAKE256 => "RawSHAKE256"
  | .SHAKE256 => "SHAKE256"

/-- ASCII letters in lower case, other bytes unchanged. -/
def lowerByte (b : Byte) : Byte := if 0x41#8 ≤ b ∧ b ≤ 0x5a#8 then b + 0x20#8 else b
def lower (s : List Byte) : List Byte := s.map lowerByte

/-- The two spellings of an algorithm. -/
def names (a : Alg) : List (List Byte) := [str (canonical a), lower (str (canonical a))]

/-- The block length (input bytes per call of the compression function or permutation) of every
algorithm in its standard: RFC 1321, FIPS 180-4 figure 1, FIPS 202 (1600 bits minus the capacity). -/
def blockBytes : Alg → Nat
  | .MD5 | .SHA1 | .SHA224 | .SHA256 => 512 / 8
  | .SHA384 | .SHA512 | .SHA512_224 | .SHA512_256 => 1024 / 8
  | .SHA3_224 => (1600 - 2 * 224) / 8
  | .SHA3_256 => (1600 - 2 * 256) / 8
  | .SHA3_384 => (1600 - 2 * 384) / 8
  | .SHA3_512 => (1600 - 2 * 512) / 8
  | .RawSHAKE128 | .SHAKE128 => (1600 - 256) / 8
  | .RawSHAKE256 | .SHAKE256 => (1600 - 512) / 8

end Pgfe.Spec
