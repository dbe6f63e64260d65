import Verif.Spec.Alg
import Verif.Model.Hash
/-!
# What a hash context answers when it goes on being used after a digest

An abstract machine for every algorithm: what it remembers, and what each digest call returns.  Of the
model only the enumeration `Alg` and the type `Call` of the calls (`update bytes`, `digest buffer`) are
used here.
-/
namespace Pgfe.Spec.Again
open Pgfe.Model (Alg)
open Pgfe.Model.HashImpl (Call)
open Pgfe.Spec.Sha (blocks bytesOfNat V5 V8 Sha2 P256 P512)

/-- The digest `d` overwrites the beginning of the buffer `out`. -/
def put (d out : List Byte) : List Byte := d ++ out.drop d.length

/-- How many bytes the updates of a sequence of calls hand over. -/
def total : List Call → Nat
  | [] => 0
  | .update x :: r => x.length + total r
  | .digest _ :: r => total r

/-! ## MD5 -/

/-- MD5: the machine remembers a byte string `m`.  A digest is the MD5 of `m`, and then the *padded*
`m` is what is remembered. -/
def md5Answers (m : List Byte) : List Call → List (List Byte)
  | [] => []
  | .update x :: r => md5Answers (m ++ x) r
  | .digest out :: r => put (Md5.md5 m) out :: md5Answers (Md5.pad m) r

/-! ## SHA-1 and SHA-2 -/

/-- A Merkle-Damgård function: chaining values, initial value, compression function, the bytes of a
chaining value, block length and length of the length field in bytes. -/
structure MD where
  V : Type
  h0 : V
  f : V → List Byte → V
  bytes : V → List Byte
  bs : Nat
  lb : Nat

/-- The library's padding of `y` (see `stalePad`), with a length field that says `n` bytes. -/
def closing (bs lb n : Nat) (y : List Byte) : List Byte :=
  if y.length % bs < bs - lb then
    y ++ [0x80#8] ++ List.replicate (bs - lb - y.length % bs - 1) 0x00#8 ++ bytesOfNat lb (8 * n)
  else y ++ [0x80#8] ++ List.replicate (bs - y.length % bs - 1) 0x00#8
    ++ (y.drop (y.length / bs * bs)).take (bs - lb) ++ bytesOfNat lb (8 * n)

/-- The chaining value that closes the bytes `y`, started from `h`, when `n` bytes were counted before. -/
def MD.close (M : MD) (h : M.V) (n : Nat) (y : List Byte) : M.V :=
  (blocks M.bs (closing M.bs M.lb (n + y.length) y)).foldl M.f h

/-- SHA-1, SHA-2: the machine remembers a chaining value `h`, how many bytes `n` are already counted,
and the bytes `y` that came since.  A digest closes `y`; its chaining value becomes the new `h`, no
bytes are left, and the count is kept, or forgotten if `wipe`. -/
def MD.answers (M : MD) (wipe : Bool) (ds : Nat) (h : M.V) (n : Nat) (y : List Byte) :
    List Call → List (List Byte)
  | [] => []
  | .update x :: r => M.answers wipe ds h n (y ++ x) r
  | .digest out :: r => put ((M.bytes (M.close h n y)).take ds) out ::
      M.answers wipe ds (M.close h n y) (if wipe then 0 else n + y.length) [] r

def sha1MD : MD := ⟨V5, Sha.sha1H0, Sha.sha1Compress, V5.bytes, 64, 8⟩
def sha2MD {w : Nat} (P : Sha2 w) (H0 : V8 w) : MD := ⟨V8 w, H0, P.compress, V8.bytes, 2 * w, w / 4⟩

/-! ## KECCAK -/

/-- KECCAK: the machine remembers the message and, once a digest was taken, how many bytes of the
output stream were returned.  From then on updates are ignored, and each digest is the next `ds` bytes
of the stream. -/
def spongeAnswers (stream : Nat → List Byte → List Byte) (ds : Nat) (m : List Byte) :
    Option Nat → List Call → List (List Byte)
  | _, [] => []
  | none, .update x :: r => spongeAnswers stream ds (m ++ x) none r
  | some pos, .update _ :: r => spongeAnswers stream ds m (some pos) r
  | none, .digest out :: r => put (stream ds m) out :: spongeAnswers stream ds m (some ds) r
  | some pos, .digest out :: r =>
    put ((stream (pos + ds) m).drop pos) out :: spongeAnswers stream ds m (some (pos + ds)) r

/-- The first `n` bytes of the output stream of the sponge of the SHA-3 functions. -/
def sha3Stream (c : Nat) (n : Nat) (m : List Byte) : List Byte :=
  Keccak.bytesOf (Keccak.keccak c (Keccak.bitsOf m ++ [false, true]) (8 * n))

/-! ## All of them -/

/-- The answers of a fresh context to a sequence of calls; `n` is the output length in bytes, for the
four SHAKE variants only. -/
def answers (a : Alg) (n : Nat) (l : List Call) : List (List Byte) :=
  match a with
  | .MD5 => md5Answers [] l
  | .SHA1 => sha1MD.answers true 20 Sha.sha1H0 0 [] l
  | .SHA224 => (sha2MD P256 Sha.sha224H0).answers false 28 Sha.sha224H0 0 [] l
  | .SHA256 => (sha2MD P256 Sha.sha256H0).answers false 32 Sha.sha256H0 0 [] l
  | .SHA384 => (sha2MD P512 Sha.sha384H0).answers false 48 Sha.sha384H0 0 [] l
  | .SHA512 => (sha2MD P512 Sha.sha512H0).answers false 64 Sha.sha512H0 0 [] l
  | .SHA512_224 => (sha2MD P512 (Sha.sha512tH0 "SHA-512/224")).answers false 28 (Sha.sha512tH0 "SHA-512/224") 0 [] l
  | .SHA512_256 => (sha2MD P512 (Sha.sha512tH0 "SHA-512/256")).answers false 32 (Sha.sha512tH0 "SHA-512/256") 0 [] l
  | .SHA3_224 => spongeAnswers (sha3Stream 448) 28 [] none l
  | .SHA3_256 => spongeAnswers (sha3Stream 512) 32 [] none l
  | .SHA3_384 => spongeAnswers (sha3Stream 768) 48 [] none l
  | .SHA3_512 => spongeAnswers (sha3Stream 1024) 64 [] none l
  | .RawSHAKE128 => spongeAnswers Keccak.rawshake128 n [] none l
  | .SHAKE128 => spongeAnswers Keccak.shake128 n [] none l
  | .RawSHAKE256 => spongeAnswers Keccak.rawshake256 n [] none l
  | .SHAKE256 => spongeAnswers Keccak.shake256 n [] none l

end Pgfe.Spec.Again
