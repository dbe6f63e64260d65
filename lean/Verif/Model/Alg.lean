import Verif.Model.ShaImpl
import Verif.Model.Md5
import Verif.Model.Keccak
/-!
# The algorithm choice, the size constants and the name table
-/
namespace Pgfe.Model

/-- `enum pgfe_algorithm_choice`, include/libpgfe/algorithm-choice.h:16-49. -/
inductive Alg where
  | MD5 | SHA1 | SHA224 | SHA256 | SHA384 | SHA512 | SHA512_224 | SHA512_256
  | SHA3_224 | SHA3_256 | SHA3_384 | SHA3_512
  | RawSHAKE128 | SHAKE128 | RawSHAKE256 | SHAKE256
  deriving DecidableEq, Repr

namespace Alg

/-- All the enumerators, include/libpgfe/algorithm-choice.h:16-49. -/
def all : List Alg := [MD5, SHA1, SHA224, SHA256, SHA384, SHA512, SHA512_224, SHA512_256,
  SHA3_224, SHA3_256, SHA3_384, SHA3_512, RawSHAKE128, SHAKE128, RawSHAKE256, SHAKE256]

/-- The context functions of an algorithm, as the batch macros src/core/generic-internal.h:44-97
select them by name.  `bits` is the output length passed to the digest function, for the SHAKE variants
only. -/
def impl : Alg → Nat → HashImpl
  | MD5, _ => md5Impl
  | SHA1, _ => sha1Impl
  | SHA224, _ => sha224Impl
  | SHA256, _ => sha256Impl
  | SHA384, _ => sha384Impl
  | SHA512, _ => sha512Impl
  | SHA512_224, _ => sha512_224Impl
  | SHA512_256, _ => sha512_256Impl
  | SHA3_224, _ => sha3_224Impl
  | SHA3_256, _ => sha3_256Impl
  | SHA3_384, _ => sha3_384Impl
  | SHA3_512, _ => sha3_512Impl
  | RawSHAKE128, bits => rawshake128Impl bits
  | SHAKE128, bits => shake128Impl bits
  | RawSHAKE256, bits => rawshake256Impl bits
  | SHAKE256, bits => shake256Impl bits

/-- `PGFE_<alg>_DIGEST_SIZE`, include/libpgfe/hashes/md5.h:19, sha1.h:19, sha2.h:20-25,
sha3.h:39-46. -/
def digestSize : Alg → Nat
  | MD5 => 16
  | SHA1 => 20
  | SHA224 => 28
  | SHA256 => 32
  | SHA384 => 48
  | SHA512 => 64
  | SHA512_224 => 28
  | SHA512_256 => 32
  | SHA3_224 => 28
  | SHA3_256 => 32
  | SHA3_384 => 48
  | SHA3_512 => 64
  | RawSHAKE128 => 32
  | SHAKE128 => 32
  | RawSHAKE256 => 64
  | SHAKE256 => 64

/-- `PGFE_<alg>_BLOCK_SIZE`, include/libpgfe/hashes/md5.h:20, sha1.h:20, sha2.h:28-33,
sha3.h:48-55. -/
def blockSize : Alg → Nat
  | MD5 => 64
  | SHA1 => 64
  | SHA224 => 64
  | SHA256 => 64
  | SHA384 => 128
  | SHA512 => 128
  | SHA512_224 => 128
  | SHA512_256 => 128
  | SHA3_224 => 144
  | SHA3_256 => 136
  | SHA3_384 => 104
  | SHA3_512 => 72
  | RawSHAKE128 => 168
  | SHAKE128 => 168
  | RawSHAKE256 => 136
  | SHAKE256 => 136

end Alg

/-- `pgfe_option_map`, include/libpgfe/generic.hpp:23-56. -/
def optionMap : List (List Byte × Alg) := [
  (str "sha1",        .SHA1       ),
  (str "SHA1",        .SHA1       ),
  (str "sha224",      .SHA224     ),
  (str "SHA224",      .SHA224     ),
  (str "sha256",      .SHA256     ),
  (str "SHA256",      .SHA256     ),
  (str "sha384",      .SHA384     ),
  (str "SHA384",      .SHA384     ),
  (str "sha512",      .SHA512     ),
  (str "SHA512",      .SHA512     ),
  (str "sha512_224",  .SHA512_224 ),
  (str "SHA512_224",  .SHA512_224 ),
  (str "sha512_256",  .SHA512_256 ),
  (str "SHA512_256",  .SHA512_256 ),
  (str "sha3_224",    .SHA3_224   ),
  (str "SHA3_224",    .SHA3_224   ),
  (str "sha3_256",    .SHA3_256   ),
  (str "SHA3_256",    .SHA3_256   ),
  (str "sha3_384",    .SHA3_384   ),
  (str "SHA3_384",    .SHA3_384   ),
  (str "sha3_512",    .SHA3_512   ),
  (str "SHA3_512",    .SHA3_512   ),
  (str "shake128",    .SHAKE128   ),
  (str "SHAKE128",    .SHAKE128   ),
  (str "rawshake128", .RawSHAKE128),
  (str "RawSHAKE128", .RawSHAKE128),
  (str "shake256",    .SHAKE256   ),
  (str "SHAKE256",    .SHAKE256   ),
  (str "rawshake256", .RawSHAKE256),
  (str "RawSHAKE256", .RawSHAKE256),
  (str "md5",         .MD5        ),
  (str "MD5",         .MD5        )]

/-- `pgfe_digest_length`, include/libpgfe/generic.hpp:58-75. -/
def digestLengthMap : List (Alg × Nat) := [
  (.SHA1,        Alg.digestSize .SHA1       ),
  (.SHA224,      Alg.digestSize .SHA224     ),
  (.SHA256,      Alg.digestSize .SHA256     ),
  (.SHA384,      Alg.digestSize .SHA384     ),
  (.SHA512,      Alg.digestSize .SHA512     ),
  (.SHA512_224,  Alg.digestSize .SHA512_224 ),
  (.SHA512_256,  Alg.digestSize .SHA512_256 ),
  (.SHA3_224,    Alg.digestSize .SHA3_224   ),
  (.SHA3_256,    Alg.digestSize .SHA3_256   ),
  (.SHA3_384,    Alg.digestSize .SHA3_384   ),
  (.SHA3_512,    Alg.digestSize .SHA3_512   ),
  (.MD5,         Alg.digestSize .MD5        ),
  (.SHAKE128,    Alg.digestSize .SHAKE128   ),
  (.RawSHAKE128, Alg.digestSize .RawSHAKE128),
  (.SHAKE256,    Alg.digestSize .SHAKE256   ),
  (.RawSHAKE256, Alg.digestSize .RawSHAKE256)]

/-- `pgfe_block_length`, include/libpgfe/generic.hpp:77-94. -/
def blockLengthMap : List (Alg × Nat) := [
  (.SHA1,        Alg.blockSize .SHA1       ),
  (.SHA224,      Alg.blockSize .SHA224     ),
  (.SHA256,      Alg.blockSize .SHA256     ),
  (.SHA384,      Alg.blockSize .SHA384     ),
  (.SHA512,      Alg.blockSize .SHA512     ),
  (.SHA512_224,  Alg.blockSize .SHA512_224 ),
  (.SHA512_256,  Alg.blockSize .SHA512_256 ),
  (.SHA3_224,    Alg.blockSize .SHA3_224   ),
  (.SHA3_256,    Alg.blockSize .SHA3_256   ),
  (.SHA3_384,    Alg.blockSize .SHA3_384   ),
  (.SHA3_512,    Alg.blockSize .SHA3_512   ),
  (.MD5,         Alg.blockSize .MD5        ),
  (.SHAKE128,    Alg.blockSize .SHAKE128   ),
  (.RawSHAKE128, Alg.blockSize .RawSHAKE128),
  (.SHAKE256,    Alg.blockSize .SHAKE256   ),
  (.RawSHAKE256, Alg.blockSize .RawSHAKE256)]

/-- `std::unordered_map::at` (C++ library): the mapped value of the key, or the exception
`std::out_of_range`. -/
def mapAt {α β : Type} [DecidableEq α] (m : List (α × β)) (k : α) : C β :=
  match m.find? (fun p => p.1 = k) with
  | some p => .ok p.2
  | none => .error .thrown

/-- `_algstr(std::string)`, src/core/generic.cpp:22-24; a `std::string` may contain zero bytes. -/
def algstr (s : List Byte) : C Alg := mapAt optionMap s

/-- `_algstr(const char *)`, src/core/generic.cpp:17-20; also `operator"" _pgfe_alg`,
include/libpgfe/generic.hpp:101-103.  `mem` is the memory the pointer points to. -/
def algstrC (mem : List Byte) : C Alg := do
  let n ← strlen mem
  algstr (mem.take n)

end Pgfe.Model
