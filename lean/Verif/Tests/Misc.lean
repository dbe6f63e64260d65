import Verif.Tests.Hmac
import Verif.Model.Otp
import Verif.Model.Base
/-!
# HOTP, base encodings, hexadecimal text

tests/cmake/otp_tests.cmake, base_tests.cmake, util_tests.cmake.

Generated by tools/gen_tests.py from the expectations in /repo/tests.  These are *tests of the model*, evaluated by
the kernel; they are not claims of their own.  They show that the model computes what the project expects of the
program.
-/
namespace Pgfe.Tests
open Pgfe.Model

set_option maxRecDepth 100000

/-- `main` of tests/c/otptest.h:14-44 (`counter` already parsed); the printed number. -/
def hotpMain (a : Alg) (g : HmacCtx.Mem (a.impl 0)) (keyLen : Nat) (hex : List Byte) (counter : W64) : C Nat := do
  let (_, key) ← hexStringToHash (hex ++ [0#8]) (List.replicate 100 0x31#8)
  hotpGeneric a g (List.replicate 8 0x41#8) (List.replicate a.digestSize 0x51#8) key keyLen counter 8

/-- tests/cmake/otp_tests.cmake:7. -/
theorem hotp_sha1 : hotpMain .SHA1 sha1Locals 20 (str "3132333435363738393031323334353637383930") 1#64 =
    .ok 94287082 := by
  decide +kernel

/-- tests/cmake/otp_tests.cmake:7. -/
theorem hotp_sha256 : hotpMain .SHA256 sha256Locals 32 (str "3132333435363738393031323334353637383930313233343536373839303132") 37037037#64 =
    .ok 67062674 := by
  decide +kernel

/-- tests/cmake/otp_tests.cmake:7. -/
theorem hotp_sha512 : hotpMain .SHA512 sha512Locals 64 (str "31323334353637383930313233343536373839303132333435363738393031323334353637383930313233343536373839303132333435363738393031323334") 37037036#64 =
    .ok 25091201 := by
  decide +kernel

/-- What `puts` prints of a buffer: the characters before the first NUL. -/
def puts (buf : List Byte) : List Byte := buf.takeWhile (· != 0#8)

/-- `main` of tests/c/baseencodetest.h:16-21 and so on.  The encoders overrun their scratch arrays (C11): the tests pass
only because there is memory behind them, one readable and two writable bytes. -/
def baseEncodeMain (a : BaseAlg) (arg : List Byte) : C (List Byte) := do
  let (_, out) ← pgfeEncode a ⟨[0x21#8], [0x22#8, 0x23#8]⟩ (List.replicate 99 0x2A#8) (arg ++ [0#8]) arg.length (List.replicate 700 0x2B#8)
  .ok (puts out)
/-- `main` of tests/c/baseencodetest.h:23-28 and so on. -/
def baseDecodeMain (a : BaseAlg) (arg : List Byte) : C (List Byte) := do
  let (_, out) ← pgfeDecode a (arg ++ [0#8]) (List.replicate 700 0x2B#8)
  .ok (puts out)

/-- tests/cmake/base_tests.cmake:4. -/
theorem base16_encode1 : baseEncodeMain .base16 (str "hello") = .ok (str "68656C6C6F") := by decide +kernel
/-- tests/cmake/base_tests.cmake:4. -/
theorem base16_decode1 : baseDecodeMain .base16 (str "68656C6C6F") = .ok (str "hello") := by decide +kernel

/-- tests/cmake/base_tests.cmake:4. -/
theorem base16_encode2 : baseEncodeMain .base16 (str "how are you?") = .ok (str "686F772061726520796F753F") := by decide +kernel
/-- tests/cmake/base_tests.cmake:4. -/
theorem base16_decode2 : baseDecodeMain .base16 (str "686F772061726520796F753F") = .ok (str "how are you?") := by decide +kernel

/-- tests/cmake/base_tests.cmake:6. -/
theorem base32_encode1 : baseEncodeMain .base32 (str "hello") = .ok (str "NBSWY3DP") := by decide +kernel
/-- tests/cmake/base_tests.cmake:6. -/
theorem base32_decode1 : baseDecodeMain .base32 (str "NBSWY3DP") = .ok (str "hello") := by decide +kernel

/-- tests/cmake/base_tests.cmake:6. -/
theorem base32_encode2 : baseEncodeMain .base32 (str "how are you?") = .ok (str "NBXXOIDBOJSSA6LPOU7Q====") := by decide +kernel
/-- tests/cmake/base_tests.cmake:6. -/
theorem base32_decode2 : baseDecodeMain .base32 (str "NBXXOIDBOJSSA6LPOU7Q====") = .ok (str "how are you?") := by decide +kernel

/-- tests/cmake/base_tests.cmake:7. -/
theorem base32hex_encode1 : baseEncodeMain .base32hex (str "hello") = .ok (str "D1IMOR3F") := by decide +kernel
/-- tests/cmake/base_tests.cmake:7. -/
theorem base32hex_decode1 : baseDecodeMain .base32hex (str "D1IMOR3F") = .ok (str "hello") := by decide +kernel

/-- tests/cmake/base_tests.cmake:7. -/
theorem base32hex_encode2 : baseEncodeMain .base32hex (str "how are you?") = .ok (str "D1NNE831E9II0UBFEKVG====") := by decide +kernel
/-- tests/cmake/base_tests.cmake:7. -/
theorem base32hex_decode2 : baseDecodeMain .base32hex (str "D1NNE831E9II0UBFEKVG====") = .ok (str "how are you?") := by decide +kernel

/-- tests/cmake/base_tests.cmake:9. -/
theorem base64_encode1 : baseEncodeMain .base64 (str "hello") = .ok (str "aGVsbG8=") := by decide +kernel
/-- tests/cmake/base_tests.cmake:9. -/
theorem base64_decode1 : baseDecodeMain .base64 (str "aGVsbG8=") = .ok (str "hello") := by decide +kernel

/-- tests/cmake/base_tests.cmake:9. -/
theorem base64_encode2 : baseEncodeMain .base64 (str "how are you?") = .ok (str "aG93IGFyZSB5b3U/") := by decide +kernel
/-- tests/cmake/base_tests.cmake:9. -/
theorem base64_decode2 : baseDecodeMain .base64 (str "aG93IGFyZSB5b3U/") = .ok (str "how are you?") := by decide +kernel

/-- `main` of tests/c/utilstest.h:13-20. -/
def string2hashMain (arg : List Byte) : C (List Byte) := do
  let (_, h) ← hexStringToHash (arg ++ [0#8]) (List.replicate 128 0xEE#8)
  printHash h (arg.length / 2 + arg.length % 2)
/-- `main` of tests/c/utilstest.h:22-27. -/
def cleanMain (arg : List Byte) : C (List Byte) := do
  let (_, out) ← hashStringClean (arg ++ [0#8]) (List.replicate 128 0xEE#8)
  .ok (puts out)
/-- `main` of tests/c/utilstest.h:29-35. -/
def cleanInPlaceMain (arg : List Byte) : C (List Byte) := do
  let (_, out) ← hashStringCleanInPlace (splice (List.replicate 128 0xEE#8) 0 (arg ++ [0#8]))
  .ok (puts out)

/-- tests/cmake/util_tests.cmake:8; the expected digits, then perhaps rubbish from beyond the parsed bytes. -/
theorem string_to_hash_normal : string2hashMain (str "aaf4c61ddcc5e8a2dabede0f3b482cd9aea9434d") =
    .ok (str "aaf4c61ddcc5e8a2dabede0f3b482cd9aea9434d") := by
  decide +kernel

/-- tests/cmake/util_tests.cmake:12; the expected digits, then perhaps rubbish from beyond the parsed bytes. -/
theorem string_to_hash_odd_length : string2hashMain (str "aaf4c61ddcc5e8a2dabede0f3b482cd9aea9434") =
    .ok (str "0aaf4c61ddcc5e8a2dabede0f3b482cd9aea9434") := by
  decide +kernel

/-- tests/cmake/util_tests.cmake:16; the expected digits, then perhaps rubbish from beyond the parsed bytes. -/
theorem string_to_hash_with_prefix : string2hashMain (str "0xaaf4c61ddcc5e8a2dabede0f3b482cd9aea9434d") =
    .ok (str "aaf4c61ddcc5e8a2dabede0f3b482cd9aea9434dee") := by
  decide +kernel

/-- tests/cmake/util_tests.cmake:20; the expected digits, then perhaps rubbish from beyond the parsed bytes. -/
theorem string_to_hash_prefix_odd : string2hashMain (str "0Xaaf4c61ddcc5e8a2dabede0f3b482cd9aea9434") =
    .ok (str "0aaf4c61ddcc5e8a2dabede0f3b482cd9aea9434ee") := by
  decide +kernel

/-- tests/cmake/util_tests.cmake:24; the expected digits, then perhaps rubbish from beyond the parsed bytes. -/
theorem string_to_hash_with_suffix : string2hashMain (str "aaf4c61ddcc5e8a2dabede0f3b482cd9aea9434dH") =
    .ok (str "aaf4c61ddcc5e8a2dabede0f3b482cd9aea9434dee") := by
  decide +kernel

/-- tests/cmake/util_tests.cmake:28; the expected digits, then perhaps rubbish from beyond the parsed bytes. -/
theorem string_to_hash_suffix_odd : string2hashMain (str "aaf4c61ddcc5e8a2dabede0f3b482cd9aea9434h") =
    .ok (str "0aaf4c61ddcc5e8a2dabede0f3b482cd9aea9434") := by
  decide +kernel

/-- tests/cmake/util_tests.cmake:32; the expected digits, then perhaps rubbish from beyond the parsed bytes. -/
theorem string_to_hash_both_odd : string2hashMain (str "0Xaaf4c61ddcc5e8a2dabede0f3b482cd9aea9434h") =
    .ok (str "0aaf4c61ddcc5e8a2dabede0f3b482cd9aea9434ee") := by
  decide +kernel

/-- tests/cmake/util_tests.cmake:6, 34-43. -/
theorem hash_string_clean : cleanMain (str "0Xaaf4c61ddc+`ZZHHgc5[e8a2dab;:edeKKKKKK0f3b48??//2cdw9aea9434h") =
    .ok (str "aaf4c61ddcc5e8a2dabede0f3b482cd9aea9434") := by
  decide +kernel

/-- tests/cmake/util_tests.cmake:6, 34-43. -/
theorem hash_string_clean_inplace : cleanInPlaceMain (str "0Xaaf4c61ddc+`ZZHHgc5[e8a2dab;:edeKKKKKK0f3b48??//2cdw9aea9434h") =
    .ok (str "aaf4c61ddcc5e8a2dabede0f3b482cd9aea9434") := by
  decide +kernel

end Pgfe.Tests
