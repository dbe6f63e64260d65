import Verif.Tests.Common
/-!
# HMAC

tests/cmake/hmac_tests.cmake:25-46.

Generated by tools/gen_tests.py from the expectations in /repo/tests.  These are *tests of the model*, evaluated by
the kernel; they are not claims of their own.  They show that the model computes what the project expects of the
program.
-/
namespace Pgfe.Tests
open Pgfe.Model

set_option maxRecDepth 100000

/-- Memory full of rubbish. -/
def md5Locals : HmacCtx.Mem (Alg.impl .MD5 0) :=
  ⟨⟨garbageMd5, List.replicate 64 0x55#8, List.replicate 64 0x66#8⟩, List.replicate 17 0x88#8, garbageMd5⟩

/-- tests/cmake/hmac_tests.cmake:6. -/
theorem hmac_md5_1 : hmacMain .MD5 md5Locals (str "0x0b0b0b0b0b0b0b0b0b0b0b0b0b0b0b0b") (str "Hi There") =
    .ok (str "9294727a3638bb1c13f48ef8158bfc9d") := by
  decide +kernel

/-- tests/cmake/hmac_tests.cmake:6. -/
theorem hmac_md5_2 : hmacMain .MD5 md5Locals (str "Jefe") (str "what do ya want for nothing?") =
    .ok (str "750c783e6ab0b503eaa86e310a5db738") := by
  decide +kernel

/-- Memory full of rubbish. -/
def sha1Locals : HmacCtx.Mem (Alg.impl .SHA1 0) :=
  ⟨⟨(garbage32 5), List.replicate 64 0x55#8, List.replicate 64 0x66#8⟩, List.replicate 21 0x88#8, (garbage32 5)⟩

/-- tests/cmake/hmac_tests.cmake:8. -/
theorem hmac_sha1_1 : hmacMain .SHA1 sha1Locals (str "0x0b0b0b0b0b0b0b0b0b0b0b0b0b0b0b0b") (str "Hi There") =
    .ok (str "675b0b3a1b4ddf4e124872da6c2f632bfed957e9") := by
  decide +kernel

/-- tests/cmake/hmac_tests.cmake:8. -/
theorem hmac_sha1_2 : hmacMain .SHA1 sha1Locals (str "Jefe") (str "what do ya want for nothing?") =
    .ok (str "effcdf6ae5eb2fa2d27416d5f184df9c259a7c79") := by
  decide +kernel

/-- Memory full of rubbish. -/
def sha224Locals : HmacCtx.Mem (Alg.impl .SHA224 0) :=
  ⟨⟨(garbage32 8), List.replicate 64 0x55#8, List.replicate 64 0x66#8⟩, List.replicate 29 0x88#8, (garbage32 8)⟩

/-- tests/cmake/hmac_tests.cmake:10. -/
theorem hmac_sha224_1 : hmacMain .SHA224 sha224Locals (str "0x0b0b0b0b0b0b0b0b0b0b0b0b0b0b0b0b") (str "Hi There") =
    .ok (str "4e841ce7a4ae83fbcf71e3cd64bfbf277f73a14680aae8c518ac7861") := by
  decide +kernel

/-- tests/cmake/hmac_tests.cmake:11. -/
theorem hmac_sha224_2 : hmacMain .SHA224 sha224Locals (str "Jefe") (str "what do ya want for nothing?") =
    .ok (str "a30e01098bc6dbbf45690f3a7e9e6d0f8bbea2a39e6148008fd05e44") := by
  decide +kernel

/-- Memory full of rubbish. -/
def sha256Locals : HmacCtx.Mem (Alg.impl .SHA256 0) :=
  ⟨⟨(garbage32 8), List.replicate 64 0x55#8, List.replicate 64 0x66#8⟩, List.replicate 33 0x88#8, (garbage32 8)⟩

/-- tests/cmake/hmac_tests.cmake:13. -/
theorem hmac_sha256_1 : hmacMain .SHA256 sha256Locals (str "0x0b0b0b0b0b0b0b0b0b0b0b0b0b0b0b0b") (str "Hi There") =
    .ok (str "492ce020fe2534a5789dc3848806c78f4f6711397f08e7e7a12ca5a4483c8aa6") := by
  decide +kernel

/-- tests/cmake/hmac_tests.cmake:14. -/
theorem hmac_sha256_2 : hmacMain .SHA256 sha256Locals (str "Jefe") (str "what do ya want for nothing?") =
    .ok (str "5bdcc146bf60754e6a042426089575c75a003f089d2739839dec58b964ec3843") := by
  decide +kernel

/-- Memory full of rubbish. -/
def sha384Locals : HmacCtx.Mem (Alg.impl .SHA384 0) :=
  ⟨⟨garbage64, List.replicate 128 0x55#8, List.replicate 128 0x66#8⟩, List.replicate 49 0x88#8, garbage64⟩

/-- tests/cmake/hmac_tests.cmake:16. -/
theorem hmac_sha384_1 : hmacMain .SHA384 sha384Locals (str "0x0b0b0b0b0b0b0b0b0b0b0b0b0b0b0b0b") (str "Hi There") =
    .ok (str "7afaa633e20d379b02395915fbc385ff8dc27dcd3885e1068ab942eeab52ec1f20ad382a92370d8b2e0ac8b83c4d53bf") := by
  decide +kernel

/-- tests/cmake/hmac_tests.cmake:17. -/
theorem hmac_sha384_2 : hmacMain .SHA384 sha384Locals (str "Jefe") (str "what do ya want for nothing?") =
    .ok (str "af45d2e376484031617f78d2b58a6b1b9c7ef464f5a01b47e42ec3736322445e8e2240ca5e69e2c78b3239ecfab21649") := by
  decide +kernel

/-- Memory full of rubbish. -/
def sha512Locals : HmacCtx.Mem (Alg.impl .SHA512 0) :=
  ⟨⟨garbage64, List.replicate 128 0x55#8, List.replicate 128 0x66#8⟩, List.replicate 65 0x88#8, garbage64⟩

/-- tests/cmake/hmac_tests.cmake:19. -/
theorem hmac_sha512_1 : hmacMain .SHA512 sha512Locals (str "0x0b0b0b0b0b0b0b0b0b0b0b0b0b0b0b0b") (str "Hi There") =
    .ok (str "7641c48a3b4aa8f887c07b3e83f96affb89c978fed8c96fcbbf4ad596eebfe496f9f16da6cd080ba393c6f365ad72b50d15c71bfb1d6b81f66a911786c6ce932") := by
  decide +kernel

/-- tests/cmake/hmac_tests.cmake:20. -/
theorem hmac_sha512_2 : hmacMain .SHA512 sha512Locals (str "Jefe") (str "what do ya want for nothing?") =
    .ok (str "164b7a7bfcf819e2e395fbe73b56e0a387bd64222e831fd610270cd7ea2505549758bf75c05a994a6d034f65f8f0e6fdcaeab1a34d4a6b4b636e070a38bce737") := by
  decide +kernel

end Pgfe.Tests
