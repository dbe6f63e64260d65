import Verif.Tests.Common
/-!
# MD5, SHA-1, SHA-2

tests/cmake/hash_tests.cmake:47-61: every hash function on "hello".

Generated by tools/gen_tests.py from the expectations in /repo/tests.  These are *tests of the model*, evaluated by
the kernel; they are not claims of their own.  They show that the model computes what the project expects of the
program.
-/
namespace Pgfe.Tests
open Pgfe.Model

set_option maxRecDepth 100000

/-- tests/cmake/hash_tests.cmake:2. -/
theorem md5_string1 : hashMain md5Impl garbageMd5 16 (str "hello") =
    .ok (str "5d41402abc4b2a76b9719d911017c592") := by
  decide +kernel

/-- tests/cmake/hash_tests.cmake:4. -/
theorem sha1_string1 : hashMain sha1Impl (garbage32 5) 20 (str "hello") =
    .ok (str "aaf4c61ddcc5e8a2dabede0f3b482cd9aea9434d") := by
  decide +kernel

/-- tests/cmake/hash_tests.cmake:6. -/
theorem sha224_string1 : hashMain sha224Impl (garbage32 8) 28 (str "hello") =
    .ok (str "ea09ae9cc6768c50fcee903ed054556e5bfc8347907f12598aa24193") := by
  decide +kernel

/-- tests/cmake/hash_tests.cmake:8. -/
theorem sha256_string1 : hashMain sha256Impl (garbage32 8) 32 (str "hello") =
    .ok (str "2cf24dba5fb0a30e26e83b2ac5b9e29e1b161e5c1fa7425e73043362938b9824") := by
  decide +kernel

/-- tests/cmake/hash_tests.cmake:10. -/
theorem sha384_string1 : hashMain sha384Impl garbage64 48 (str "hello") =
    .ok (str "59e1748777448c69de6b800d7a33bbfb9ff1b463e44354c3553bcdb9c666fa90125a3c79f90397bdf5f6a13de828684f") := by
  decide +kernel

/-- tests/cmake/hash_tests.cmake:12. -/
theorem sha512_string1 : hashMain sha512Impl garbage64 64 (str "hello") =
    .ok (str "9b71d224bd62f3785d96d46ad3ea3d73319bfbc2890caadae2dff72519673ca72323c3d99ba5c11d7c7acc6e14b8c5da0c4663475c2e5c3adef46f73bcdec043") := by
  decide +kernel

/-- tests/cmake/hash_tests.cmake:14. -/
theorem sha512_224_string1 : hashMain sha512_224Impl garbage64 28 (str "hello") =
    .ok (str "fe8509ed1fb7dcefc27e6ac1a80eddbec4cb3d2c6fe565244374061c") := by
  decide +kernel

/-- tests/cmake/hash_tests.cmake:16. -/
theorem sha512_256_string1 : hashMain sha512_256Impl garbage64 32 (str "hello") =
    .ok (str "e30d87cfa2a75db545eac4d61baf970366a8357c7f72fa95b52d0accb698f13a") := by
  decide +kernel

end Pgfe.Tests
