import Verif.Tests.Common
/-!
# SHA-3

tests/cmake/hash_tests.cmake:47-61: every hash function on "hello".

Generated by tools/gen_tests.py from the expectations in /repo/tests.  These are *tests of the model*, evaluated by
the kernel; they are not claims of their own.  They show that the model computes what the project expects of the
program.
-/
namespace Pgfe.Tests
open Pgfe.Model

set_option maxRecDepth 100000

/-- tests/cmake/hash_tests.cmake:18. -/
theorem sha3_224_string1 : hashMain sha3_224Impl garbageK 28 (str "hello") =
    .ok (str "b87f88c72702fff1748e58b87e9141a42c0dbedc29a78cb0d4a5cd81") := by
  decide +kernel

/-- tests/cmake/hash_tests.cmake:20. -/
theorem sha3_256_string1 : hashMain sha3_256Impl garbageK 32 (str "hello") =
    .ok (str "3338be694f50c5f338814986cdf0686453a888b84f424d792af4b9202398f392") := by
  decide +kernel

/-- tests/cmake/hash_tests.cmake:22. -/
theorem sha3_384_string1 : hashMain sha3_384Impl garbageK 48 (str "hello") =
    .ok (str "720aea11019ef06440fbf05d87aa24680a2153df3907b23631e7177ce620fa1330ff07c0fddee54699a4c3ee0ee9d887") := by
  decide +kernel

/-- tests/cmake/hash_tests.cmake:24. -/
theorem sha3_512_string1 : hashMain sha3_512Impl garbageK 64 (str "hello") =
    .ok (str "75d527c368f2efe848ecf6b073a36767800805e9eef2b1857d5f984f036eb6df891d75f72d9b154518c1cd58835286d1da9a38deba3de98b5a53e5ed78a84976") := by
  decide +kernel

end Pgfe.Tests
