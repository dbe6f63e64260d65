import Verif.Tests.Common
/-!
# SHAKE and RawSHAKE

tests/cmake/shake_tests.cmake:32-60, first text, output length 256 bits and 512 bits (the longest used there).

Generated by tools/gen_tests.py from the expectations in /repo/tests.  These are *tests of the model*, evaluated by
the kernel; they are not claims of their own.  They show that the model computes what the project expects of the
program.
-/
namespace Pgfe.Tests
open Pgfe.Model

set_option maxRecDepth 100000

/-- tests/cmake/shake_tests.cmake:5. -/
theorem shake128_string1 : hashMain (shake128Impl 256) garbageK 32 (str "hello") =
    .ok (str "8eb4b6a932f280335ee1a279f8c208a349e7bc65daf831d3021c213825292463") := by
  decide +kernel

/-- tests/cmake/shake_tests.cmake:7. -/
theorem rawshake128_string1 : hashMain (rawshake128Impl 256) garbageK 32 (str "hello") =
    .ok (str "8db2b4fc65da8e681e297491bca4a2715bee8b4a92f9da8306fc814ffcc58c4c") := by
  decide +kernel

/-- tests/cmake/shake_tests.cmake:9. -/
theorem shake256_string1 : hashMain (shake256Impl 512) garbageK 64 (str "hello") =
    .ok (str "1234075ae4a1e77316cf2d8000974581a343b9ebbca7e3d1db83394c30f221626f594e4f0de63902349a5ea5781213215813919f92a4d86d127466e3d07e8be3") := by
  decide +kernel

/-- tests/cmake/shake_tests.cmake:11. -/
theorem rawshake256_string1 : hashMain (rawshake256Impl 512) garbageK 64 (str "hello") =
    .ok (str "0554aa0a35f324cd23839722f1de22a363d50c39267ff88bee3375f3d72e1dc3d7af32f161cddd35e9ec3676b3b688af1a8964358e014fa0935437290cb99960") := by
  decide +kernel

end Pgfe.Tests
