import Verif.Model.Md5
import Verif.Proofs.Md5Sin
/-!
# C16: the constants of MD5

RFC 1321, section 3.4: "Let T[i] denote the i-th element of the table, which is equal to the integer
part of 4294967296 times abs(sin(i)), where i is in radians."
-/
namespace Pgfe.Props

/-- **C16, the table of the standard.** The 64 constants that the specification of MD5 lists are those
the RFC defines: entry number `i + 1` is the integer part of 2^32 |sin (i + 1)|. -/
theorem C16_table (i : Nat) (hi : i < 64) :
    (Spec.Md5.T.getD i 0).toNat = ⌊2 ^ 32 * |Real.sin ((i : ℝ) + 1)|⌋₊ := Proofs.Md5Sin.table i hi

/-- There are 64 of them. -/
theorem C16_table_size : Spec.Md5.T.length = 64 := rfl

/-- **C16, the table of the library.** The constant used in operation `j` of round `r` (both counted
from 0) is the integer part of 2^32 |sin (16 r + j + 1)|. -/
theorem C16_constants (r j : Nat) (hr : r < 4) (hj : j < 16) :
    Model.md5Ac.length = 4 ∧ (Model.md5Ac.getD r []).length = 16 ∧
    ((Model.md5Ac.getD r []).getD j 0).toNat = ⌊2 ^ 32 * |Real.sin ((16 * r + j : Nat) + 1 : ℝ)|⌋₊ := by
  have e : ∀ r < 4, (Model.md5Ac.getD r []).length = 16 ∧ ∀ j < 16,
      (Model.md5Ac.getD r []).getD j 0 = Spec.Md5.T.getD (16 * r + j) 0 := by decide +kernel
  obtain ⟨e1, e2⟩ := e r hr
  refine ⟨rfl, e1, ?_⟩
  rw [e2 j hj]
  exact C16_table (16 * r + j) (by omega)

end Pgfe.Props
