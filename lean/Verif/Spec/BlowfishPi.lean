import Mathlib.Analysis.SpecialFunctions.Trigonometric.Basic
import Verif.Spec.Blowfish
/-!
# The initial table of Blowfish

"Initialize first the P-array and then the four S-boxes, in order, with a fixed string. This string consists of the
hexadecimal digits of pi (less the initial 3)."
-/
namespace Pgfe.Spec.Blowfish

/-- Thirty-two binary digits of π, from digit `32 * k` after the point on. -/
noncomputable def piWord (k : Nat) : W32 := BitVec.ofNat 32 ⌊Real.pi * 2 ^ (32 * (k + 1))⌋₊

/-- The eighteen subkeys and the 4 × 256 entries of the S-boxes. -/
noncomputable def piTable : List W32 := (List.range (18 + 4 * 256)).map piWord

end Pgfe.Spec.Blowfish
