import Verif.Model.BaseObject
import Mathlib.Data.Int.Log
import Mathlib.Data.Rat.Floor
import Mathlib.Algebra.Order.Floor.Ring
/-!
# The size estimates of `AbstractBaseEncoding` in double precision

IEEE 754 binary64 arithmetic, rounding to nearest, ties to even, one rounding per operation (no excess
precision, no fused operations).  Only non-negative normal numbers and zero occur; the exponent range is not
bounded here (lengths are below 2^64).
-/
namespace Pgfe.Model

/-- The nearest integer, ties to even. -/
def roundEven (q : ℚ) : ℤ :=
  if q - ⌊q⌋ < 1 / 2 then ⌊q⌋
  else if 1 / 2 < q - ⌊q⌋ then ⌊q⌋ + 1
  else if ⌊q⌋ % 2 = 0 then ⌊q⌋ else ⌊q⌋ + 1

/-- The double nearest to `q` ≥ 0: 53 significant bits. -/
def dbl (q : ℚ) : ℚ :=
  if q = 0 then 0
  else roundEven (q / (2 : ℚ) ^ (Int.log 2 q - 52)) * (2 : ℚ) ^ (Int.log 2 q - 52)

/-- `PGFE_SPACE_MULTIPLE`, src/base_encoding/abstract_base_encoding.cpp:14. -/
def spaceMultiple : ℚ := dbl (12 / 10)

/-- `bitsz`: `init_size`, src/base_encoding/base16.cpp:19-26, base32.cpp:25-32, base64.cpp:24-31 with
`PGFE_BASE16_BIT_SIZE`, `PGFE_BASE32_BIT_SIZE`, `PGFE_BASE64_BIT_SIZE`, include/libpgfe/base_encoding/base16.h:12,
base32.h:12, base64.h:12. -/
def bitszOf : BaseAlg → Nat
  | .base16 => 4
  | .base32 => 5
  | .base32hex => 5
  | .base64 => 6
  | .base64url => 6

/-- `(size_t)ceil(length * ((double)to_bit(sizeof(pgfe_encode_t)) / (double)bitsz) * PGFE_SPACE_MULTIPLE)`,
src/base_encoding/abstract_base_encoding.cpp:24.  (The conversion to `size_t` is undefined for values from 2^64 on,
which a length that fits into memory does not reach.) -/
def encEstimate (bitsz : Nat) (length : Nat) : Nat :=
  ⌈dbl (dbl (dbl length * dbl (dbl 8 / dbl bitsz)) * spaceMultiple)⌉.toNat

/-- `(size_t)ceil(strlen(base_cs) * ((double)bitsz / (double)to_bit(sizeof(pgfe_encode_t))) * PGFE_SPACE_MULTIPLE)`,
src/base_encoding/abstract_base_encoding.cpp:54-55. -/
def decEstimate (bitsz : Nat) (length : Nat) : Nat :=
  ⌈dbl (dbl (dbl length * dbl (dbl bitsz / dbl 8)) * spaceMultiple)⌉.toNat

/-- The classes `Base16`, `Base32`, `Base64` in their modes. -/
def libBase (al : BaseAlg) : BaseClass := ⟨al, encEstimate (bitszOf al), decEstimate (bitszOf al)⟩

end Pgfe.Model
