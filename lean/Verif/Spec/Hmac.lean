import Verif.Basic
/-!
# RFC 2104
-/
namespace Pgfe.Spec

/-- RFC 2104 section 2, steps (1), (2), (5): every byte of `k` xored with the byte `u`, after `k` was
extended with zero bytes to length `B`. -/
def xorPad (B : Nat) (k : List Byte) (u : Byte) : List Byte :=
  (k ++ List.replicate (B - k.length) 0#8).map (· ^^^ u)

/-- `H(K XOR opad, H(K XOR ipad, text))`, RFC 2104 section 2, for a key of at most `B` bytes. -/
def hmacShort (H : List Byte → List Byte) (B : Nat) (k text : List Byte) : List Byte :=
  H (xorPad B k 0x5c#8 ++ H (xorPad B k 0x36#8 ++ text))

/-- RFC 2104: keys longer than `B` bytes are first hashed. -/
def hmac (H : List Byte → List Byte) (B : Nat) (k text : List Byte) : List Byte :=
  hmacShort H B (if k.length > B then H k else k) text

end Pgfe.Spec
