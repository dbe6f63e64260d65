import Verif.Spec.Hmac
/-!
# What a MAC computation hashes
-/
namespace Pgfe.Spec

/-- What HMAC sees of a key: cut to the block size (the library does not hash long keys, C33) and filled up with
zero bytes. -/
def effectiveKey (B : Nat) (k : List Byte) : List Byte := k.take B ++ List.replicate (B - k.length) 0#8

/-- The string hashed first: the key with ipad, and the message. -/
def innerInput (B : Nat) (k m : List Byte) : List Byte := (effectiveKey B k).map (· ^^^ 0x36#8) ++ m

/-- The string hashed last: the key with opad, and the first hash. -/
def outerInput (H : List Byte → List Byte) (B : Nat) (k m : List Byte) : List Byte :=
  (effectiveKey B k).map (· ^^^ 0x5c#8) ++ H (innerInput B k m)

/-- Two different strings with the same hash. -/
def HashCollision (H : List Byte → List Byte) (x y : List Byte) : Prop := x ≠ y ∧ H x = H y

end Pgfe.Spec
