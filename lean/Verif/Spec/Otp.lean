import Verif.Spec.Hmac
/-!
# RFC 4226 and RFC 6238
-/
namespace Pgfe.Spec

/-- The `n` bytes of a number, most significant byte first. -/
def bytesBE (n x : Nat) : List Byte := (List.range n).map (fun i => BitVec.ofNat 8 (x / 256 ^ (n - 1 - i)))

/-- The number a byte string denotes, most significant byte first. -/
def natBE (l : List Byte) : Nat := l.foldl (fun a b => 256 * a + b.toNat) 0

/-- RFC 4226 section 5.3, `DT`: the low-order four bits of the last byte are an offset; the four bytes from
there on, without the most significant bit. -/
def DT (hs : List Byte) : Nat :=
  let offset := (hs.getLastD 0#8).toNat % 16
  natBE ((hs.drop offset).take 4) % 2 ^ 31

/-- RFC 4226: HOTP(K, C) = Truncate(HMAC(K, C)), `digits` decimal digits; C is an 8-byte value, high-order
byte first.  `mac` is the HMAC. -/
def rfcHotp (mac : List Byte → List Byte → List Byte) (secret : List Byte) (counter digits : Nat) : Nat :=
  DT (mac secret (bytesBE 8 counter)) % 10 ^ digits

/-- The last `d` decimal digits of `n`, most significant first, as characters. -/
def decDigits (d n : Nat) : List Byte := (List.range d).map (fun i => BitVec.ofNat 8 (0x30 + n / 10 ^ (d - 1 - i) % 10))

/-- The number a string of decimal digits denotes. -/
def decVal (s : List Byte) : Nat := s.foldl (fun a b => 10 * a + (b.toNat - 0x30)) 0

/-- RFC 6238: T = floor((now - T0) / X). -/
def timeStep (now t0 : Int) (x : Nat) : Int := Int.fdiv (now - t0) x

end Pgfe.Spec
