import Verif.Model.Trace
/-!
# Specification: how much work a call does

The number of steps in a trace (Model/Trace): every decision, every loop iteration and every access to an array
counts one, an access to a range of `n` elements (`memcpy`, `memset`) counts `n`.
-/
namespace Pgfe.Spec
open Pgfe.Model

/-- The weight of one step. -/
def weight : Event → Nat
  | .rd _ _ n => max 1 n
  | .wr _ _ n => max 1 n
  | .br _ => 1
  | .sw _ => 1

/-- The number of steps. -/
def work (l : List Event) : Nat := (l.map weight).sum

/-- Steps per byte of input.  A block of SHA-1 costs 741 steps, of SHA-224 and SHA-256 603, of the other SHA-2
functions 1035 (for 128 bytes), of MD5 not more than 832, and of a KECCAK function 11652 (for 72 to 168 bytes, and every
bit is charged). -/
def perByte : Alg → Nat
  | .MD5 => 15
  | .SHA1 => 18
  | .SHA224 | .SHA256 => 16
  | .SHA384 | .SHA512 | .SHA512_224 | .SHA512_256 => 15
  | .SHA3_224 | .SHA3_256 | .RawSHAKE256 | .SHAKE256 => 184
  | .SHA3_384 => 216
  | .SHA3_512 => 264
  | .RawSHAKE128 | .SHAKE128 => 168

/-- Steps for a digest call: the padding (at most two blocks) and the output; for the SHAKE functions linear in the number
of output bits, taken modulo 2^32. -/
def perDigest (a : Alg) (bits : Nat) : Nat :=
  match a with
  | .MD5 => 1129
  | .SHA1 => 1681
  | .SHA224 | .SHA256 => 1377
  | .SHA384 | .SHA512 | .SHA512_224 | .SHA512_256 => 2409
  | .SHA3_224 | .SHA3_256 | .SHA3_384 | .SHA3_512 => 50000
  | .RawSHAKE128 | .SHAKE128 | .RawSHAKE256 | .SHAKE256 => 40000 + 17 * (bits % 2 ^ 32)

/-- Steps for a call besides those for its input and for a digest. -/
def perCall : Nat := 217

/-- The bytes fed by a sequence of calls. -/
def fed : List HashImpl.Call → Nat
  | [] => 0
  | .update x :: l => x.length + fed l
  | .digest _ :: l => fed l

/-- The digest calls in a sequence of calls. -/
def digests : List HashImpl.Call → Nat
  | [] => 0
  | .update _ :: l => digests l
  | .digest _ :: l => digests l + 1

/-- Steps for a call on an HMAC context besides those for its message: at most two digests, and a block and a digest
as input. -/
def perMac (a : Alg) : Nat := 2 * perDigest a 0 + 232 * perByte a + 2500

/-- The bytes of message fed by a sequence of calls on an HMAC context (keys do not count). -/
def macFed {I : HashImpl} : List (HmacCtx.Call I) → Nat
  | [] => 0
  | .update x :: l => x.length + macFed l
  | _ :: l => macFed l

end Pgfe.Spec
