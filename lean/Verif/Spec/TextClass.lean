import Verif.Model.Base
import Verif.Model.Trace
/-!
# Specification: what the decoders' comparisons tell about a character (C99)

A decoder compares each character with the ends of the ranges of digits, capital and small letters of its
alphabet, and with the alphabet's single symbols.
-/
namespace Pgfe.Spec.TextClass
open Pgfe.Model (BaseAlg)

/-- Where the ranges of the alphabet begin, and where they have ended: digits, capitals, small letters. -/
def cuts : BaseAlg → List Nat
  | .base16 => [0x30, 0x3A, 0x41, 0x47, 0x61, 0x67]
  | .base32 => [0x32, 0x38, 0x41, 0x5B, 0x61, 0x7B]
  | .base32hex => [0x30, 0x3A, 0x41, 0x57, 0x61, 0x77]
  | .base64 | .base64url => [0x30, 0x3A, 0x41, 0x5B, 0x61, 0x7B]

/-- The symbols of the alphabet: `=`, and for base 64 also `+`, `-`, `/` and `_`. -/
def symbols : BaseAlg → List Byte
  | .base16 => []
  | .base32 | .base32hex => [0x3D#8]
  | .base64 | .base64url => [0x2B#8, 0x2D#8, 0x2F#8, 0x5F#8, 0x3D#8]

/-- The class of a character: the interval between the cuts it lies in, and the symbol, if it is one.
All digits of the alphabet have the same class, and so have all its capitals, and all its small letters. -/
def seen (a : BaseAlg) (c : Byte) : Nat × Option Byte :=
  ((cuts a).countP (fun n => decide (n ≤ c.toNat)), if c ∈ symbols a then some c else none)

/-- The `x` or `X` at the second place of a hexadecimal text. -/
def hexPrefix (t : List Byte) : Option Byte :=
  match t with
  | _ :: c :: _ => if c = 0x78#8 ∨ c = 0x58#8 then some c else none
  | _ => none

/-- The `h` or `H` at the end of a hexadecimal text. -/
def hexSuffix (t : List Byte) : Option Byte :=
  match t.getLast? with
  | some c => if c = 0x68#8 ∨ c = 0x48#8 then some c else none
  | none => none

/-- The text behind its prefix. -/
def hexBody (t : List Byte) : List Byte := if (hexPrefix t).isSome then t.drop 2 else t

/-- Forget which letter of the alphabet was looked up. -/
def anyLetter : Model.Event → Model.Event
  | .rd .K _ n => .rd .K 0 n
  | e => e

end Pgfe.Spec.TextClass
