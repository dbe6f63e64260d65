import Verif.Basic
/-!
# RFC 4648, from bits
-/
namespace Pgfe.Spec

/-- The eight bits of a byte, most significant first. -/
def bitsOfByte (b : Byte) : List Bool := (List.range 8).map (fun i => b.getMsbD i)

/-- The bits of a byte string, in order. -/
def bitsOf (x : List Byte) : List Bool := x.flatMap bitsOfByte

/-- The number whose binary digits, most significant first, are `l`. -/
def ofBits (l : List Bool) : Nat := l.foldl (fun a b => 2 * a + b.toNat) 0

/-- A base-2^bits text encoding: alphabet and number of characters per group. -/
structure BaseSpec where
  bits : Nat
  chars : Nat
  alphabet : List Byte

/-- Bytes per group. -/
def BaseSpec.unit (B : BaseSpec) : Nat := B.bits * B.chars / 8

/-- `l[from .. from+n)`, continued with zero bits beyond the end (RFC 4648 §4: "bits with value
zero are added (on the right)"). -/
def slice (l : List Bool) (start n : Nat) : List Bool :=
  (List.range n).map (fun t => l.getD (start + t) false)

/-- The values of the data characters. -/
def BaseSpec.digits (B : BaseSpec) (x : List Byte) : List Nat :=
  (List.range (((bitsOf x).length + B.bits - 1) / B.bits)).map
    (fun j => ofBits (slice (bitsOf x) (j * B.bits) B.bits))

/-- The padding character `=`. -/
def padChar : Byte := 0x3D#8

/-- RFC 4648 encoding: data characters, then `=` up to a whole group. -/
def BaseSpec.encode (B : BaseSpec) (x : List Byte) : List Byte :=
  (B.digits x).map (fun d => B.alphabet.getD d 0#8) ++
    List.replicate ((B.chars - (B.digits x).length % B.chars) % B.chars) padChar

/-- RFC 4648 §8. -/
def rfcBase16 : BaseSpec := ⟨4, 2, str "0123456789ABCDEF"⟩
/-- RFC 4648 §6. -/
def rfcBase32 : BaseSpec := ⟨5, 8, str "ABCDEFGHIJKLMNOPQRSTUVWXYZ234567"⟩
/-- RFC 4648 §7. -/
def rfcBase32Hex : BaseSpec := ⟨5, 8, str "0123456789ABCDEFGHIJKLMNOPQRSTUV"⟩
/-- RFC 4648 §4. -/
def rfcBase64 : BaseSpec :=
  ⟨6, 4, str "ABCDEFGHIJKLMNOPQRSTUVWXYZabcdefghijklmnopqrstuvwxyz0123456789+/"⟩
/-- RFC 4648 §5. -/
def rfcBase64Url : BaseSpec :=
  ⟨6, 4, str "ABCDEFGHIJKLMNOPQRSTUVWXYZabcdefghijklmnopqrstuvwxyz0123456789-_"⟩

/-- A text without its trailing characters `z`. -/
def dropTrailing (z : Byte) (l : List Byte) : List Byte := (l.reverse.dropWhile (· == z)).reverse

/-- The character standing for zero. -/
def BaseSpec.zeroChar (B : BaseSpec) : Byte := B.alphabet.getD 0 0#8

/-- What the library writes for a partial final group: like RFC 4648, but trailing zero characters
are also replaced by padding. -/
def BaseSpec.libLast (B : BaseSpec) (p : List Byte) : List Byte :=
  let d := dropTrailing B.zeroChar ((B.digits p).map (fun d => B.alphabet.getD d 0#8))
  d ++ List.replicate (B.chars - d.length) padChar

/-- What the library writes: the RFC 4648 text of the whole groups, then `libLast` of the rest. -/
def BaseSpec.libEncode (B : BaseSpec) (x : List Byte) : List Byte :=
  B.encode (x.take (x.length / B.unit * B.unit)) ++
    if x.length % B.unit = 0 then [] else B.libLast (x.drop (x.length / B.unit * B.unit))

/-- The whole bytes of a sequence of character values. -/
def BaseSpec.bytes (B : BaseSpec) (vs : List Nat) : List Byte :=
  (List.range (vs.length * B.bits / 8)).map (fun j =>
    BitVec.ofNat 8 (ofBits (slice (vs.flatMap (fun v =>
      (List.range B.bits).map (fun t => v.testBit (B.bits - 1 - t)))) (8 * j) 8)))

end Pgfe.Spec

namespace Pgfe.Spec

/-- Upper-case form of an ASCII letter. -/
def upper (c : Byte) : Byte := if 0x61#8 ≤ c ∧ c ≤ 0x7A#8 then c - 0x20#8 else c

/-- Value of a base16 character (either case). -/
def code16 (c : Byte) : Option Nat := rfcBase16.alphabet.idxOf? (upper c)
/-- Value of a base32 character (either case; padding counts as zero). -/
def code32 (c : Byte) : Option Nat :=
  if c = padChar then some 0 else rfcBase32.alphabet.idxOf? (upper c)
/-- Value of a base32hex character. -/
def code32Hex (c : Byte) : Option Nat :=
  if c = padChar then some 0 else rfcBase32Hex.alphabet.idxOf? (upper c)
/-- Value of a base64 character of the standard or the URL-safe alphabet. -/
def code64 (c : Byte) : Option Nat :=
  if c = padChar then some 0
  else match rfcBase64.alphabet.idxOf? c with
    | some v => some v
    | none => rfcBase64Url.alphabet.idxOf? c

/-- Does a text end with a character that has no value? -/
def lastForeign (code : Byte → Option Nat) (s : List Byte) : Bool :=
  match s.getLast? with
  | some c => (code c).isNone
  | none => false

/-- Number of groups the library's decoder produces for a text: the started groups of valued
characters, plus one if a foreign character follows the last complete group. -/
def BaseSpec.groups (B : BaseSpec) (code : Byte → Option Nat) (s : List Byte) : Nat :=
  (s.filterMap code).length / B.chars +
    if (s.filterMap code).length % B.chars ≠ 0 ∨ lastForeign code s then 1 else 0

/-- All bytes the decoder produces before the final cut: the valued characters, completed with zero
characters to whole groups, as bytes. -/
def BaseSpec.rawDecode (B : BaseSpec) (code : Byte → Option Nat) (s : List Byte) : List Byte :=
  B.bytes (s.filterMap code ++
    List.replicate (B.groups code s * B.chars - (s.filterMap code).length) 0)

/-- What the library's decoder returns: the bytes, the last group cut at its first zero byte. -/
def BaseSpec.libDecode (B : BaseSpec) (code : Byte → Option Nat) (s : List Byte) : List Byte :=
  let all := B.rawDecode code s
  let n := (B.groups code s - 1) * B.unit
  all.take n ++ (all.drop n).takeWhile (· != 0#8)

end Pgfe.Spec
