import Verif.Proofs.InPlace
import Verif.Props.Base
import Verif.Props.Hex
/-!
# C73: decoding a text in its own buffer
-/
namespace Pgfe.Props
open Pgfe Pgfe.Model Pgfe.Spec Pgfe.Proofs

/-- **C73, base encodings.** Every non-empty text `s`, in a buffer with room for the decoded bytes as in C12: decoding into
the same buffer gives the same bytes (followed by a zero byte) and the same length as decoding into any other output
array. -/
theorem C73_base (al : BaseAlg) (s rest rest' out : List Byte) (hs : 0#8 ∉ s) (hne : s ≠ [])
    (hm : DecFits al s.length (s ++ 0#8 :: rest)) (ho : DecFits al s.length out) :
    SameDecode (pgfeDecodeIn al (s ++ 0#8 :: rest)) (pgfeDecode al (s ++ 0#8 :: rest') out) := by
  have hr := raw_le al s
  rw [decodeIn_eq al s rest hs]
  exact ⟨_, decoded_ok al s rest _ hs hne (Nat.le_trans (Nat.add_le_add_right hr 1) hm),
    decoded_ok al s rest' _ hs hne (Nat.le_trans (Nat.add_le_add_right hr 1) ho)⟩

/-- **C73, base encodings, without a bound on the buffer.** Decoding in place has exactly the effect, errors included, of
decoding into a second array with the same contents. -/
theorem C73_base_exact (al : BaseAlg) (s rest : List Byte) (hs : 0#8 ∉ s) :
    pgfeDecodeIn al (s ++ 0#8 :: rest) = pgfeDecode al (s ++ 0#8 :: rest) (s ++ 0#8 :: rest) :=
  decodeIn_eq al s rest hs

/-- **C73, hexadecimal text.** For every array. -/
theorem C73_hex (mem : List Byte) : hexStringToHashIn mem = hexStringToHash mem mem := hexIn_eq mem

/-- **C73, hexadecimal text:** the bytes of a text of digits, in its own buffer; nothing else changes. -/
theorem C73_hex_parse (ds rest : List Byte) (hd : AllDigits ds) (hne : ds ≠ []) :
    hexStringToHashIn (ds ++ 0#8 :: rest)
      = .ok ((ds.length + 1) / 2, beBytes ((ds.length + 1) / 2) (numeral ds)
          ++ (ds ++ 0#8 :: rest).drop ((ds.length + 1) / 2)) := by
  have h := C02_parse [] ds [] rest (ds ++ 0#8 :: rest) (.inl rfl) (.inl rfl) hd hne
    (by rw [List.length_append, List.length_cons]; omega)
  rw [C73_hex]
  simpa using h

/-- One character of base32, whose five output bytes cover the terminator; and an odd number of hexadecimal digits. -/
theorem C73_example :
    pgfeDecodeIn .base32 (str "z" ++ 0#8 :: str "abcd") = .ok (1, [0xc8#8, 0#8, 0#8, 0#8, 0#8, 0x64#8]) ∧
    DecFits .base32 (str "z").length (str "z" ++ 0#8 :: str "abcd") ∧
    pgfeDecodeIn .base64 (str "Zm9v\nYmE=" ++ 0#8 :: [7#8]) = .ok (5, str "fooba" ++ 0#8 :: str "mE=" ++ [0#8, 7#8]) ∧
    hexStringToHashIn (str "1a2b3" ++ [0#8]) = .ok (3, [0x01#8, 0xa2#8, 0xb3#8, 0x62#8, 0x33#8, 0#8]) := by
  refine ⟨by decide +kernel, by unfold DecFits; decide, by decide +kernel, by decide +kernel⟩

end Pgfe.Props
