import Verif.Proofs.TextWork
import Verif.Props.TextTrace
/-!
# C100: the work of the text functions is linear

`work` is the number of steps of a trace (Spec/Work): decisions, loop iterations and accesses, an access to `n` elements
counting `n`.
-/
namespace Pgfe.Props
open Pgfe.Model Pgfe.Spec Pgfe.Proofs

/-- **C100 (decoders).**  A call takes at most 45 steps for each character before the first NUL and 29 besides, whatever the
characters, the memory behind the text and the output array are, and also if it does not return (no NUL, an output array
that is too small, an empty text). -/
theorem C100_decode (a : BaseAlg) (text out : List Byte) :
    work (Tr.Text.decode a text out).tr ≤ 45 * textLen text + 29 ∧
    (Tr.Text.decode a text out).res = pgfeDecode a text out :=
  ⟨Work.decode_bd a text out, TextTrace.decode_res a text out⟩

/-- **C100 (encoders).**  A call takes at most 263 steps for each group of 1 (base 16), 5 (base 32) or 3 (base 64) bytes begun, and
2 besides. -/
theorem C100_encode (a : BaseAlg) (S : Slack) (g input : List Byte) (n : Nat) (out : List Byte) :
    work (Tr.Text.encode a S g input n out).tr ≤ 263 * ceilDiv n (specOf a).unit + 2 ∧
    (Tr.Text.encode a S g input n out).res = pgfeEncode a S g input n out := by
  refine ⟨?_, TextTrace.encode_res a S g input n out⟩
  have := Work.encode_bd a S g input n out
  rw [(params_eq a).2.1] at this
  exact this

/-- **C100 (hexadecimal texts).**  A call takes at most 14 steps for each character before the first NUL and 11 besides. -/
theorem C100_hex (text out : List Byte) :
    work (Tr.Text.hexStringToHash text out).tr ≤ 14 * textLen text + 11 ∧
    (Tr.Text.hexStringToHash text out).res = hexStringToHash text out :=
  ⟨Work.hexStringToHash_bd text out, TextTrace.hexStringToHash_res text out⟩

/-- The steps are really counted. -/
theorem C100_counted :
    work (Tr.Text.decode .base64 (str "aGVs bG8=" ++ [0#8]) (List.replicate 10 0#8)).tr = 144 ∧
    work (Tr.Text.encode .base64 ⟨[0#8], [0#8, 0#8]⟩ [0#8, 0#8, 0#8, 0#8] (str "hello") 5 (List.replicate 9 0#8)).tr = 149 ∧
    work (Tr.Text.hexStringToHash (str "0x1a2Fh" ++ [0#8]) [0#8, 0#8]).tr = 69 := by
  decide +kernel

/-- A text behind which there is a lot of other memory costs no more. -/
theorem C100_example (rest out : List Byte) : work (Tr.Text.decode .base64 (str "YWJj" ++ 0#8 :: rest) out).tr ≤ 209 :=
  (C100_decode .base64 (str "YWJj" ++ 0#8 :: rest) out).1

end Pgfe.Props
