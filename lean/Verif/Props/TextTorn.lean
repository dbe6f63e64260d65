import Verif.Proofs.TextTornSafe
import Verif.Props.Base
/-!
# C101: texts that change while they are read

An array of `n + 1` characters whose contents another thread changes; `m t i` is what the `t`-th read finds at index
`i`, for an arbitrary `m`.  `Ends n m`: the last character is always NUL.  `Steady n m`: moreover the others never are.
-/
namespace Pgfe.Props
open Pgfe.Model Pgfe.Spec Pgfe.Proofs
open Pgfe.Spec.Torn

/-- **C101, the model.**  If the text does not change, the functions compute what the functions of the model
compute. -/
theorem C101_model (text : List Byte) (n : Nat) (hn : text.length = n + 1) :
    (∀ a out, Model.Torn.decode a n (still text) out = pgfeDecode a text out) ∧
    (∀ out t, (Model.Torn.hexStringToHash n (still text) out t).map (fun r => (r.1, r.2.1)) = hexStringToHash text out) ∧
    (∀ out t, (Model.Torn.hashStringClean n (still text) out t).map (fun r => (r.1, r.2.1)) = hashStringClean text out) ∧
    (∀ garbage, Model.Torn.hashLength garbage n (still text) = hashLength garbage text) ∧
    (∀ garbage, Model.Torn.fromHexString garbage n (still text) = fromHexString garbage text) :=
  ⟨fun a out => Torn.decode_still a text out n hn, fun out t => Torn.hexStringToHash_still text out n hn t,
   fun out t => Torn.hashStringClean_still text out n hn t, fun g => Torn.hashLength_still g text n hn,
   fun g => Torn.fromHexString_still g text n hn⟩

/-- **C101 (`pgfe_hex_string_to_hash`).**  Whatever happens to the characters during the call, the function returns, reads
inside the text, and writes at most one byte for two characters; the text must not look empty at the first read
(the empty text is read at index -1, C02). -/
theorem C101_hex (n : Nat) (m : Nat → Nat → Byte) (hm : Ends n m) (h0 : m 0 0 ≠ 0#8) (out : List Byte)
    (ho : (n + 1) / 2 ≤ out.length) :
    ∃ k o t, Model.Torn.hexStringToHash n m out 0 = .ok (k, o, t) ∧ k ≤ (n + 1) / 2 ∧ o.length = out.length ∧
      o.drop k = out.drop k :=
  Torn.hex_ends hm 0 h0 out ho

/-- **C101 (`pgfe_hash_string_clean`).**  Whatever happens to the characters during the call, the function returns, reads
inside the text, and writes at most `n` characters and a NUL. -/
theorem C101_clean (n : Nat) (m : Nat → Nat → Byte) (hm : Ends n m) (out : List Byte) (ho : n + 1 ≤ out.length) :
    ∃ k o t, Model.Torn.hashStringClean n m out 0 = .ok (k, o, t) ∧ k ≤ n ∧ o.length = out.length ∧
      o.drop (n + 1) = out.drop (n + 1) ∧ o[k]? = some 0#8 :=
  Torn.clean_ends hm 0 out ho

/-- **C101 (decoders, `from_hex_string`, `pgfe_hash_length`), the part that holds.**  If the characters change but none of
them becomes NUL, the calls stay inside the arrays they need for a text that does not change (C12, C05). -/
theorem C101_partial (n : Nat) (hn : 0 < n) (m : Nat → Nat → Byte) (hm : Steady n m) :
    (∀ (a : BaseAlg) (out : List Byte), (specOf a).unit * ceilDiv n (specOf a).chars + 1 ≤ out.length →
      ∃ k o, Model.Torn.decode a n m out = .ok (k, o) ∧ o.length = out.length ∧
        k ≤ (specOf a).unit * ceilDiv n (specOf a).chars ∧
        o.drop ((specOf a).unit * ceilDiv n (specOf a).chars + 1) = out.drop ((specOf a).unit * ceilDiv n (specOf a).chars + 1)) ∧
    (∀ garbage : List Byte, n + 1 ≤ garbage.length → ∃ v, Model.Torn.hashLength garbage n m = .ok v ∧ v ≤ (n + 1) / 2) ∧
    (∀ garbage : List Byte, (n + 1) / 2 + 1 ≤ garbage.length →
      ∃ v, Model.Torn.fromHexString garbage n m = .ok v ∧ v.length ≤ (n + 1) / 2) := by
  refine ⟨fun a out ho => ?_, fun g hg => Torn.hashLength_steady hm g hg, fun g hg => Torn.fromHexString_steady hm hn g hg⟩
  obtain ⟨p1, p2, _⟩ := params_eq a
  have := Torn.decode_steady a hm hn out
  rw [p1, p2] at this
  exact this ho

/-- **C101 (decoders).**  Whatever happens to the characters, a decoder does not read outside the text and comes to an
end: all that can go wrong is a write behind the output array. -/
theorem C101_decode (a : BaseAlg) (n : Nat) (m : Nat → Nat → Byte) (hm : Ends n m) (h0 : m 0 0 ≠ 0#8) (out : List Byte) :
    Model.Torn.decode a n m out = .error .oobWrite ∨
      ∃ k o, Model.Torn.decode a n m out = .ok (k, o) ∧ k < out.length ∧ o.length = out.length :=
  Torn.decode_ends a hm h0 out

/-- **C101 (decoders), violation.**  Every decoder can be made to write behind its output, however large that is, by
changing the one character of a text of length 1. -/
theorem C101_violation_decode (a : BaseAlg) (out : List Byte) :
    ∃ m, Ends 1 m ∧ m 0 0 ≠ 0#8 ∧ Model.Torn.decode a 1 m out = .error .oobWrite :=
  ⟨Torn.blink, fun _ => if_neg (by omega), by decide, Torn.decode_blink a 1 out⟩

/-- **C101 (`from_hex_string`), violation.**  A text that is longer at the second look than at the first overruns the local
array, for every size of the text from 5 on. -/
theorem C101_violation_hex (n : Nat) (hn : 5 ≤ n) (garbage : List Byte) :
    ∃ m, Ends n m ∧ m 0 0 ≠ 0#8 ∧ Model.Torn.fromHexString garbage n m = .error .oobWrite :=
  ⟨Torn.grow n, fun _ => if_pos rfl, by unfold Torn.grow; rw [if_neg (by omega), if_neg (by omega)]; decide,
   Torn.fromHexString_grow n hn garbage⟩

/-- **C101 (`pgfe_hash_length`), violation.**  The same, from 3 on. -/
theorem C101_violation_length (n : Nat) (hn : 3 ≤ n) (garbage : List Byte) :
    ∃ m, Ends n m ∧ m 0 0 ≠ 0#8 ∧ Model.Torn.hashLength garbage n m = .error .oobWrite :=
  ⟨Torn.grow n, fun _ => if_pos rfl, by unfold Torn.grow; rw [if_neg (by omega), if_neg (by omega)]; decide,
   Torn.hashLength_grow n hn garbage⟩

/-- A memory whose characters turn from `M` to `N` and back. -/
def flicker : Nat → Nat → Byte := fun t i => if i = 4 then 0#8 else if t % 2 = 0 then 0x4D#8 else 0x4E#8

/-- A case of `C101_partial`, `C101_decode`, `C101_hex` and `C101_clean`: the condition is looked at with one character, the
value taken from the other. -/
theorem C101_example : Steady 4 flicker ∧
    Model.Torn.decode .base64 4 flicker (List.replicate 4 0#8) = pgfeDecode .base64 (str "MMMM" ++ [0#8]) (List.replicate 4 0#8) ∧
    Model.Torn.decode .base64 4 flicker (List.replicate 4 0#8) ≠ pgfeDecode .base64 (str "NNNN" ++ [0#8]) (List.replicate 4 0#8) := by
  refine ⟨⟨fun _ => if_pos rfl, fun t i hi => ?_⟩, by decide +kernel, by decide +kernel⟩
  unfold flicker
  rw [if_neg (by omega)]
  split <;> decide

end Pgfe.Props
