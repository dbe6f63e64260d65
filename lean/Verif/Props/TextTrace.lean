import Verif.Proofs.TextPad
import Verif.Props.Base
/-!
# C99: what an observer of decisions and accesses learns from texts

`t ++ [0#8]` is a text of any characters but NUL and its end.  `seen a c` is the class of the character `c`
(Spec/TextClass): all digits of the alphabet are in one class, all its capitals in one, all its small letters in
one, and each symbol is one of its own.
-/
namespace Pgfe.Props
open Pgfe.Model Pgfe.Spec Pgfe.Proofs
open Pgfe.Spec.TextClass

/-- **C99, the model.**  What the traced functions compute is what the functions of the model compute. -/
theorem C99_model (a : BaseAlg) :
    (∀ text out : List Byte, (Tr.Text.decode a text out).res = pgfeDecode a text out) ∧
    (∀ (S : Slack) (g input : List Byte) (n : Nat) (out : List Byte),
      (Tr.Text.encode a S g input n out).res = pgfeEncode a S g input n out) ∧
    (∀ text out : List Byte, (Tr.Text.hexStringToHash text out).res = hexStringToHash text out) :=
  ⟨fun text out => TextTrace.decode_res a text out, fun S g input n out => TextTrace.encode_res a S g input n out,
   fun text out => TextTrace.hexStringToHash_res text out⟩

/-- **C99 (decoders), exact.**  Two calls of a decoder that return make the same decisions and accesses if and only
if the two texts have the same classes of characters, place by place, and the calls return the same number. -/
theorem C99_decode (a : BaseAlg) (t t' out out' : List Byte) (h0 : ∀ c ∈ t, c ≠ 0#8) (h0' : ∀ c ∈ t', c ≠ 0#8) (n n' : Nat)
    (o o' : List Byte) (h : pgfeDecode a (t ++ [0#8]) out = .ok (n, o)) (h' : pgfeDecode a (t' ++ [0#8]) out' = .ok (n', o')) :
    (Tr.Text.decode a (t ++ [0#8]) out).tr = (Tr.Text.decode a (t' ++ [0#8]) out').tr ↔
      t.map (seen a) = t'.map (seen a) ∧ n = n' :=
  TextTrace.decode_iff a t t' out out' h0 h0' n n' o o' h h'

/-- **C99 (hexadecimal texts), exact.**  Two calls of `pgfe_hex_string_to_hash` that return make the same decisions
and accesses if and only if the texts have the same prefix letter, the same suffix letter, and behind the prefix the
same classes of characters, place by place. -/
theorem C99_hex (t t' out out' : List Byte) (h0 : ∀ c ∈ t, c ≠ 0#8) (h0' : ∀ c ∈ t', c ≠ 0#8)
    (r r' : Nat × List Byte) (h : hexStringToHash (t ++ [0#8]) out = .ok r)
    (h' : hexStringToHash (t' ++ [0#8]) out' = .ok r') :
    (Tr.Text.hexStringToHash (t ++ [0#8]) out).tr = (Tr.Text.hexStringToHash (t' ++ [0#8]) out').tr ↔
      hexPrefix t = hexPrefix t' ∧ hexSuffix t = hexSuffix t' ∧
        (hexBody t).map (seen .base16) = (hexBody t').map (seen .base16) :=
  TextTrace.hex_iff t t' out out' h0 h0' r r' h h'

/-- **C99 (encoders), violation.**  The accesses of an encoder reveal its whole input: if two calls on inputs of the
same length, of any contents, make the same accesses, then the inputs are the same. -/
theorem C99_violation_encode (a : BaseAlg) (S S' : Slack) (hS : Roomy S) (hS' : Roomy S')
    (h1 : S.behindUnit.length = S'.behindUnit.length) (h2 : S.behindSplit.length = S'.behindSplit.length)
    (g g' x x' junk junk' out out' : List Byte) (hg : Scratch a g) (hgg : g.length = g'.length)
    (hl : x.length = x'.length) (ho : Fits a x.length out) (ho' : Fits a x.length out')
    (h : (Tr.Text.encode a S g (x ++ junk) x.length out).tr = (Tr.Text.encode a S' g' (x' ++ junk') x'.length out').tr) :
    x = x' := by
  have hg' : Scratch a g' := by unfold Scratch at *; omega
  have e1 := enc_all a S hS g x junk out hg ho
  have e2 := enc_all a S' hS' g' x' junk' out' hg' (hl ▸ ho')
  rw [← hl] at h
  have r1 := (TextTrace.encode_res a S g (x ++ junk) x.length out).trans e1
  have r2 := (TextTrace.encode_res a S' g' (x' ++ junk') x.length out').trans
    ((congrArg (fun k => pgfeEncode a S' g' (x' ++ junk') k out') hl).trans e2)
  obtain ⟨m, t⟩ := TextTrace.encode_inj a S S' h1 h2 hgg (by rw [(params_eq a).1]; exact hg) _ _ _ _ _ _ _ _ _ r1 r2 h
  rw [m, ← m, List.take_left, m, List.take_left] at t
  rcases (C15 a S S' hS hS' g g' x x' junk junk' out out' hg hg' ho (hl ▸ ho')).1
      ⟨_, _, _, _, e1, by rw [e2, ← t], rfl⟩ with e | e
  · exact e
  · have := e.2.2.2
    exact (List.append_inj this hl).1

/-- **C99 (encoders), the part that holds.**  Apart from the places in the alphabet, nothing is revealed if the length
is a multiple of the size of a group: two calls on inputs of the same length make the same decisions and
accesses, when one does not look at which letters of the alphabet are read. -/
theorem C99_partial (a : BaseAlg) (S S' : Slack) (hS : Roomy S) (hS' : Roomy S')
    (h1 : S.behindUnit.length = S'.behindUnit.length) (h2 : S.behindSplit.length = S'.behindSplit.length)
    (g g' x x' junk junk' out out' : List Byte) (hg : Scratch a g) (hgg : g.length = g'.length)
    (hl : x.length = x'.length) (hu : x.length % (specOf a).unit = 0) (ho : Fits a x.length out) (ho' : Fits a x.length out') :
    (Tr.Text.encode a S g (x ++ junk) x.length out).tr.map anyLetter =
      (Tr.Text.encode a S' g' (x' ++ junk') x'.length out').tr.map anyLetter := by
  have hg' : Scratch a g' := by unfold Scratch at *; omega
  have e1 := enc_all a S hS g x junk out hg ho
  have e2 := enc_all a S' hS' g' x' junk' out' hg' (hl ▸ ho')
  rw [← hl]
  have r1 := (TextTrace.encode_res a S g (x ++ junk) x.length out).trans e1
  have r2 := (TextTrace.encode_res a S' g' (x' ++ junk') x.length out').trans
    ((congrArg (fun k => pgfeEncode a S' g' (x' ++ junk') k out') hl).trans e2)
  exact TextTrace.encode_mask a S S' h1 h2 hgg _ _ _ (by rw [(params_eq a).2.1]; exact hu) _ _ _ _ r1 r2

/-- **C99 (encoders), exact.**  When one does not look at which letters of the alphabet are read, two calls on inputs of
the same length make the same decisions and accesses if and only if the written texts contain the same number of
`=` (0x3D). -/
theorem C99_padding (a : BaseAlg) (S S' : Slack) (hS : Roomy S) (hS' : Roomy S')
    (h1 : S.behindUnit.length = S'.behindUnit.length) (h2 : S.behindSplit.length = S'.behindSplit.length)
    (g g' x x' junk junk' out out' : List Byte) (hg : Scratch a g) (hgg : g.length = g'.length)
    (hl : x.length = x'.length) (ho : Fits a x.length out) (ho' : Fits a x.length out') (m m' : Nat) (o o' : List Byte)
    (h : pgfeEncode a S g (x ++ junk) x.length out = .ok (m, o))
    (h' : pgfeEncode a S' g' (x' ++ junk') x'.length out' = .ok (m', o')) :
    (Tr.Text.encode a S g (x ++ junk) x.length out).tr.map anyLetter =
        (Tr.Text.encode a S' g' (x' ++ junk') x'.length out').tr.map anyLetter ↔
      (o.take m).count 0x3D#8 = (o'.take m').count 0x3D#8 := by
  have hg' : Scratch a g' := by unfold Scratch at *; omega
  have e1 := enc_all a S hS g x junk out hg ho
  have e2 := enc_all a S' hS' g' x' junk' out' hg' (hl ▸ ho')
  have t1 := h.symm.trans e1
  have t2 := h'.symm.trans e2
  rw [Except.ok.injEq, Prod.mk.injEq] at t1 t2
  rw [← hl] at h' ⊢
  exact TextTrace.encode_pad a S S' hS hS' h1 h2 hgg (by rw [(params_eq a).1]; exact hg) _ _ x x' hl _ _ m m' o o'
    ((TextTrace.encode_res a S g (x ++ junk) x.length out).trans h)
    ((TextTrace.encode_res a S' g' (x' ++ junk') x.length out').trans h')
    (by rw [t1.2, t1.1, List.take_left]) (by rw [t2.2, t2.1, List.take_left])

/-- **C99 (encoders), violation.**  In a partial group the decisions alone reveal how many letters of the last group
stand for zero: two inputs of one byte. -/
theorem C99_violation_padding :
    (Tr.Text.encode .base64 ⟨[0#8], [0#8, 0#8]⟩ [0#8, 0#8, 0#8, 0#8] (str "d") 1 [0#8, 0#8, 0#8, 0#8, 0#8]).tr.map anyLetter ≠
    (Tr.Text.encode .base64 ⟨[0#8], [0#8, 0#8]⟩ [0#8, 0#8, 0#8, 0#8] (str "e") 1 [0#8, 0#8, 0#8, 0#8, 0#8]).tr.map anyLetter := by
  decide +kernel

/-- A case of `C99_padding`: texts with three and with two `=`. -/
theorem C99_padding_example :
    pgfeEncode .base64 ⟨[0#8], [0#8, 0#8]⟩ [0#8, 0#8, 0#8, 0#8] (str "d") 1 (List.replicate 5 0#8) = .ok (4, str "Z===" ++ [0#8]) ∧
    pgfeEncode .base64 ⟨[0#8], [0#8, 0#8]⟩ [0#8, 0#8, 0#8, 0#8] (str "`") 1 (List.replicate 5 0#8) = .ok (4, str "Y===" ++ [0#8]) ∧
    pgfeEncode .base64 ⟨[0#8], [0#8, 0#8]⟩ [0#8, 0#8, 0#8, 0#8] (str "e") 1 (List.replicate 5 0#8) = .ok (4, str "ZQ==" ++ [0#8]) ∧
    (Tr.Text.encode .base64 ⟨[0#8], [0#8, 0#8]⟩ [0#8, 0#8, 0#8, 0#8] (str "d") 1 (List.replicate 5 0#8)).tr.map anyLetter =
      (Tr.Text.encode .base64 ⟨[0#8], [0#8, 0#8]⟩ [0#8, 0#8, 0#8, 0#8] (str "`") 1 (List.replicate 5 0#8)).tr.map anyLetter := by
  decide +kernel

/-- A case of `C99_decode`: two secrets in base 32 with a digit at the same place are not told apart, and a third
with the digit at another place is. -/
theorem C99_example :
    pgfeDecode .base32 (str "JBSWY3DP" ++ [0#8]) (List.replicate 6 0#8) = .ok (5, str "Hello" ++ [0#8]) ∧
    (Tr.Text.decode .base32 (str "JBSWY3DP" ++ [0#8]) (List.replicate 6 0#8)).tr =
      (Tr.Text.decode .base32 (str "KRUGK5DS" ++ [0#8]) (List.replicate 6 0#8)).tr ∧
    (Tr.Text.decode .base32 (str "JBSWY3DP" ++ [0#8]) (List.replicate 6 0#8)).tr ≠
      (Tr.Text.decode .base32 (str "KRUGKD5S" ++ [0#8]) (List.replicate 6 0#8)).tr ∧
    (str "JBSWY3DP").map (seen .base32) = (str "KRUGK5DS").map (seen .base32) := by
  decide +kernel

/-- A case of `C99_hex`. -/
theorem C99_hex_example :
    (Tr.Text.hexStringToHash (str "0x1a2Fh" ++ [0#8]) [0#8, 0#8]).tr =
      (Tr.Text.hexStringToHash (str "?x9c0Ah" ++ [0#8]) [0#8, 0#8]).tr ∧
    (Tr.Text.hexStringToHash (str "0x1a2Fh" ++ [0#8]) [0#8, 0#8]).tr ≠
      (Tr.Text.hexStringToHash (str "0x1a2fh" ++ [0#8]) [0#8, 0#8]).tr := by
  decide +kernel

/-- A case of the hypotheses of `C99_partial` and `C99_violation_encode`. -/
theorem C99_satisfiable : Roomy ⟨[0#8], [0#8, 0#8]⟩ ∧ Scratch .base64 [0#8, 0#8, 0#8, 0#8] ∧
    Fits .base64 (str "abc").length (List.replicate 5 0#8) ∧ (str "abc").length % (specOf .base64).unit = 0 := by
  unfold Scratch Fits ceilDiv
  refine ⟨⟨?_, ?_⟩, ?_, ?_, ?_⟩ <;> decide

end Pgfe.Props
