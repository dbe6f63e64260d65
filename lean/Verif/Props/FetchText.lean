import Verif.Proofs.FetchText
import Verif.Proofs.FillText
import Verif.Props.TextTrace
import Verif.Props.Fetch
/-!
# C97: the base encoders and decoders
-/
namespace Pgfe.Props
open Pgfe.Model Pgfe.Spec Pgfe.Proofs Pgfe.Proofs.Fetch

/-- **C97 (base encoders).**  An encoder reads the bytes of its input once each, in order, all of them if it returns, and
writes nothing to it. -/
theorem C97_encode (a : BaseAlg) (S : Slack) (g x out : List Byte) :
    (∃ k ≤ x.length, fetched .input (Tr.Text.encode a S g x x.length out).tr = List.range k ∧
      ((∃ r, pgfeEncode a S g x x.length out = .ok r) → k = x.length)) ∧
    stored .input (Tr.Text.encode a S g x x.length out).tr = [] ∧
    (Tr.Text.encode a S g x x.length out).res = pgfeEncode a S g x x.length out := by
  have hP : 0 < a.params.unitSize := by cases a <;> decide
  obtain ⟨h1, e, h2, h3, h4, h5⟩ := encodeBase_adv S a.params hP g a.alphabet x x.length out
  have hr := (C99_model a).2.1 S g x x.length out
  exact ⟨⟨e, h3, by rw [List.range_eq_range']; exact h4, fun ⟨r, hr'⟩ => h5 r (by rw [← hr] at hr'; exact hr')⟩, h1, hr⟩

/-- **C97 (base encoders, output).**  An encoder never reads its output, and writes its elements in order, each once: the
letters of the text and the NUL, all of them if it returns. -/
theorem C97_encode_output (a : BaseAlg) (S : Slack) (g x out : List Byte) (hg : Scratch a g) :
    fetched .output (Tr.Text.encode a S g x x.length out).tr = [] ∧
    ∃ k, stored .output (Tr.Text.encode a S g x x.length out).tr = List.range k ∧
      ((∃ r, pgfeEncode a S g x x.length out = .ok r) → k = (specOf a).chars * ceilDiv x.length (specOf a).unit + 1) := by
  obtain ⟨p1, p2, _⟩ := params_eq a
  obtain ⟨h1, e, -, h4, h5⟩ := encodeBase_fill S a.params g a.alphabet x (by rw [p1]; exact hg) x.length out
  have hr := (C99_model a).2.1 S g x x.length out
  refine ⟨h1, e, by rw [List.range_eq_range']; exact h4, fun ⟨r, hr'⟩ => ?_⟩
  have := h5 r (by rw [← hr] at hr'; exact hr')
  rw [p1, p2] at this
  rw [this, Nat.mul_comm]
  rfl

/-- **C97 (base decoders), violation.**  The first character of every text is read at least three times before anything else is
looked at: for the test of the outer loop, for that of the inner loop, and for its value. -/
theorem C97_violation_decode (a : BaseAlg) (c : Byte) (hc : c ≠ 0#8) (rest out : List Byte) :
    ∃ l, fetched .input (Tr.Text.decode a (c :: rest) out).tr = 0 :: 0 :: 0 :: l := by
  have hP : 0 < a.params.chunkCount := by cases a <;> decide
  have key : ∀ {α β : Type} (m : T α) (k : α → T β) (p : List Nat),
      (∃ l, fetched .input m.tr = p ++ l) → ∃ l, fetched .input (m >>= k).tr = p ++ l := by
    intro α β m k p ⟨l, hl⟩
    rcases bind_tr m k with ⟨er, b1, b2, b3⟩ | ⟨x, b1, b2, b3⟩
    · exact ⟨l, by rw [b2, hl]⟩
    · exact ⟨l ++ fetched .input (k x).tr, by rw [b2, fetched_append, hl, List.append_assoc]⟩
  have one : ∀ {α β : Type} (m : T α) (k : α → T β) (x : α) (q p : List Nat), m.res = .ok x → fetched .input m.tr = q →
      (∃ l, fetched .input (k x).tr = p ++ l) → ∃ l, fetched .input (m >>= k).tr = (q ++ p) ++ l := by
    intro α β m k x q p hm hq ⟨l, hl⟩
    rcases bind_tr m k with ⟨er, b1, b2, b3⟩ | ⟨y, b1, b2, b3⟩
    · rw [hm] at b1; cases b1
    · rw [hm] at b1; cases b1
      exact ⟨l, by rw [b2, fetched_append, hq, hl, List.append_assoc]⟩
  unfold Tr.Text.decode Tr.Text.decodeBase
  refine key _ _ [0, 0, 0] ?_
  rw [Tr.Text.decLoop]
  refine one _ _ c [0] [0, 0] rfl rfl ?_
  refine one _ _ (decide (c ≠ 0#8)) [] [0, 0] rfl rfl ?_
  rw [if_pos (decide_eq_true hc)]
  refine key _ _ [0, 0] ?_
  rw [Tr.Text.decGroup]
  refine one _ _ c [0] [0] rfl rfl ?_
  refine one _ _ (decide (c ≠ 0#8)) [] [0] rfl rfl ?_
  rw [if_pos (decide_eq_true hc)]
  refine one _ _ (decide (0 < a.params.chunkCount)) [] [0] rfl rfl ?_
  rw [if_pos (decide_eq_true hP)]
  exact one _ _ c [0] [] rfl rfl ⟨_, rfl⟩

/-- Encoding four bytes in base 64 reads 0, 1, 2, 3. -/
theorem C97_encode_example :
    fetched .input (Tr.Text.encode .base64 ⟨[0#8], [0#8, 0#8]⟩ (List.replicate 4 0#8) (str "text") 4 (List.replicate 9 0#8)).tr =
      [0, 1, 2, 3] := by decide +kernel

/-- The eight letters and the NUL are written in order. -/
theorem C97_encode_output_example :
    stored .output (Tr.Text.encode .base64 ⟨[0#8], [0#8, 0#8]⟩ (List.replicate 4 0#8) (str "text") 4 (List.replicate 9 0#8)).tr =
      List.range 9 := by decide +kernel

/-- Decoding the text `Q`: its character is read three times, its NUL three times (at the end of the group, after it, and for
the test of the outer loop). -/
theorem C97_violation_decode_example :
    fetched .input (Tr.Text.decode .base64 (str "Q" ++ [0#8]) (List.replicate 4 0#8)).tr = [0, 0, 0, 1, 1, 1] := by decide +kernel

end Pgfe.Props
