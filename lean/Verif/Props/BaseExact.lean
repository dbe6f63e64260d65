import Verif.Props.Base
/-!
# C10: what the decoders do with every text
-/
namespace Pgfe.Props
open Pgfe.Model Pgfe.Spec Pgfe.Proofs

/-- **C10, exact.**  What a decoder returns for every non-empty text whatsoever: the bytes of the characters that have
a value, completed with zeros to whole groups, the last group cut at its first zero byte; where a character without a
value after the last complete group counts as another (empty) group. -/
theorem C10_exact (al : BaseAlg) (s rest out : List Byte) (hs : 0#8 ∉ s) (hne : s ≠ []) (ho : DecFits al s.length out) :
    Decoded (pgfeDecode al (s ++ 0#8 :: rest) out) ((specOf al).libDecode (codeOf al) s) := by
  have := raw_le al s
  unfold DecFits at ho
  exact decoded_ok al s rest out hs hne (by omega)

/-- **C10, texts that end with a foreign character.**  If the other characters form whole groups, all their bytes are
returned: nothing is cut. -/
theorem C10_trailing (al : BaseAlg) (s rest out : List Byte) (hs : 0#8 ∉ s) (hl : lastForeign (codeOf al) s = true)
    (hw : (s.filterMap (codeOf al)).length % (specOf al).chars = 0) (ho : DecFits al s.length out) :
    Decoded (pgfeDecode al (s ++ 0#8 :: rest) out) ((specOf al).bytes (s.filterMap (codeOf al))) := by
  have hB := good al
  have hne : s ≠ [] := by intro h; rw [h] at hl; simp [lastForeign] at hl
  have h := C10_exact al s rest out hs hne ho
  have e : (specOf al).libDecode (codeOf al) s = (specOf al).bytes (s.filterMap (codeOf al)) := by
    generalize hv : s.filterMap (codeOf al) = vs at hw ⊢
    have hc := hB.chars_pos
    have hg : (specOf al).groups (codeOf al) s = vs.length / (specOf al).chars + 1 := by
      unfold BaseSpec.groups
      rw [if_pos (.inr hl), hv]
    have hm : vs.length / (specOf al).chars * (specOf al).chars = vs.length := by
      have := Nat.div_add_mod vs.length (specOf al).chars
      rw [hw, Nat.mul_comm] at this
      simpa using this
    have hr : (specOf al).rawDecode (codeOf al) s = (specOf al).bytes vs ++ (specOf al).bytes (List.replicate (specOf al).chars 0) := by
      rw [BaseSpec.rawDecode, hv, hg, Nat.add_mul, Nat.one_mul, hm, Nat.add_sub_cancel_left]
      have hind : ∀ (k : Nat) (vs : List Nat), vs.length = k * (specOf al).chars →
          (specOf al).bytes (vs ++ List.replicate (specOf al).chars 0)
            = (specOf al).bytes vs ++ (specOf al).bytes (List.replicate (specOf al).chars 0) := by
        intro k
        induction k with
        | zero =>
          intro vs h
          have : vs = [] := List.length_eq_zero_iff.1 (by simpa using h)
          subst this
          simp [bytes_def]
        | succ k ih =>
          intro vs h
          have e1 : vs = vs.take (specOf al).chars ++ vs.drop (specOf al).chars := (List.take_append_drop _ _).symm
          have h1 : (vs.take (specOf al).chars).length = (specOf al).chars := by
            rw [List.length_take, h, Nat.add_mul]; omega
          have h2 : (vs.drop (specOf al).chars).length = k * (specOf al).chars := by
            rw [List.length_drop, h, Nat.add_mul]; omega
          rw [e1, List.append_assoc, bytes_append hB _ _ h1, ih _ h2, ← List.append_assoc, ← bytes_append hB _ _ h1]
      exact hind _ vs hm.symm
    have hlen : ((specOf al).bytes vs).length = vs.length / (specOf al).chars * (specOf al).unit := by
      rw [bytes_length]
      have hu : (specOf al).unit * 8 = (specOf al).bits * (specOf al).chars := by cases al <;> rfl
      have : vs.length * (specOf al).bits = 8 * (vs.length / (specOf al).chars * (specOf al).unit) := by
        conv => lhs; rw [← hm]
        rw [Nat.mul_assoc, Nat.mul_comm (specOf al).chars, ← hu, ← Nat.mul_assoc, Nat.mul_comm]
      rw [this, Nat.mul_div_cancel_left _ (by decide)]
    unfold BaseSpec.libDecode
    dsimp only
    rw [hg, Nat.add_sub_cancel, hr, List.take_left' hlen, List.drop_left' hlen]
    have hz : ((specOf al).bytes (List.replicate (specOf al).chars 0)).takeWhile (· != 0#8) = [] := by
      cases al <;> decide +kernel
    rw [hz, List.append_nil]
  rw [e] at h
  exact h

/-- "YQBi" with a line feed: three bytes. -/
theorem C10_trailing_example (out : List Byte) (ho : 7 ≤ out.length) :
    Decoded (pgfeDecode .base64 (str "YQBi\n" ++ [0#8]) out) [0x61#8, 0x00#8, 0x62#8] := by
  have := C10_trailing .base64 (str "YQBi\n") [] out (by decide) (by decide +kernel) (by decide +kernel) (by
    show 3 * ((5 + 4 - 1) / 4) + 1 ≤ out.length
    omega)
  rw [show (specOf .base64).bytes ((str "YQBi\n").filterMap (codeOf .base64)) = [0x61#8, 0x00#8, 0x62#8] by decide +kernel] at this
  exact this

end Pgfe.Props
