import Verif.Props.BaseExact
import Verif.Props.Iff
/-!
# C10: exactly when characters outside the alphabet are ignored
-/
namespace Pgfe.Props
open Pgfe.Model Pgfe.Spec Pgfe.Proofs

theorem libDecode_wholeGroups (al : BaseAlg) (s : List Byte) (hl : lastForeign (codeOf al) s = false)
    (hw : (s.filterMap (codeOf al)).length % (specOf al).chars = 0) (h0 : s.filterMap (codeOf al) ≠ []) :
    (specOf al).libDecode (codeOf al) s = cutLast (specOf al).unit ((specOf al).bytes (s.filterMap (codeOf al))) := by
  have hB := good al
  have hc := hB.chars_pos
  have hu := hB.unit_pos
  generalize hv : s.filterMap (codeOf al) = vs at *
  have hg : (specOf al).groups (codeOf al) s = vs.length / (specOf al).chars := by
    unfold BaseSpec.groups
    rw [hv, if_neg (by rw [hl]; simp [hw]), Nat.add_zero]
  have hm : vs.length / (specOf al).chars * (specOf al).chars = vs.length := by
    have := Nat.div_add_mod vs.length (specOf al).chars
    rw [hw, Nat.mul_comm] at this
    simpa using this
  have hr : (specOf al).rawDecode (codeOf al) s = (specOf al).bytes vs := by
    rw [BaseSpec.rawDecode, hv, hg, hm, Nat.sub_self, List.replicate_zero, List.append_nil]
  have hlen : ((specOf al).bytes vs).length = vs.length / (specOf al).chars * (specOf al).unit := by
    rw [bytes_length]
    have hu : (specOf al).unit * 8 = (specOf al).bits * (specOf al).chars := by cases al <;> rfl
    have : vs.length * (specOf al).bits = 8 * (vs.length / (specOf al).chars * (specOf al).unit) := by
      conv => lhs; rw [← hm]
      rw [Nat.mul_assoc, Nat.mul_comm (specOf al).chars, ← hu, ← Nat.mul_assoc, Nat.mul_comm]
    rw [this, Nat.mul_div_cancel_left _ (by decide)]
  have hq : 0 < vs.length / (specOf al).chars := by
    rcases Nat.eq_zero_or_pos (vs.length / (specOf al).chars) with h | h
    · rw [h, Nat.zero_mul] at hm
      exact absurd (List.length_eq_zero_iff.1 hm.symm) h0
    · exact h
  unfold BaseSpec.libDecode cutLast
  dsimp only
  rw [hr, hg, hlen]
  obtain ⟨q, e⟩ : ∃ q, vs.length / (specOf al).chars = q + 1 := ⟨_, (Nat.succ_pred_eq_of_pos hq).symm⟩
  rw [e, Nat.add_sub_cancel, Nat.add_mul, Nat.one_mul, Nat.mul_comm q, Nat.add_sub_assoc hu, Nat.mul_add_div hu,
    Nat.div_eq_of_lt (by omega), Nat.add_zero, Nat.mul_comm]

/-- **C10, exactly when.**  Let a text contain at least one character that the decoder knows.  Removing all the characters
it does not know changes what it decodes to if and only if the text ends with such a character, the others form whole
groups, and the last of these groups contains a zero byte. -/
theorem C10_iff (al : BaseAlg) (s rest rest' out out' : List Byte) (hs : 0#8 ∉ s)
    (hk : ∃ c ∈ s, (codeOf al c).isSome) (ho : DecFits al s.length out) (ho' : DecFits al s.length out') :
    SameDecode (pgfeDecode al (s ++ 0#8 :: rest) out)
      (pgfeDecode al (s.filter (fun c => (codeOf al c).isSome) ++ 0#8 :: rest') out') ↔
    ¬ (lastForeign (codeOf al) s = true ∧ (s.filterMap (codeOf al)).length % (specOf al).chars = 0 ∧
        0#8 ∈ ((specOf al).bytes (s.filterMap (codeOf al))).drop
          ((((specOf al).bytes (s.filterMap (codeOf al))).length - 1) / (specOf al).unit * (specOf al).unit)) := by
  obtain ⟨c, hcs, hcv⟩ := hk
  have hne : s ≠ [] := List.ne_nil_of_mem hcs
  by_cases hlast : lastForeign (codeOf al) s = false
  · refine ⟨fun _ h => ?_, fun _ => C10_foreign_partial al s rest rest' out out' hs hne hlast ho ho'⟩
    rw [hlast] at h
    exact absurd h.1 (by decide)
  have hlast : lastForeign (codeOf al) s = true := by simpa using hlast
  have hf : (s.filter (fun c => (codeOf al c).isSome)).filterMap (codeOf al)
      = s.filterMap (codeOf al) := by
    rw [List.filterMap_filter]
    congr 1
    funext c
    cases codeOf al c <;> simp
  have hl : lastForeign (codeOf al) (s.filter (fun c => (codeOf al c).isSome)) = false := by
    apply all_valued
    intro c hc
    exact (List.mem_filter.mp hc).2
  have hmem : c ∈ s.filter (fun c => (codeOf al c).isSome) := List.mem_filter.mpr ⟨hcs, hcv⟩
  have hne' : s.filter (fun c => (codeOf al c).isSome) ≠ [] := List.ne_nil_of_mem hmem
  have hv0 : s.filterMap (codeOf al) ≠ [] := by
    obtain ⟨v, hv⟩ := Option.isSome_iff_exists.mp hcv
    exact List.ne_nil_of_mem (List.mem_filterMap.mpr ⟨c, hcs, hv⟩)
  have h1 := C10_exact al s rest out hs hne ho
  have hr := raw_le al (s.filter (fun c => (codeOf al c).isSome))
  have hle : ceilDiv (s.filter (fun c => (codeOf al c).isSome)).length (specOf al).chars ≤ ceilDiv s.length (specOf al).chars := by
    have := List.length_filter_le (fun c => (codeOf al c).isSome) s
    unfold ceilDiv
    exact Nat.div_le_div_right (by omega)
  have hfit : DecFits al (s.filter (fun c => (codeOf al c).isSome)).length out' := by
    unfold DecFits at *
    have := Nat.mul_le_mul_left (specOf al).unit hle
    omega
  have h2 := C10_exact al _ rest' out' (fun h => hs (List.mem_filter.mp h).1) hne' hfit
  by_cases hw : (s.filterMap (codeOf al)).length % (specOf al).chars = 0
  · have h1 := C10_trailing al s rest out hs hlast hw ho
    rw [libDecode_wholeGroups al _ hl (by rw [hf]; exact hw) (by rw [hf]; exact hv0), hf] at h2
    constructor
    · rintro ⟨b, hb1, hb2⟩ ⟨_, _, hz⟩
      have e := (decoded_unique h2 hb2).trans (decoded_unique hb1 h1)
      exact (cutLast_eq_iff _ _).1 e hz
    · intro h
      have hz := fun hz => h ⟨hlast, hw, hz⟩
      rw [(cutLast_eq_iff _ _).2 hz] at h2
      exact ⟨_, h1, h2⟩
  · refine ⟨fun _ h => hw h.2.1, fun _ => ⟨_, h1, ?_⟩⟩
    have hg : (specOf al).groups (codeOf al) (s.filter (fun c => (codeOf al c).isSome))
        = (specOf al).groups (codeOf al) s := by
      unfold BaseSpec.groups
      rw [hf, if_pos (.inl hw), if_pos (.inl hw)]
    have hrd : (specOf al).rawDecode (codeOf al) (s.filter (fun c => (codeOf al c).isSome))
        = (specOf al).rawDecode (codeOf al) s := by
      unfold BaseSpec.rawDecode; rw [hf, hg]
    unfold BaseSpec.libDecode at h2 ⊢
    rw [hrd, hg] at h2
    exact h2

/-- "YQBi" and a line feed: removing the line feed matters; for "YWJj" and a line feed, or "YQB" and one, it does not. -/
theorem C10_iff_example :
    (lastForeign (codeOf .base64) (str "YQBi\n") = true ∧
      ((str "YQBi\n").filterMap (codeOf .base64)).length % (specOf .base64).chars = 0 ∧
      0#8 ∈ ((specOf .base64).bytes ((str "YQBi\n").filterMap (codeOf .base64))).drop 0) ∧
    SameDecode (pgfeDecode .base64 (str "YWJj\n" ++ [0#8]) (List.replicate 7 0#8))
      (pgfeDecode .base64 ((str "YWJj\n").filter (fun c => (codeOf .base64 c).isSome) ++ [0#8]) (List.replicate 7 0#8)) ∧
    SameDecode (pgfeDecode .base64 (str "YQB\n" ++ [0#8]) (List.replicate 7 0#8))
      (pgfeDecode .base64 ((str "YQB\n").filter (fun c => (codeOf .base64 c).isSome) ++ [0#8]) (List.replicate 7 0#8)) := by
  refine ⟨by decide +kernel, ?_, ?_⟩
  · exact (C10_iff .base64 (str "YWJj\n") [] [] (List.replicate 7 0#8) (List.replicate 7 0#8) (by decide) (by decide +kernel)
      (by show 3 * ((5 + 4 - 1) / 4) + 1 ≤ 7; decide) (by show 3 * ((5 + 4 - 1) / 4) + 1 ≤ 7; decide)).2 (by decide +kernel)
  · exact (C10_iff .base64 (str "YQB\n") [] [] (List.replicate 7 0#8) (List.replicate 7 0#8) (by decide) (by decide +kernel)
      (by show 3 * ((4 + 4 - 1) / 4) + 1 ≤ 7; decide) (by show 3 * ((4 + 4 - 1) / 4) + 1 ≤ 7; decide)).2 (by decide +kernel)

end Pgfe.Props
