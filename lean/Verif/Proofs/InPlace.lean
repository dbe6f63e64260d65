import Verif.Model.InPlace
import Verif.Proofs.BaseDecode
import Verif.Proofs.Hex
/-! Decoding in place. -/
namespace Pgfe.Proofs
open Pgfe.Model Pgfe.Spec

theorem hexLoopIn_eq : ∀ (fuel sp : Nat) (odd : Bool) (hexu : Byte) (op : Nat) (mem : List Byte),
    op ≤ sp → mem.length < sp + fuel → hexLoopIn fuel sp odd hexu op mem = hexLoop (mem.drop sp) odd hexu op mem := by
  intro fuel
  induction fuel with
  | zero =>
    intro sp odd hexu op mem _ hf
    rw [hexLoopIn, List.drop_eq_nil_of_le (by omega), hexLoop]
  | succ fuel ih =>
    intro sp odd hexu op mem ho hf
    rw [hexLoopIn]
    by_cases hsp : sp < mem.length
    · rw [rd_ok hsp, bind_ok, List.drop_eq_getElem_cons hsp, hexLoop]
      split
      · rfl
      dsimp only
      split
      · exact ih _ _ _ _ _ (by omega) (by omega)
      split
      · rw [wr_ok _ (by omega), bind_ok, bind_ok, ih _ _ _ _ _ (by omega) (by rw [List.length_set]; omega),
          List.drop_set_of_lt (by omega)]
      · exact ih _ _ _ _ _ (by omega) (by omega)
    · rw [show rd mem sp = .error .oobRead by simp [rd, hsp], bind_err, List.drop_eq_nil_of_le (by omega), hexLoop]

theorem ofBits_zero (l : List Bool) (h : ∀ b ∈ l, b = false) : ofBits l = 0 := by
  induction l with
  | nil => rfl
  | cons b l ih =>
    have hb := h b (by simp)
    subst hb
    exact ih (fun b hb => h b (List.mem_cons_of_mem _ hb))

/-- Bytes behind the data bits are zero. -/
theorem bytes_zero {B : BaseSpec} (vs : List Nat) (k j : Nat) (hj : vs.length * B.bits ≤ 8 * j) (b : Byte)
    (h : (B.bytes (vs ++ List.replicate k 0))[j]? = some b) : b = 0#8 := by
  have hj2 : j < (B.bytes (vs ++ List.replicate k 0)).length := by
    rcases Nat.lt_or_ge j (B.bytes (vs ++ List.replicate k 0)).length with h' | h'
    · exact h'
    · rw [List.getElem?_eq_none h'] at h; cases h
  rw [bytes_length, List.length_append, List.length_replicate] at hj2
  rw [bytes_def, List.getElem?_map, List.getElem?_range (by simpa using hj2)] at h
  simp only [Option.map_some, Option.some.injEq] at h
  rw [← h, vbits_append, slice_append_right _ _ _ _ (by rw [vbits_length]; exact hj), ofBits_zero]
  intro b hb
  rw [slice, List.mem_map] at hb
  obtain ⟨t, _, ht⟩ := hb
  rw [← ht, List.getD_eq_getElem?_getD]
  cases e : (vbits B (List.replicate k 0))[8 * j - (vbits B vs).length + t]? with
  | none => rfl
  | some x =>
    have hm := List.mem_of_getElem? e
    rw [vbits, List.mem_flatMap] at hm
    obtain ⟨a, ha, hx⟩ := hm
    rw [List.eq_of_mem_replicate ha, natBits, List.mem_map] at hx
    obtain ⟨_, _, hx⟩ := hx
    rw [← hx, Nat.zero_testBit]
    rfl

theorem drop_splice {mem src : List Byte} {op sp : Nat} (h1 : op + src.length ≤ mem.length) (h2 : op + src.length ≤ sp) :
    (splice mem op src).drop sp = mem.drop sp := by
  have hl : (mem.take op ++ src).length = op + src.length := by
    rw [List.length_append, List.length_take, Nat.min_eq_left (by omega)]
  rw [splice, List.drop_append, List.drop_eq_nil_of_le (by rw [hl]; exact h2), List.nil_append, List.drop_drop, hl]
  congr 1
  omega

theorem getElem?_splice_in {mem src : List Byte} {op j : Nat} (h1 : op + src.length ≤ mem.length) (h2 : j < src.length) :
    (splice mem op src)[op + j]? = src[j]? := by
  have hl : (mem.take op).length = op := by rw [List.length_take, Nat.min_eq_left (by omega)]
  rw [splice, List.append_assoc, List.getElem?_append_right (by rw [hl]; omega), hl, Nat.add_sub_cancel_left,
    List.getElem?_append_left h2]

theorem splice_len {mem src : List Byte} {op : Nat} (h1 : op + src.length ≤ mem.length) :
    (splice mem op src).length = mem.length := by
  simp only [splice, List.length_append, List.length_take, List.length_drop]
  omega

theorem rd_drop (mem : List Byte) (sp : Nat) : rd (mem.drop sp) 0 = rd mem sp := by
  simp only [rd, List.getElem?_drop, Nat.add_zero]

/-- The loop on one array does what the loop on two arrays does. -/
theorem decLoopIn_eq (al : BaseAlg) : ∀ (fuel : Nat) (s rest : List Byte), 0#8 ∉ s → ∀ (sp : Nat) (u : W64) (op : Nat)
    (mem : List Byte) (o : Option (List Byte)), mem.drop sp = s ++ 0#8 :: rest → op ≤ sp → s.length < fuel →
    decLoopIn al.params al.charFn fuel sp u op mem o = decLoop al.params al.charFn fuel (mem.drop sp) u op mem o := by
  have hB := good al
  obtain ⟨p1, p2, p3⟩ := params_eq al
  have hBu : (specOf al).unit ≤ (specOf al).chars := by cases al <;> decide
  intro fuel
  induction fuel with
  | zero => intro s _ _ _ _ _ _ _ _ _ h; omega
  | succ fuel ih =>
    intro s rest hs sp u op mem o hm ho hf
    have hsp : mem.length = sp + (s ++ 0#8 :: rest).length := by
      have := congrArg List.length hm
      rw [List.length_drop, List.length_append, List.length_cons] at this
      rw [List.length_append, List.length_cons]
      omega
    cases s with
    | nil =>
      rw [List.nil_append] at hm hsp
      rw [decLoopIn, ← rd_drop, hm, show rd (0#8 :: rest) 0 = .ok 0#8 from rfl, bind_ok, if_pos rfl, decLoop, if_pos rfl]
    | cons c t =>
      have hc : c ≠ 0#8 := fun e => hs (by simp [e])
      obtain ⟨s1, s2, u', h1, h2, h3, h4, h5, h6⟩ := decGroup_spec al (c :: t) rest hs 0 u (by omega)
      simp only [Nat.zero_add] at h2 h4 h5 h6
      rw [decLoopIn, ← rd_drop, hm, show rd (c :: t ++ 0#8 :: rest) 0 = .ok c from rfl, bind_ok, if_neg hc, h2, bind_ok]
      rw [List.cons_append, decLoop, if_neg hc, ← List.cons_append, h2, bind_ok]
      dsimp only
      have hlen : (c :: t).length = s1.length + s2.length := by rw [h1, List.length_append]
      have hsp' : mem.length - (s2 ++ 0#8 :: rest).length = sp + s1.length := by
        rw [hsp, List.length_append, List.length_append, hlen]; omega
      have hdrop : mem.drop (sp + s1.length) = s2 ++ 0#8 :: rest := by
        rw [← List.drop_drop, hm, h1, List.append_assoc, List.drop_left]
      rw [hsp', ← rd_drop, hdrop]
      cases hr : rd (s2 ++ 0#8 :: rest) 0 with
      | error e => rw [bind_err, bind_err]
      | ok c' =>
        rw [bind_ok, bind_ok]
        have hul : ∀ v, (unitBytes al.params v).length = (specOf al).unit := by
          intro v; rw [unitBytes, List.length_map, List.length_range, p2]
        have hs1 : (s1.filterMap (codeOf al)).length ≤ s1.length := List.length_filterMap_le _ _
        have hpos : s1 ≠ [] := by
          rintro rfl
          rcases h5 with h | h
          · subst h; exact absurd h1 (by simp)
          · have := hB.chars_pos
            rw [List.filterMap_nil, List.length_nil] at h
            omega
        have hpos' : 0 < s1.length := List.length_pos_iff.mpr hpos
        have hs2 : 0#8 ∉ s2 := fun h => hs (by rw [h1]; exact List.mem_append_right _ h)
        by_cases hw : op + (specOf al).unit ≤ mem.length
        · -- the write is inside the array
          rw [p2]
          by_cases hfar : op + (specOf al).unit ≤ sp + s1.length
          · generalize (if c' = 0#8 ∧ (s1.filterMap (codeOf al)).length < al.params.chunkCount
              then u' <<< (al.params.bitSize * (al.params.chunkCount - (s1.filterMap (codeOf al)).length)) else u') = U
            rw [wrs_ok (by rw [hul]; exact hw), bind_ok, bind_ok]
            have hd : (splice mem op (unitBytes al.params U)).drop (sp + s1.length) = s2 ++ 0#8 :: rest := by
              rw [drop_splice (by rw [hul]; exact hw) (by rw [hul]; exact hfar), hdrop]
            rw [ih s2 rest hs2 (sp + s1.length) U (op + (specOf al).unit) _ _ hd hfar
              (by simp only [List.length_cons] at hf hlen; omega), hd]
          · -- the last, partial group
            have hpart : (s1.filterMap (codeOf al)).length < (specOf al).chars := by omega
            have hs2e : s2 = [] := by
              rcases h5 with h | h
              · exact h
              · omega
            subst hs2e
            have hc' : c' = 0#8 := by
              have : rd ([] ++ 0#8 :: rest) 0 = .ok 0#8 := rfl
              rw [this] at hr
              exact (Except.ok.inj hr).symm
            subst hc'
            have hunit : unitBytes al.params (if 0#8 = 0#8 ∧ (s1.filterMap (codeOf al)).length < al.params.chunkCount
                then u' <<< (al.params.bitSize * (al.params.chunkCount - (s1.filterMap (codeOf al)).length)) else u')
                = (specOf al).bytes (s1.filterMap (codeOf al) ++
                    List.replicate ((specOf al).chars - (s1.filterMap (codeOf al)).length) 0) := by
              apply unitBytes_eq al _ _ (by rw [List.length_append, List.length_replicate]; omega) u.toNat
              rw [ofBits_vbits_zeros, if_pos ⟨rfl, by rw [p1]; exact hpart⟩]
              rw [BitVec.toNat_shiftLeft, Nat.shiftLeft_eq, h3, p1, p3, Nat.mod_mul_mod]
              congr 1
              rw [Nat.add_mul, Nat.mul_assoc, ← Nat.pow_add, ← Nat.mul_add]
              congr 4
              omega
            generalize hU : (if 0#8 = 0#8 ∧ (s1.filterMap (codeOf al)).length < al.params.chunkCount
              then u' <<< (al.params.bitSize * (al.params.chunkCount - (s1.filterMap (codeOf al)).length)) else u') = U at *
            rw [wrs_ok (by rw [hul]; exact hw), bind_ok, bind_ok]
            have hj : sp + s1.length - op < (unitBytes al.params U).length := by rw [hul]; omega
            have hz : (splice mem op (unitBytes al.params U))[sp + s1.length]? = some 0#8 := by
              have e := getElem?_splice_in (mem := mem) (op := op) (src := unitBytes al.params U)
                (j := sp + s1.length - op) (by rw [hul]; exact hw) hj
              rw [show op + (sp + s1.length - op) = sp + s1.length by omega] at e
              rw [e]
              obtain ⟨b, hb⟩ : ∃ b, (unitBytes al.params U)[sp + s1.length - op]? = some b := ⟨_, List.getElem?_eq_getElem hj⟩
              rw [hb]
              rw [hunit] at hb
              rw [bytes_zero _ _ _ ?_ b hb]
              have hb8 := hB.bits_le
              calc _ ≤ (s1.filterMap (codeOf al)).length * 8 := Nat.mul_le_mul_left _ hb8
                _ ≤ _ := by omega
            obtain ⟨f, rfl⟩ : ∃ f, fuel = f + 1 := ⟨fuel - 1, by simp only [List.length_cons] at hf hlen; omega⟩
            rw [decLoopIn, show rd (splice mem op (unitBytes al.params U)) (sp + s1.length) = .ok 0#8 by simp [rd, hz], bind_ok,
              if_pos rfl, List.nil_append, decLoop, if_pos rfl]
        · rw [show ∀ v, wrs mem op (unitBytes al.params v) = .error .oobWrite by
            intro v; rw [wrs, if_neg (by rw [hul]; exact hw)], bind_err, bind_err]

/-- Decoding in place is decoding into an output array that happens to have the contents of the text's array. -/
theorem decodeIn_eq (al : BaseAlg) (s rest : List Byte) (hs : 0#8 ∉ s) :
    pgfeDecodeIn al (s ++ 0#8 :: rest) = pgfeDecode al (s ++ 0#8 :: rest) (s ++ 0#8 :: rest) := by
  rw [pgfeDecodeIn, decodeBaseIn, pgfeDecode, decodeBase,
    decLoopIn_eq al _ s rest hs 0 0#64 0 (s ++ 0#8 :: rest) none rfl (Nat.le_refl _) (by rw [List.length_append]; omega),
    List.drop_zero]
  rfl

theorem hexIn_eq (mem : List Byte) : hexStringToHashIn mem = hexStringToHash mem mem := by
  rw [hexStringToHashIn, hexStringToHash]
  congr 1; funext len
  congr 1; funext tpc
  generalize (if 2 ≤ len ∧ (tpc = 0x78#8 ∨ tpc = 0x58#8) then (2, len - 2) else (0, len)) = p
  obtain ⟨off, l⟩ := p
  dsimp only
  congr 1; funext t
  exact hexLoopIn_eq _ _ _ _ _ _ (by omega) (by omega)

end Pgfe.Proofs
