import Verif.Proofs.Sha
import Verif.Proofs.ShaBlock
/-!
# The padding functions, and the standard's padding
-/
namespace Pgfe.Proofs.Sha
open Pgfe.Model Pgfe.Proofs.Hash
open Pgfe.Spec.Sha (natOfBytes bytesOfNat bytesOfWord blocks padZeros pad)

theorem wr_right {α : Type} (p q : List α) (n j : Nat) (v : α) (hn : p.length = n) (hj : j < q.length) :
    wr (p ++ q) (n + j) v = .ok (p ++ q.set j v) := by
  rw [wr_ok _ (by simp; omega), List.set_append_right _ _ (by omega), hn, Nat.add_sub_cancel_left]

theorem bytesOfWord32 (x : W32) :
    bytesOfWord x = [byteAt x 24, byteAt x 16, byteAt x 8, byteAt x 0] := by
  have h := byteAt_eq x
  have h0 := h 0; have h1 := h 1; have h2 := h 2; have h3 := h 3
  simp only [Nat.mul_zero, Nat.mul_one, Nat.reduceMul] at h0 h1 h2 h3
  rw [h0, h1, h2, h3]
  rfl

theorem bytesOfWord64 (x : W64) :
    bytesOfWord x = [byteAt x 56, byteAt x 48, byteAt x 40, byteAt x 32,
      byteAt x 24, byteAt x 16, byteAt x 8, byteAt x 0] := by
  have h := byteAt_eq x
  have h0 := h 0; have h1 := h 1; have h2 := h 2; have h3 := h 3
  have h4 := h 4; have h5 := h 5; have h6 := h 6; have h7 := h 7
  simp only [Nat.mul_zero, Nat.mul_one, Nat.reduceMul] at h0 h1 h2 h3 h4 h5 h6 h7
  rw [h0, h1, h2, h3, h4, h5, h6, h7]
  rfl

/-- The length bytes written at the end of the block. -/
theorem lenWrites32 (b : List Byte) (hb : b.length = 64) (hi lo : W32) :
    (do
      let b ← wr b 56 (byteAt hi 24)
      let b ← wr b 57 (byteAt hi 16)
      let b ← wr b 58 (byteAt hi 8)
      let b ← wr b 59 (byteAt hi 0)
      let b ← wr b 60 (byteAt lo 24)
      let b ← wr b 61 (byteAt lo 16)
      let b ← wr b 62 (byteAt lo 8)
      wr b 63 (byteAt lo 0)) = .ok (b.take 56 ++ (bytesOfWord hi ++ bytesOfWord lo)) := by
  have hl : (b.take 56).length = 56 := by rw [List.length_take]; omega
  have hd : (b.drop 56).length = 8 := by rw [List.length_drop]; omega
  obtain ⟨q0, q1, q2, q3, q4, q5, q6, q7, hq⟩ : ∃ q0 q1 q2 q3 q4 q5 q6 q7 : Byte,
      b.drop 56 = [q0, q1, q2, q3, q4, q5, q6, q7] := by
    match b.drop 56, hd with
    | [q0, q1, q2, q3, q4, q5, q6, q7], _ => exact ⟨_, _, _, _, _, _, _, _, rfl⟩
  conv => lhs; rw [← List.take_append_drop 56 b, hq]
  generalize b.take 56 = p at hl
  rw [bytesOfWord32, bytesOfWord32]
  rw [wr_right p _ 56 0 _ hl (by simp), bind_ok, wr_right p _ 56 1 _ hl (by simp), bind_ok,
    wr_right p _ 56 2 _ hl (by simp), bind_ok, wr_right p _ 56 3 _ hl (by simp), bind_ok,
    wr_right p _ 56 4 _ hl (by simp), bind_ok, wr_right p _ 56 5 _ hl (by simp), bind_ok,
    wr_right p _ 56 6 _ hl (by simp), bind_ok, wr_right p _ 56 7 _ hl (by simp)]
  rfl

theorem lenWrites64 (b : List Byte) (hb : b.length = 128) (hi lo : W64) :
    (do
      let b ← wr b 112 (byteAt hi 56)
      let b ← wr b 113 (byteAt hi 48)
      let b ← wr b 114 (byteAt hi 40)
      let b ← wr b 115 (byteAt hi 32)
      let b ← wr b 116 (byteAt hi 24)
      let b ← wr b 117 (byteAt hi 16)
      let b ← wr b 118 (byteAt hi 8)
      let b ← wr b 119 (byteAt hi 0)
      let b ← wr b 120 (byteAt lo 56)
      let b ← wr b 121 (byteAt lo 48)
      let b ← wr b 122 (byteAt lo 40)
      let b ← wr b 123 (byteAt lo 32)
      let b ← wr b 124 (byteAt lo 24)
      let b ← wr b 125 (byteAt lo 16)
      let b ← wr b 126 (byteAt lo 8)
      wr b 127 (byteAt lo 0)) = .ok (b.take 112 ++ (bytesOfWord hi ++ bytesOfWord lo)) := by
  have hl : (b.take 112).length = 112 := by rw [List.length_take]; omega
  have hd : (b.drop 112).length = 16 := by rw [List.length_drop]; omega
  obtain ⟨q0, q1, q2, q3, q4, q5, q6, q7, r0, r1, r2, r3, r4, r5, r6, r7, hq⟩ :
      ∃ q0 q1 q2 q3 q4 q5 q6 q7 r0 r1 r2 r3 r4 r5 r6 r7 : Byte,
      b.drop 112 = [q0, q1, q2, q3, q4, q5, q6, q7, r0, r1, r2, r3, r4, r5, r6, r7] := by
    match b.drop 112, hd with
    | [q0, q1, q2, q3, q4, q5, q6, q7, r0, r1, r2, r3, r4, r5, r6, r7], _ =>
      exact ⟨_, _, _, _, _, _, _, _, _, _, _, _, _, _, _, _, rfl⟩
  conv => lhs; rw [← List.take_append_drop 112 b, hq]
  generalize b.take 112 = p at hl
  rw [bytesOfWord64, bytesOfWord64]
  rw [wr_right p _ 112 0 _ hl (by simp), bind_ok, wr_right p _ 112 1 _ hl (by simp), bind_ok,
    wr_right p _ 112 2 _ hl (by simp), bind_ok, wr_right p _ 112 3 _ hl (by simp), bind_ok,
    wr_right p _ 112 4 _ hl (by simp), bind_ok, wr_right p _ 112 5 _ hl (by simp), bind_ok,
    wr_right p _ 112 6 _ hl (by simp), bind_ok, wr_right p _ 112 7 _ hl (by simp), bind_ok,
    wr_right p _ 112 8 _ hl (by simp), bind_ok, wr_right p _ 112 9 _ hl (by simp), bind_ok,
    wr_right p _ 112 10 _ hl (by simp), bind_ok, wr_right p _ 112 11 _ hl (by simp), bind_ok,
    wr_right p _ 112 12 _ hl (by simp), bind_ok, wr_right p _ 112 13 _ hl (by simp), bind_ok,
    wr_right p _ 112 14 _ hl (by simp), bind_ok, wr_right p _ 112 15 _ hl (by simp)]
  rfl

/-- `b[i] = v; memset(b + i + 1, 0, k)`. -/
theorem set_zero (b : List Byte) (i k : Nat) (v : Byte) (h : i + 1 + k ≤ b.length) :
    wrs (b.set i v) (i + 1) (List.replicate k 0#8)
      = .ok (b.take i ++ [v] ++ List.replicate k 0#8 ++ b.drop (i + 1 + k)) := by
  rw [wrs_ok (by simp; omega), splice]
  rw [List.length_replicate, List.drop_set_of_lt (by omega), List.take_add_one,
    List.take_set_of_le (Nat.le_refl _), List.getElem?_set_self (by omega)]
  rfl

namespace Fam

/-- Reassociating the length writes of `shaPadding32`. -/
theorem bind_assoc8 {α : Type} (f : List Byte → C α) (b : List Byte) (hi lo : W32) :
    (do
      let b ← wr b 56 (byteAt hi 24)
      let b ← wr b 57 (byteAt hi 16)
      let b ← wr b 58 (byteAt hi 8)
      let b ← wr b 59 (byteAt hi 0)
      let b ← wr b 60 (byteAt lo 24)
      let b ← wr b 61 (byteAt lo 16)
      let b ← wr b 62 (byteAt lo 8)
      let b ← wr b 63 (byteAt lo 0)
      f b) = ((do
      let b ← wr b 56 (byteAt hi 24)
      let b ← wr b 57 (byteAt hi 16)
      let b ← wr b 58 (byteAt hi 8)
      let b ← wr b 59 (byteAt hi 0)
      let b ← wr b 60 (byteAt lo 24)
      let b ← wr b 61 (byteAt lo 16)
      let b ← wr b 62 (byteAt lo 8)
      wr b 63 (byteAt lo 0)) >>= f) := by
  simp only [bind_assoc]

theorem pad32_ok (F : Fam 32) : F.PadOK (shaPadding32 F.process) := by
  have hbs : F.bs = 64 := F.hbs
  intro c hc hi
  obtain ⟨h1, h2⟩ := hc
  rw [hbs] at hi h2
  have ht : (c.block.take c.index).length = c.index := by rw [List.length_take]; omega
  have hthr : F.bs - 32 / 4 = 56 := by omega
  rw [hthr, shaPadding32, wr_ok _ (by omega), bind_ok]
  dsimp only
  simp only [PADDING_HEADER]
  by_cases g1 : c.index + 1 > 56
  · rw [if_pos g1, set_zero _ _ _ _ (by omega), bind_ok, List.drop_of_length_le (by omega),
      List.append_nil]
    have hbl : (c.block.take c.index ++ [0x80#8] ++ List.replicate (64 - (c.index + 1)) 0#8).length = 64 := by
      simp; omega
    have htk : (c.block.take c.index ++ [0x80#8] ++ List.replicate (64 - (c.index + 1)) 0#8).take 56
        = (c.block.take c.index).take 56 := by
      rw [List.append_assoc, List.take_append_of_le_length (by omega)]
    have hll : ((c.block.take c.index).take 56 ++ (bytesOfWord c.lenHigh ++ bytesOfWord c.lenLow)).length = 64 := by
      simp [bytesOfWord_length]; omega
    have hcl := F.hlen c.state _ h1 (hbl.trans hbs.symm)
    rw [F.process_mk _ _ _ _ _ h1 (hbl.trans hbs.symm), bind_ok]
    dsimp only
    rw [bind_assoc8, lenWrites32 _ hbl, bind_ok, htk, F.process_mk _ _ _ _ _ hcl (hll.trans hbs.symm)]
    refine ⟨_, hll.trans hbs.symm, by rw [libPad, if_neg (by omega), lenField]; rfl, ?_⟩
    rw [libPad, if_neg (by omega), ht, hbs, lenField]
    rfl
  · rw [if_neg g1]
    have hll : (c.block.take c.index ++ [0x80#8] ++ List.replicate (56 - c.index - 1) 0#8 ++
        (bytesOfWord c.lenHigh ++ bytesOfWord c.lenLow)).length = 64 := by
      simp [bytesOfWord_length]; omega
    by_cases g2 : c.index + 1 < 56
    · rw [if_pos g2, set_zero _ _ _ _ (by omega), bind_ok, bind_ok]
      have hbl : (c.block.take c.index ++ [0x80#8] ++ List.replicate (56 - (c.index + 1)) 0#8 ++
          c.block.drop (c.index + 1 + (56 - (c.index + 1)))).length = 64 := by
        simp; omega
      have htk : (c.block.take c.index ++ [0x80#8] ++ List.replicate (56 - (c.index + 1)) 0#8 ++
          c.block.drop (c.index + 1 + (56 - (c.index + 1)))).take 56
          = c.block.take c.index ++ [0x80#8] ++ List.replicate (56 - c.index - 1) 0#8 := by
        rw [List.take_append_of_le_length (by simp; omega), List.take_of_length_le (by simp; omega)]
        rfl
      dsimp only
      rw [bind_assoc8, lenWrites32 _ hbl, bind_ok, htk, F.process_mk _ _ _ _ _ h1 (hll.trans hbs.symm)]
      refine ⟨_, hll.trans hbs.symm, by rw [libPad, if_pos (by omega), ht, lenField]; rfl, ?_⟩
      rw [libPad, if_pos (by omega), ht, lenField]
      rfl
    · rw [if_neg g2, bind_ok]
      have hix : c.index = 55 := by omega
      have htk : (c.block.set c.index 0x80#8).take 56
          = c.block.take c.index ++ [0x80#8] ++ List.replicate (56 - c.index - 1) 0#8 := by
        have : 56 = c.index + 1 := by omega
        rw [this, List.take_add_one, List.take_set_of_le (Nat.le_refl _),
          List.getElem?_set_self (by omega)]
        simp
      dsimp only
      rw [bind_assoc8, lenWrites32 _ (by simp [h2]), bind_ok, htk,
        F.process_mk _ _ _ _ _ h1 (hll.trans hbs.symm)]
      refine ⟨_, hll.trans hbs.symm, by rw [libPad, if_pos (by omega), ht, lenField]; rfl, ?_⟩
      rw [libPad, if_pos (by omega), ht, lenField]
      rfl

/-- Reassociating the length writes of `sha512Padding`. -/
theorem bind_assoc16 {α : Type} (f : List Byte → C α) (b : List Byte) (hi lo : W64) :
    (do
      let b ← wr b 112 (byteAt hi 56)
      let b ← wr b 113 (byteAt hi 48)
      let b ← wr b 114 (byteAt hi 40)
      let b ← wr b 115 (byteAt hi 32)
      let b ← wr b 116 (byteAt hi 24)
      let b ← wr b 117 (byteAt hi 16)
      let b ← wr b 118 (byteAt hi 8)
      let b ← wr b 119 (byteAt hi 0)
      let b ← wr b 120 (byteAt lo 56)
      let b ← wr b 121 (byteAt lo 48)
      let b ← wr b 122 (byteAt lo 40)
      let b ← wr b 123 (byteAt lo 32)
      let b ← wr b 124 (byteAt lo 24)
      let b ← wr b 125 (byteAt lo 16)
      let b ← wr b 126 (byteAt lo 8)
      let b ← wr b 127 (byteAt lo 0)
      f b) = ((do
      let b ← wr b 112 (byteAt hi 56)
      let b ← wr b 113 (byteAt hi 48)
      let b ← wr b 114 (byteAt hi 40)
      let b ← wr b 115 (byteAt hi 32)
      let b ← wr b 116 (byteAt hi 24)
      let b ← wr b 117 (byteAt hi 16)
      let b ← wr b 118 (byteAt hi 8)
      let b ← wr b 119 (byteAt hi 0)
      let b ← wr b 120 (byteAt lo 56)
      let b ← wr b 121 (byteAt lo 48)
      let b ← wr b 122 (byteAt lo 40)
      let b ← wr b 123 (byteAt lo 32)
      let b ← wr b 124 (byteAt lo 24)
      let b ← wr b 125 (byteAt lo 16)
      let b ← wr b 126 (byteAt lo 8)
      wr b 127 (byteAt lo 0)) >>= f) := by
  simp only [bind_assoc]

theorem pad64_ok : F512.PadOK (fun c => sha512Padding c PADDING_HEADER) := by
  have hbs : F512.bs = 128 := rfl
  have hpr : sha512ProcessBlock = F512.process := rfl
  intro c hc hi
  obtain ⟨h1, h2⟩ := hc
  rw [hbs] at hi h2
  have ht : (c.block.take c.index).length = c.index := by rw [List.length_take]; omega
  have hthr : F512.bs - 64 / 4 = 112 := by omega
  dsimp only
  rw [hthr, sha512Padding, wr_ok _ (by omega), bind_ok]
  dsimp only
  simp only [PADDING_HEADER, hpr]
  by_cases g1 : c.index + 1 > 112
  · rw [if_pos g1, set_zero _ _ _ _ (by omega), bind_ok, List.drop_of_length_le (by omega),
      List.append_nil]
    have hbl : (c.block.take c.index ++ [0x80#8] ++ List.replicate (128 - (c.index + 1)) 0#8).length = 128 := by
      simp; omega
    have htk : (c.block.take c.index ++ [0x80#8] ++ List.replicate (128 - (c.index + 1)) 0#8).take 112
        = (c.block.take c.index).take 112 := by
      rw [List.append_assoc, List.take_append_of_le_length (by omega)]
    have hll : ((c.block.take c.index).take 112 ++ (bytesOfWord c.lenHigh ++ bytesOfWord c.lenLow)).length = 128 := by
      simp [bytesOfWord_length]; omega
    have hcl := F512.hlen c.state _ h1 (hbl.trans hbs.symm)
    rw [F512.process_mk _ _ _ _ _ h1 (hbl.trans hbs.symm), bind_ok]
    dsimp only
    rw [bind_assoc16, lenWrites64 _ hbl, bind_ok, htk, F512.process_mk _ _ _ _ _ hcl (hll.trans hbs.symm)]
    refine ⟨_, hll.trans hbs.symm, by rw [libPad, if_neg (by omega), lenField]; rfl, ?_⟩
    rw [libPad, if_neg (by omega), ht, hbs, lenField]
    rfl
  · rw [if_neg g1]
    have hll : (c.block.take c.index ++ [0x80#8] ++ List.replicate (112 - c.index - 1) 0#8 ++
        (bytesOfWord c.lenHigh ++ bytesOfWord c.lenLow)).length = 128 := by
      simp [bytesOfWord_length]; omega
    by_cases g2 : c.index + 1 < 112
    · rw [if_pos g2, set_zero _ _ _ _ (by omega), bind_ok, bind_ok]
      have hbl : (c.block.take c.index ++ [0x80#8] ++ List.replicate (112 - (c.index + 1)) 0#8 ++
          c.block.drop (c.index + 1 + (112 - (c.index + 1)))).length = 128 := by
        simp; omega
      have htk : (c.block.take c.index ++ [0x80#8] ++ List.replicate (112 - (c.index + 1)) 0#8 ++
          c.block.drop (c.index + 1 + (112 - (c.index + 1)))).take 112
          = c.block.take c.index ++ [0x80#8] ++ List.replicate (112 - c.index - 1) 0#8 := by
        rw [List.take_append_of_le_length (by simp; omega), List.take_of_length_le (by simp; omega)]
        rfl
      dsimp only
      rw [bind_assoc16, lenWrites64 _ hbl, bind_ok, htk, F512.process_mk _ _ _ _ _ h1 (hll.trans hbs.symm)]
      refine ⟨_, hll.trans hbs.symm, by rw [libPad, if_pos (by omega), ht, lenField]; rfl, ?_⟩
      rw [libPad, if_pos (by omega), ht, lenField]
      rfl
    · rw [if_neg g2, bind_ok]
      have hix : c.index = 111 := by omega
      have htk : (c.block.set c.index 0x80#8).take 112
          = c.block.take c.index ++ [0x80#8] ++ List.replicate (112 - c.index - 1) 0#8 := by
        have : 112 = c.index + 1 := by omega
        rw [this, List.take_add_one, List.take_set_of_le (Nat.le_refl _),
          List.getElem?_set_self (by omega)]
        simp
      dsimp only
      rw [bind_assoc16, lenWrites64 _ (by simp [h2]), bind_ok, htk,
        F512.process_mk _ _ _ _ _ h1 (hll.trans hbs.symm)]
      refine ⟨_, hll.trans hbs.symm, by rw [libPad, if_pos (by omega), ht, lenField]; rfl, ?_⟩
      rw [libPad, if_pos (by omega), ht, lenField]
      rfl

end Fam
end Pgfe.Proofs.Sha
