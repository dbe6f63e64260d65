import Verif.Proofs.ShaPad
/-!
# The SHA functions as correct hash implementations; comparison with the standard's padding
-/
namespace Pgfe.Proofs.Sha
open Pgfe.Model Pgfe.Proofs.Hash
open Pgfe.Spec.Sha (natOfBytes bytesOfNat bytesOfWord blocks padZeros pad V5 V8 P256 P512 Sha2)

/-! ## The length field -/

theorem bytesOfNat_append (a b x y : Nat) (hy : y < 256 ^ b) :
    bytesOfNat (a + b) (x * 256 ^ b + y) = bytesOfNat a x ++ bytesOfNat b y := by
  rw [bytesOfNat, List.range_add, List.map_append, bytesOfNat, bytesOfNat, List.map_map]
  congr 1
  · apply List.map_congr_left
    intro i hi
    have hi := List.mem_range.1 hi
    have e : a + b - 1 - i = b + (a - 1 - i) := by omega
    rw [e, Nat.pow_add, ← Nat.div_div_eq_div_mul, Nat.add_comm, Nat.add_mul_div_right _ _ (Nat.pow_pos (by decide)),
      Nat.div_eq_of_lt hy, Nat.zero_add]
  · apply List.map_congr_left
    intro i hi
    have hi := List.mem_range.1 hi
    have e : a + b - 1 - (a + i) = b - 1 - i := by omega
    simp only [Function.comp_def, e]
    have e2 : 256 ^ b = (256 ^ i * 256) * 256 ^ (b - 1 - i) := by
      rw [← Nat.pow_succ, ← Nat.pow_add]; congr 1; omega
    rw [e2, ← Nat.mul_assoc, Nat.add_comm, Nat.add_mul_div_right _ _ (Nat.pow_pos (by decide))]
    apply BitVec.eq_of_toNat_eq
    simp only [BitVec.toNat_ofNat]
    rw [← Nat.mul_assoc]
    exact Nat.add_mul_mod_self_right ..

theorem lenField_eq {w k : Nat} (hw : w = 8 * k) (c : ShaCtx w) :
    Fam.lenField c = bytesOfNat (w / 4) (Fam.val c) := by
  subst hw
  have e1 : 8 * k / 4 = k + k := by omega
  have e2 : 8 * k / 8 = k := by omega
  have e3 : 2 ^ (8 * k) = 256 ^ k := by rw [Nat.pow_mul]
  rw [Fam.lenField, Fam.val, e1, e3, bytesOfWord, bytesOfWord, e2, bytesOfNat_append]
  rw [← e3]; exact c.lenLow.isLt

/-! ## What the library computes -/

namespace Fam
variable {w : Nat} (F : Fam w)

/-- The state after padding. -/
def final (s : List (BitVec w)) (t len : List Byte) : List (BitVec w) :=
  (libPad F.bs (F.bs - w / 4) t len).foldl F.compress s

/-- The digest the library computes: like the standard's, except for the padding blocks. -/
def libHash (h0 : List (BitVec w)) (n : Nat) (m : List Byte) : List Byte :=
  ((F.final ((blocks F.bs m).foldl F.compress h0) (tail F.bs m)
    (bytesOfNat (w / 4) (8 * m.length))).flatMap bytesOfWord).take n

theorem libPad_len (t len : List Byte) (hw8 : w % 8 = 0) (hl : len.length = w / 4) (ht : t.length < F.bs) :
    ∀ b ∈ libPad F.bs (F.bs - w / 4) t len, b.length = F.bs := by
  have := F.hbs
  have := F.hw
  intro b hb
  rw [libPad] at hb
  split at hb
  · rw [List.mem_singleton] at hb; subst hb; simp [hl]; omega
  · simp only [List.mem_cons, List.not_mem_nil, or_false] at hb
    rcases hb with rfl | rfl
    · simp; omega
    · simp [hl]; omega

theorem final_len (s : List (BitVec w)) (t len : List Byte) (hs : s.length = F.ns) (hw8 : w % 8 = 0)
    (hl : len.length = w / 4) (ht : t.length < F.bs) : (F.final s t len).length = F.ns := by
  have h := F.libPad_len t len hw8 hl ht
  rw [final]
  generalize libPad F.bs (F.bs - w / 4) t len = l at h
  induction l generalizing s with
  | nil => exact hs
  | cons b l ih =>
    exact ih (F.compress s b) (F.hlen _ _ hs (h b (List.mem_cons_self ..)))
      (fun b hb => h b (List.mem_cons_of_mem _ hb))

theorem fold_len (s : List (BitVec w)) (m : List Byte) (hs : s.length = F.ns) :
    ((blocks F.bs m).foldl F.compress s).length = F.ns := by
  have h : ∀ b ∈ blocks F.bs m, b.length = F.bs := by
    intro b hb
    obtain ⟨i, hi, rfl⟩ := List.mem_map.1 hb
    have hi := List.mem_range.1 hi
    have h1 : (i + 1) * F.bs ≤ m.length / F.bs * F.bs := Nat.mul_le_mul_right _ hi
    have h2 := Nat.div_mul_le_self m.length F.bs
    rw [Nat.succ_mul] at h1
    simp; omega
  generalize blocks F.bs m = l at h
  induction l generalizing s with
  | nil => exact hs
  | cons b l ih =>
    exact ih (F.compress s b) (F.hlen _ _ hs (h b (List.mem_cons_self ..)))
      (fun b hb => h b (List.mem_cons_of_mem _ hb))

/-- Contexts that differ only in the unused part of the block buffer. -/
def Agree (c₁ c₂ : ShaCtx w) : Prop :=
  c₁.state = c₂.state ∧ c₁.lenLow = c₂.lenLow ∧ c₁.lenHigh = c₂.lenHigh ∧ c₁.index = c₂.index ∧
    c₁.block.take c₁.index = c₂.block.take c₂.index

theorem push_agree (c₁ c₂ : ShaCtx w) (b : Byte) (h₁ : F.WF c₁) (h₂ : F.WF c₂)
    (hi : c₁.index < F.bs) (h : Agree c₁ c₂) : Agree (F.push c₁ b) (F.push c₂ b) := by
  obtain ⟨e1, e2, e3, e4, e5⟩ := h
  have hset : (c₁.block.set c₁.index b).take (c₁.index + 1) = (c₂.block.set c₂.index b).take (c₂.index + 1) := by
    rw [List.take_add_one, List.take_add_one, List.take_set_of_le (Nat.le_refl _),
      List.take_set_of_le (Nat.le_refl _), List.getElem?_set_self (by rw [h₁.2]; exact hi),
      List.getElem?_set_self (by rw [h₂.2, ← e4]; exact hi), e5]
  unfold push
  dsimp only
  rw [e2, e3]
  by_cases hb : c₁.index + 1 = F.bs
  · have hb2 : c₂.index + 1 = F.bs := by rw [← e4]; exact hb
    rw [if_pos hb, if_pos hb2]
    rw [hb, ← e4, hb, List.take_of_length_le (by rw [List.length_set, h₁.2]; exact Nat.le_refl _),
      List.take_of_length_le (by rw [List.length_set, h₂.2]; exact Nat.le_refl _)] at hset
    refine ⟨?_, rfl, rfl, rfl, rfl⟩
    dsimp only
    rw [e1, hset, e4]
  · have hb2 : ¬ c₂.index + 1 = F.bs := by rw [← e4]; exact hb
    rw [if_neg hb, if_neg hb2]
    exact ⟨e1, rfl, rfl, by dsimp only; rw [e4], hset⟩

theorem foldl_agree (l : List Byte) : ∀ c₁ c₂ : ShaCtx w, F.WF c₁ → F.WF c₂ → c₁.index < F.bs →
    Agree c₁ c₂ → Agree (l.foldl F.push c₁) (l.foldl F.push c₂) := by
  induction l with
  | nil => intro c₁ c₂ _ _ _ h; exact h
  | cons b l ih =>
    intro c₁ c₂ h₁ h₂ hi h
    exact ih _ _ (F.push_wf c₁ h₁ b) (F.push_wf c₂ h₂ b) (F.push_index c₁ b hi)
      (F.push_agree c₁ c₂ b h₁ h₂ hi h)

/-- What a digest function must do. -/
def DigestOK (wipe : Bool) (n : Nat) (digest : ShaCtx w → List Byte → C (ShaCtx w × List Byte)) : Prop :=
  ∀ c out, F.WF c → c.index < F.bs → n ≤ out.length →
    ∃ c', digest c out = .ok (c', ((F.final c.state (c.block.take c.index) (lenField c)).flatMap
        bytesOfWord).take n ++ out.drop n) ∧ F.WF c' ∧ c'.index = 0 ∧
      c'.state = F.final c.state (c.block.take c.index) (lenField c) ∧
      c'.lenHigh = (if wipe then 0#w else c.lenHigh) ∧ c'.lenLow = (if wipe then 0#w else c.lenLow)

/-- The implementation record of a member of the family. -/
abbrev impl (h0 : List (BitVec w)) (digest : ShaCtx w → List Byte → C (ShaCtx w × List Byte)) : HashImpl where
  Ctx := ShaCtx w
  init := shaInit h0
  update := shaUpdate F.process F.bs
  digest := digest

theorem init_eq (h0 : List (BitVec w)) (hh : h0.length = F.ns) (g : ShaCtx w) (hg : F.WF g) :
    shaInit h0 g = .ok ⟨h0, 0#w, 0#w, 0, g.block⟩ := by
  rw [shaInit]
  dsimp only
  rw [wrs_ok (by rw [hg.1]; omega), bind_ok, splice]
  have : g.state.drop (0 + h0.length) = [] := List.drop_of_length_le (by rw [hg.1]; omega)
  rw [this]
  simp

theorem init_inv (h0 : List (BitVec w)) (hh : h0.length = F.ns) (g : ShaCtx w) (hg : F.WF g) :
    F.Inv h0 [] ⟨h0, 0#w, 0#w, 0, g.block⟩ := by
  refine ⟨⟨hh, hg.2⟩, ?_, ?_, ?_, ?_⟩
  · simp
  · simp [blocks]
  · simp [tail]
  · simp [val]

/-- Every member of the family is a correct implementation of `libHash`. -/
def ok (h0 : List (BitVec w)) (hh : h0.length = F.ns) (k : Nat) (hk : w = 8 * k) (n : Nat)
    (hn : n ≤ F.ns * k) (digest : ShaCtx w → List Byte → C (ShaCtx w × List Byte))
    (wipe : Bool) (hd : F.DigestOK wipe n digest) (H : List Byte → List Byte)
    (hH : ∀ m, F.libHash h0 n m = H m) : HashOK (F.impl h0 digest) H where
  WF := F.WF
  Inv := F.Inv h0
  Safe := fun k c => F.WF c ∧ c.index < F.bs ∧ val c ≤ 8 * k
  ds := n
  okUpd := fun n => n < 2 ^ 31
  okTot := fun n => 8 * n < 2 ^ (2 * w)
  tot_mono := fun a b h hb => by omega
  tot_zero := Nat.two_pow_pos _
  wf := fun _ _ h => h.1
  safe := fun m c h => ⟨h.1, by rw [h.2.1]; exact Nat.mod_lt _ F.bs_pos, by rw [h.2.2.2.2]; exact Nat.le_refl _⟩
  init_ok := fun g hg => ⟨_, F.init_eq h0 hh g hg, F.init_inv h0 hh g hg⟩
  update_ok := by
    intro m c inp n h hu hn ht
    have hv : val c = 8 * m.length := h.2.2.2.2
    have hi : c.index < F.bs := by rw [h.2.1]; exact Nat.mod_lt _ F.bs_pos
    refine ⟨_, F.update_ok c h.1 hi inp n hn hu (by omega), ?_⟩
    apply F.foldl_inv h0 _ _ _ h
    rw [List.length_take]; omega
  digest_ok := by
    intro m c out h ht ho
    have hi : c.index < F.bs := by rw [h.2.1]; exact Nat.mod_lt _ F.bs_pos
    obtain ⟨c', h1, h2, h3, _, h5, h6⟩ := hd c out h.1 hi ho
    refine ⟨c', ?_, h2, by rw [h3]; exact F.bs_pos, ?_⟩
    · show digest c out = _
      rw [h1, h.2.2.2.1, h.2.2.1, lenField_eq hk, h.2.2.2.2, ← hH]; rfl
    · have hv : val c = 8 * m.length := h.2.2.2.2
      rw [← hv]
      rw [val, h5, h6]
      cases wipe
      · exact Nat.le_refl _
      · simp
  safe_update := by
    intro k c inp n h hu hn ht
    refine ⟨_, F.update_ok c h.1 h.2.1 inp n hn hu (by omega), ?_⟩
    have hl : (inp.take n).length = n := by rw [List.length_take]; omega
    obtain ⟨a, b, v⟩ := F.foldl_push (inp.take n) c h.1 h.2.1 (by rw [hl]; omega)
    exact ⟨a, b, by rw [v, hl]; omega⟩
  safe_digest := by
    intro k' c out h ht ho
    obtain ⟨c', h1, h2, h3, h4, h5, h6⟩ := hd c out h.1 h.2.1 ho
    refine ⟨c', _, h1, ?_, h2, by rw [h3]; exact F.bs_pos, ?_⟩
    · rw [List.length_take, flatMap_bytes_length, final_len F _ _ _ h.1.1 (by omega)
        (lenField_length (by omega) c) (by
          rw [List.length_take]
          have := h.2.1
          omega)]
      have : w / 8 = k := by omega
      rw [this]; omega
    · rw [val, h5, h6]
      cases wipe
      · exact h.2.2
      · simp
  len := by
    intro m
    rw [← hH, libHash, List.length_take, flatMap_bytes_length, final_len F _ _ _ (F.fold_len _ _ hh) (by omega)
      (by simp [bytesOfNat]) (by rw [tail_length]; exact Nat.mod_lt _ F.bs_pos)]
    have : w / 8 = k := by omega
    rw [this]; omega
  Rel := Agree
  rel_init := by
    intro g₁ g₂ c₁ c₂ h₁ h₂ e₁ e₂
    have e₁ : shaInit h0 g₁ = .ok c₁ := e₁
    have e₂ : shaInit h0 g₂ = .ok c₂ := e₂
    rw [F.init_eq h0 hh g₁ h₁] at e₁
    rw [F.init_eq h0 hh g₂ h₂] at e₂
    cases e₁; cases e₂
    exact ⟨rfl, rfl, rfl, rfl, rfl⟩
  rel_update := by
    intro k c₁ c₂ inp n c₁' c₂' s₁ s₂ h hu hn ht e₁ e₂
    have e₁ : shaUpdate F.process F.bs c₁ (some inp) n = .ok c₁' := e₁
    have e₂ : shaUpdate F.process F.bs c₂ (some inp) n = .ok c₂' := e₂
    rw [F.update_ok c₁ s₁.1 s₁.2.1 inp n hn hu (by omega)] at e₁
    rw [F.update_ok c₂ s₂.1 s₂.2.1 inp n hn hu (by omega)] at e₂
    cases e₁; cases e₂
    exact F.foldl_agree _ c₁ c₂ s₁.1 s₂.1 s₁.2.1 h
  rel_digest := by
    intro k c₁ c₂ out c₁' c₂' o₁ o₂ s₁ s₂ h ht ho e₁ e₂
    have e₁ : digest c₁ out = .ok (c₁', o₁) := e₁
    have e₂ : digest c₂ out = .ok (c₂', o₂) := e₂
    obtain ⟨d₁, a1, a2, a3, a4, a5, a6⟩ := hd c₁ out s₁.1 s₁.2.1 ho
    obtain ⟨d₂, b1, b2, b3, b4, b5, b6⟩ := hd c₂ out s₂.1 s₂.2.1 ho
    rw [a1] at e₁
    rw [b1] at e₂
    cases e₁; cases e₂
    obtain ⟨q1, q2, q3, q4, q5⟩ := h
    have hl : lenField c₁ = lenField c₂ := by rw [lenField, lenField, q2, q3]
    refine ⟨by rw [q5, q1, hl], by rw [a4, b4, q1, q5, hl], by rw [a6, b6, q2], by rw [a5, b5, q3],
      by rw [a3, b3], by rw [a3, b3, List.take_zero, List.take_zero]⟩

end Fam

/-! ## The seven functions -/

theorem digest1_ok : F1.DigestOK true 20 sha1Digest := by
  intro c out hc hi ho
  obtain ⟨blk, hb, _, hp⟩ := Fam.pad32_ok F1 c hc hi
  have hp : shaPadding32 sha1ProcessBlock c = _ := hp
  rw [sha1Digest, hp, bind_ok]
  have hl : (F1.final c.state (c.block.take c.index) (Fam.lenField c)).length = 5 :=
    F1.final_len _ _ _ hc.1 rfl (Fam.lenField_length rfl c) (by
      rw [List.length_take]; have := hc.2; omega)
  dsimp only
  rw [output32_ok 20 _ out (by rw [Fam.final] at hl; rw [hl]; decide) ho, bind_ok]
  exact ⟨_, rfl, ⟨hl, by simpa using hb⟩, rfl, rfl, rfl, rfl⟩

theorem digest256_ok (n : Nat) (hn : n ≤ 32) : F256.DigestOK false n (sha224n256Digest n) := by
  intro c out hc hi ho
  obtain ⟨blk, hb, _, hp⟩ := Fam.pad32_ok F256 c hc hi
  have hp : shaPadding32 sha256ProcessBlock c = _ := hp
  rw [sha224n256Digest, hp, bind_ok]
  have hl : (F256.final c.state (c.block.take c.index) (Fam.lenField c)).length = 8 :=
    F256.final_len _ _ _ hc.1 rfl (Fam.lenField_length rfl c) (by
      rw [List.length_take]; have := hc.2; omega)
  dsimp only
  rw [output32_ok n _ out (by rw [Fam.final] at hl; rw [hl]; exact hn) ho, bind_ok]
  exact ⟨_, rfl, ⟨hl, by simpa using hb⟩, rfl, rfl, rfl, rfl⟩

theorem digest512_ok (n : Nat) (hn : n ≤ 64) : F512.DigestOK false n (sha384n512Digest n) := by
  intro c out hc hi ho
  obtain ⟨blk, hb, _, hp⟩ := Fam.pad64_ok c hc hi
  have hp : sha512Padding c PADDING_HEADER = _ := hp
  rw [sha384n512Digest, hp, bind_ok]
  have hl : (F512.final c.state (c.block.take c.index) (Fam.lenField c)).length = 8 :=
    F512.final_len _ _ _ hc.1 rfl (Fam.lenField_length rfl c) (by
      rw [List.length_take]; have := hc.2; omega)
  dsimp only
  rw [output64_ok n _ out (by rw [Fam.final] at hl; rw [hl]; exact hn) ho, bind_ok]
  exact ⟨_, rfl, ⟨hl, by simpa using hb⟩, rfl, rfl, rfl, rfl⟩


/-! ## The standard's padding -/

/-- The blocks that the standard's padding forms from the last, incomplete block. -/
def stdPad (bs thr : Nat) (t len : List Byte) : List (List Byte) :=
  if t.length + 1 ≤ thr then [t ++ [0x80#8] ++ List.replicate (thr - t.length - 1) 0#8 ++ len]
  else [t ++ [0x80#8] ++ List.replicate (bs - t.length - 1) 0#8, List.replicate thr 0#8 ++ len]

theorem pad_blocks (bs lb : Nat) (hlb : lb < bs) (m : List Byte) :
    blocks bs (pad bs lb m) = blocks bs m ++ stdPad bs (bs - lb) (tail bs m) (bytesOfNat lb (8 * m.length)) := by
  have hp : 0 < bs := by omega
  have hlen : (bytesOfNat lb (8 * m.length)).length = lb := by simp [bytesOfNat]
  have hpad : pad bs lb m = m ++ ([0x80#8] ++ List.replicate (padZeros bs lb m.length) 0#8
      ++ bytesOfNat lb (8 * m.length)) := by
    simp [pad]
  generalize bytesOfNat lb (8 * m.length) = len at hlen hpad
  have htl := tail_length bs m
  have htb : (tail bs m).length < bs := by rw [htl]; exact Nat.mod_lt _ hp
  rw [hpad, blocks_tail bs hp]
  congr 1
  have hz : padZeros bs lb m.length = (bs - ((tail bs m).length + 1 + lb) % bs) % bs := by
    rw [padZeros, htl]
    congr 2
    rw [Nat.add_assoc, Nat.add_assoc, Nat.mod_add_mod]
  rw [hz]
  generalize tail bs m = t at htb
  clear htl hz
  rw [stdPad]
  by_cases h : t.length + 1 ≤ bs - lb
  · rw [if_pos h]
    have e : (bs - (t.length + 1 + lb) % bs) % bs = bs - lb - t.length - 1 := by
      by_cases h2 : t.length + 1 + lb = bs
      · rw [h2, Nat.mod_self, Nat.sub_zero, Nat.mod_self]; omega
      · rw [Nat.mod_eq_of_lt (by omega : t.length + 1 + lb < bs), Nat.mod_eq_of_lt (by omega)]; omega
    rw [e, ← List.append_assoc, ← List.append_assoc]
    exact blocks_one bs hp _ (by simp [hlen]; omega)
  · rw [if_neg h]
    have e : (bs - (t.length + 1 + lb) % bs) % bs = (bs - t.length - 1) + (bs - lb) := by
      rw [Nat.mod_eq_sub_mod (by omega : bs ≤ t.length + 1 + lb),
        Nat.mod_eq_of_lt (by omega : t.length + 1 + lb - bs < bs), Nat.mod_eq_of_lt (by omega)]; omega
    rw [e, ← List.replicate_append_replicate]
    have e2 : t ++ ([0x80#8] ++ (List.replicate (bs - t.length - 1) 0#8 ++ List.replicate (bs - lb) 0#8) ++ len)
        = (t ++ [0x80#8] ++ List.replicate (bs - t.length - 1) 0#8) ++ (List.replicate (bs - lb) 0#8 ++ len) := by
      simp only [List.append_assoc]
    have l1 : (t ++ [0x80#8] ++ List.replicate (bs - t.length - 1) 0#8).length = bs := by simp; omega
    rw [e2, blocks_append bs hp _ _ (by rw [l1]; exact Nat.mod_self _), blocks_one bs hp _ l1,
      blocks_one bs hp _ (by simp [hlen]; omega)]
    rfl

end Pgfe.Proofs.Sha
