import Verif.Proofs.Alg
import Verif.Model.HashEncoder
/-!
# Digests into arrays that are too short
-/
namespace Pgfe.Proofs.Short
open Pgfe.Model Pgfe.Spec Pgfe.Props
open Pgfe.Proofs.Sha Pgfe.Proofs.Hash

/-- A loop whose iteration `i` writes the bytes `u * i` to `u * i + u - 1` of an array that ends before
`u * n`. -/
theorem forN_short (u n : Nat) (hu : 0 < u) (f : Nat → List Byte → C (List Byte)) (out : List Byte)
    (hok : ∀ i o, i < n → o.length = out.length → u * (i + 1) ≤ out.length →
      ∃ o', f i o = .ok o' ∧ o'.length = o.length)
    (herr : ∀ i o, i < n → o.length = out.length → u * i ≤ out.length → out.length < u * (i + 1) → f i o = .error .oobWrite)
    (h : out.length < u * n) : forN n f out = .error .oobWrite := by
  have hi : out.length / u < n := by
    rw [Nat.div_lt_iff_lt_mul hu, Nat.mul_comm]; exact h
  have h1 : u * (out.length / u) ≤ out.length := Nat.mul_div_le _ _
  have h2 : out.length < u * (out.length / u + 1) := Nat.lt_mul_div_succ _ hu
  generalize out.length / u = i at *
  obtain ⟨o, e, hl⟩ := forN_inv (fun _ o => o.length = out.length) i f out rfl (by
    intro j o hj ho
    obtain ⟨o', a, b⟩ := hok j o (by omega) ho (Nat.le_trans (Nat.mul_le_mul_left u hj) h1)
    exact ⟨o', a, by rw [b]; exact ho⟩)
  apply forN_err n f out .oobWrite i hi
  rw [e, bind_ok]
  exact herr i o hi hl h1 h2

theorem output32_short (n : Nat) (state : List W32) (out : List Byte)
    (hn : n ≤ state.length * 4) (ho : out.length < n) : shaOutput32 n state out = .error .oobWrite := by
  rw [shaOutput32]
  have hr : ∀ i, i < n → i >>> 2 < state.length := by
    intro i hi; rw [Nat.shiftRight_eq_div_pow]; omega
  apply forN_short 1 n (by decide)
  · intro i o hi hl hle
    rw [rd_ok (hr i hi), bind_ok, wr_ok _ (by omega)]
    exact ⟨_, rfl, by simp⟩
  · intro i o hi hl _ hle
    rw [rd_ok (hr i hi), bind_ok, wr, if_neg (by omega)]
  · omega

theorem output64_short (n : Nat) (state : List W64) (out : List Byte)
    (hn : n ≤ state.length * 8) (ho : out.length < n) : shaOutput64 n state out = .error .oobWrite := by
  rw [shaOutput64]
  have hr : ∀ i, i < n → i >>> 3 < state.length := by
    intro i hi; rw [Nat.shiftRight_eq_div_pow]; omega
  apply forN_short 1 n (by decide)
  · intro i o hi hl hle
    rw [rd_ok (hr i hi), bind_ok, wr_ok _ (by omega)]
    exact ⟨_, rfl, by simp⟩
  · intro i o hi hl _ hle
    rw [rd_ok (hr i hi), bind_ok, wr, if_neg (by omega)]
  · omega

theorem md5Encode_short (ws : List W32) (k : Nat) (hk : ws.length = k) (out : List Byte)
    (ho : out.length < 4 * k) : md5Encode ws (4 * k) out = .error .oobWrite := by
  rw [md5Encode, Nat.mul_div_cancel_left _ (by decide)]
  apply forN_short 4 k (by decide)
  · intro i o hi hl hle
    rw [rd_ok (by omega), bind_ok, wr_ok _ (by omega), bind_ok,
      wr_ok _ (by rw [List.length_set]; omega), bind_ok,
      wr_ok _ (by rw [List.length_set, List.length_set]; omega), bind_ok,
      wr_ok _ (by rw [List.length_set, List.length_set, List.length_set]; omega)]
    exact ⟨_, rfl, by simp⟩
  · intro i o hi hl hge hle
    rw [rd_ok (by omega), bind_ok]
    have w : ∀ (o' : List Byte) (j : Nat) (v : Byte), o'.length = out.length →
        (out.length ≤ j ∧ wr o' j v = .error .oobWrite) ∨
        (j < out.length ∧ ∃ o2, wr o' j v = .ok o2 ∧ o2.length = out.length) := by
      intro o' j v ho'
      by_cases hj : j < out.length
      · exact Or.inr ⟨hj, _, wr_ok _ (by omega), by rw [List.length_set]; exact ho'⟩
      · exact Or.inl ⟨by omega, by rw [wr, if_neg (by omega)]⟩
    rcases w o (4 * i) ((ws[i] &&& 0xFF#32).setWidth 8) hl with ⟨_, e⟩ | ⟨_, o1, e, l1⟩
    · rw [e, bind_err]
    rw [e, bind_ok]
    rcases w o1 (4 * i + 1) (((ws[i] >>> 8) &&& 0xFF#32).setWidth 8) l1 with ⟨_, e⟩ | ⟨_, o2, e, l2⟩
    · rw [e, bind_err]
    rw [e, bind_ok]
    rcases w o2 (4 * i + 2) (((ws[i] >>> 16) &&& 0xFF#32).setWidth 8) l2 with ⟨_, e⟩ | ⟨_, o3, e, l3⟩
    · rw [e, bind_err]
    rw [e, bind_ok]
    rcases w o3 (4 * i + 3) (((ws[i] >>> 24) &&& 0xFF#32).setWidth 8) l3 with ⟨_, e⟩ | ⟨h, _⟩
    · rw [e]
    · omega
  · exact ho

theorem digest1_short (c : ShaCtx 32) (out : List Byte) (hc : F1.WF c) (hi : c.index < F1.bs)
    (ho : out.length < 20) : sha1Digest c out = .error .oobWrite := by
  obtain ⟨blk, hb, _, hp⟩ := Fam.pad32_ok F1 c hc hi
  have hp : shaPadding32 sha1ProcessBlock c = _ := hp
  rw [sha1Digest, hp, bind_ok]
  have hl : (F1.final c.state (c.block.take c.index) (Fam.lenField c)).length = 5 :=
    F1.final_len _ _ _ hc.1 rfl (Fam.lenField_length rfl c) (by
      rw [List.length_take]; have := hc.2; omega)
  dsimp only
  rw [output32_short 20 _ out (by rw [Fam.final] at hl; rw [hl]; decide) ho, bind_err]

theorem digest256_short (n : Nat) (hn : n ≤ 32) (c : ShaCtx 32) (out : List Byte) (hc : F256.WF c)
    (hi : c.index < F256.bs) (ho : out.length < n) : sha224n256Digest n c out = .error .oobWrite := by
  obtain ⟨blk, hb, _, hp⟩ := Fam.pad32_ok F256 c hc hi
  have hp : shaPadding32 sha256ProcessBlock c = _ := hp
  rw [sha224n256Digest, hp, bind_ok]
  have hl : (F256.final c.state (c.block.take c.index) (Fam.lenField c)).length = 8 :=
    F256.final_len _ _ _ hc.1 rfl (Fam.lenField_length rfl c) (by
      rw [List.length_take]; have := hc.2; omega)
  dsimp only
  rw [output32_short n _ out (by rw [Fam.final] at hl; rw [hl]; exact hn) ho, bind_err]

theorem digest512_short (n : Nat) (hn : n ≤ 64) (c : ShaCtx 64) (out : List Byte) (hc : F512.WF c)
    (hi : c.index < F512.bs) (ho : out.length < n) : sha384n512Digest n c out = .error .oobWrite := by
  obtain ⟨blk, hb, _, hp⟩ := Fam.pad64_ok c hc hi
  have hp : sha512Padding c PADDING_HEADER = _ := hp
  rw [sha384n512Digest, hp, bind_ok]
  have hl : (F512.final c.state (c.block.take c.index) (Fam.lenField c)).length = 8 :=
    F512.final_len _ _ _ hc.1 rfl (Fam.lenField_length rfl c) (by
      rw [List.length_take]; have := hc.2; omega)
  dsimp only
  rw [output64_short n _ out (by rw [Fam.final] at hl; rw [hl]; exact hn) ho, bind_err]

theorem md5_short (c : Md5Ctx) (h : Pgfe.Proofs.Md5.WF c) (out : List Byte) (ho : out.length < 16) :
    md5Digest c out = .error .oobWrite := by
  obtain ⟨c', e, h'⟩ := Pgfe.Proofs.Md5.digest_ok h.abs (List.replicate 16 0#8) (by simp)
  rw [md5Digest] at e ⊢
  dsimp only at e ⊢
  generalize md5Encode _ 8 _ = a at e ⊢
  cases a with
  | error _ => cases e
  | ok chunk =>
    rw [bind_ok] at e ⊢
    generalize md5Update c _ _ = b at e ⊢
    cases b with
    | error _ => cases e
    | ok c1 =>
      rw [bind_ok] at e ⊢
      generalize md5Update c1 _ _ = d at e ⊢
      cases d with
      | error _ => cases e
      | ok c2 =>
        rw [bind_ok] at e ⊢
        cases he : md5Encode c2.state 16 (List.replicate 16 0#8) with
        | error _ => rw [he] at e; cases e
        | ok o =>
          rw [he, bind_ok] at e
          cases e
          have hw := h'.wf
          rw [md5Encode_short _ 4 hw.1 out ho, bind_err]

/-! ## KECCAK -/
open Pgfe.Proofs.Keccak (Sq Abs At squeezeStep_eq squeeze_abs squeeze_at squeeze_safe permF suffix_ok padding_ok)

variable {n : Nat} {ap : Byte} {al o : Nat} {c : KeccakCtx} {f : Nat → W64} {t : List Byte}

/-- Squeezing a whole number of bytes into an array that is too short, from a context positioned at a
byte boundary. -/
theorem squeezeLoop_short (bitLen : Nat) (hb : bitLen % 8 = 0) :
    ∀ (i : Nat) (c : KeccakCtx) (g : Nat → W64) (s : Nat) (out : List Byte), Sq n o c g s → i % 8 = 0 →
    s % 8 = 0 → i / 8 ≤ out.length → out.length < bitLen / 8 →
    keccakSqueezeLoop c out bitLen i = .error .oobWrite := by
  intro i
  induction hm : bitLen - i using Nat.strongRecOn generalizing i with
  | _ m ih =>
    intro c g s out h hi8 hs8 hle ho
    have h0 := h.n0
    have hi : i < bitLen := by omega
    obtain ⟨c1, e1, hl, h1⟩ := squeezeStep_eq h out bitLen i hi _ _ _ rfl rfl rfl
    generalize hs' : (if s = 0 then 64 * n else s) = s' at *
    have hs'0 : 0 < s' := by rw [← hs']; split <;> omega
    have hs'8 : s' % 8 = 0 := by rw [← hs']; split <;> omega
    generalize hg' : (if s = 0 then permF g else g) = g' at *
    generalize hsrc : ((Pgfe.Proofs.Keccak.stBytes g').drop ((64 * n - s') / 8)).take (min s' (bitLen - i) / 8) = src at *
    rw [keccakSqueezeLoop, dif_pos hi, e1]
    by_cases hfit : i / 8 + src.length ≤ out.length
    · rw [wrs_ok hfit, bind_ok]
      dsimp only
      rw [dif_pos (by omega)]
      exact ih (bitLen - (i + min s' (bitLen - i))) (by omega) _ rfl c1 g' _ _ h1 (by omega) (by omega)
        (by rw [splice_length hfit]; omega) (by rw [splice_length hfit]; exact ho)
    · rw [wrs, if_neg hfit, bind_err]

/-- ... two bytes or more into an array without elements, from any context. -/
theorem squeezeLoop_empty (bitLen : Nat) (hb : 16 ≤ bitLen) (c : KeccakCtx) (g : Nat → W64) (s : Nat)
    (h : Sq n o c g s) : keccakSqueezeLoop c [] bitLen 0 = .error .oobWrite := by
  have h0 := h.n0
  obtain ⟨c1, e1, hl, h1⟩ := squeezeStep_eq h [] bitLen 0 (by omega) _ _ _ rfl rfl rfl
  rw [keccakSqueezeLoop, dif_pos (by omega), e1]
  generalize hs' : (if s = 0 then 64 * n else s) = s' at *
  have hs'0 : 0 < s' := by rw [← hs']; split <;> omega
  generalize hg' : (if s = 0 then permF g else g) = g' at *
  generalize hsrc : ((Pgfe.Proofs.Keccak.stBytes g').drop ((64 * n - s') / 8)).take (min s' (bitLen - 0) / 8) = src at *
  by_cases hfit : 0 / 8 + src.length ≤ ([] : List Byte).length
  · rw [wrs_ok hfit, bind_ok]
    dsimp only
    simp only [List.length_nil] at hfit
    rw [dif_pos (by omega)]
    have hnil : splice ([] : List Byte) (0 / 8) src = [] := by
      have : src = [] := List.eq_nil_of_length_eq_zero (by omega)
      rw [this]; rfl
    rw [hnil]
    have hm : min s' (bitLen - 0) = s' := by omega
    rw [hm, Nat.sub_self] at h1
    obtain ⟨c2, e2, hl2, h2⟩ := squeezeStep_eq h1 [] bitLen (0 + min s' (bitLen - 0)) (by omega) _ _ _ rfl rfl rfl
    rw [if_pos rfl, if_pos rfl] at e2 hl2
    rw [keccakSqueezeLoop, dif_pos (by omega), e2, wrs, if_neg (by rw [hl2, List.length_nil]; omega), bind_err]
  · rw [wrs, if_neg hfit, bind_err]

/-- A digest begins its squeezing loop in a squeezing context. -/
theorem squeeze_start (h : Abs n ap al o c f t) (h1 : 0 < al) (h4 : al ≤ 4) (bits : Nat) (out : List Byte) :
    ∃ c1 g, Sq n bits c1 g (64 * n) ∧ keccakSqueeze { c with outLength := bits } out = keccakSqueezeLoop c1 out bits 0 := by
  have h' : Abs n ap al bits { c with outLength := bits } f t :=
    ⟨h.n0, h.n24, h.st, h.ql, h.rate, h.nr, h.inq, h.tl, h.q, h.sq, h.ap, h.al, h.aa, rfl⟩
  obtain ⟨x, r, hq, hs⟩ := suffix_ok h' h1 h4
  rw [keccakSqueeze]
  dsimp only at hs ⊢
  rw [if_pos ⟨by rw [h.al]; omega, by rw [h.aa]; decide⟩, hs, bind_ok, bind_ok]
  dsimp only
  have hql : (t ++ (ap &&& BitVec.ofNat 8 (2 ^ al - 1)) :: r).length = 192 := by
    have := h.ql
    have hq : c.dataQueue = t ++ x :: r := hq
    rw [hq] at this
    simpa using this
  obtain ⟨c1, e1, s1⟩ := padding_ok h' h1 h4 (ap &&& BitVec.ofNat 8 (2 ^ al - 1)) r hql
  rw [if_pos (by rw [h.sq]; decide), e1, bind_ok]
  refine ⟨c1, _, s1, ?_⟩
  rw [s1.ol]

theorem squeeze_restart {g : Nat → W64} {s : Nat} (hs : Sq n o c g s) (bits : Nat) (out : List Byte) :
    Sq n bits { c with outLength := bits } g s ∧
    keccakSqueeze { c with outLength := bits } out = keccakSqueezeLoop { c with outLength := bits } out bits 0 := by
  refine ⟨⟨hs.n0, hs.n24, hs.st, hs.ql, hs.rate, hs.nr, hs.q, hs.sq, hs.sz, hs.sle, hs.aa, rfl⟩, ?_⟩
  rw [keccakSqueeze]
  dsimp only
  rw [if_neg (by rw [hs.aa]; simp), bind_ok]
  dsimp only
  rw [if_neg (by rw [hs.sq]; simp), bind_ok]

end Pgfe.Proofs.Short
