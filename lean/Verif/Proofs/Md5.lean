import Verif.Model.Md5
import Verif.Spec.Md5
import Verif.Proofs.Hash
import Verif.Proofs.ShaBlock
/-!
# MD5: the code computes RFC 1321
-/
namespace Pgfe.Proofs.Md5
open Pgfe.Model Pgfe.Proofs.Hash Pgfe.Proofs.Sha
open Pgfe.Spec.Md5 (bytesLE natLE V4 X step compress T fn)
open Pgfe.Spec.Sha (blocks padZeros)

/-! ## Words -/

theorem le4_or (b0 b1 b2 b3 : Byte) :
    ((b0.setWidth 32 ||| (b1.setWidth 32) <<< 8) ||| (b2.setWidth 32) <<< 16) ||| (b3.setWidth 32) <<< 24
      = BitVec.ofNat 32 (natLE [b0, b1, b2, b3]) := by
  have e : BitVec.ofNat 32 (natLE [b0, b1, b2, b3]) = b3 ++ b2 ++ b1 ++ b0 := by
    apply BitVec.eq_of_toNat_eq
    have h0 := b0.isLt
    have h1 := b1.isLt
    have h2 := b2.isLt
    have h3 := b3.isLt
    simp only [BitVec.toNat_ofNat, BitVec.toNat_append, natLE, List.foldr]
    rw [← Nat.shiftLeft_add_eq_or_of_lt h2, ← Nat.shiftLeft_add_eq_or_of_lt h1, ← Nat.shiftLeft_add_eq_or_of_lt h0]
    simp only [Nat.shiftLeft_eq]
    omega
  rw [e]
  apply BitVec.eq_of_getLsbD_eq
  intro i hi
  simp only [BitVec.getLsbD_or, BitVec.getLsbD_setWidth, BitVec.getLsbD_shiftLeft, BitVec.getLsbD_append]
  by_cases h1 : i < 8
  · have : i < 16 := by omega
    have : i < 24 := by omega
    simp [*]
  · by_cases h2 : i < 16
    · have : i < 24 := by omega
      have h3 : i - 8 < 8 := by omega
      have := BitVec.getLsbD_of_ge b0 i (by omega)
      simp [*]
      intro hh; omega
    · by_cases h3 : i < 24
      · have := BitVec.getLsbD_of_ge b0 i (by omega)
        have := BitVec.getLsbD_of_ge b1 (i - 8) (by omega)
        have e : i - 8 - 8 = i - 16 := by omega
        have : ¬ i - 8 < 8 := by omega
        have : i - 16 < 8 := by omega
        simp [*]
        intro hh; omega
      · have := BitVec.getLsbD_of_ge b0 i (by omega)
        have := BitVec.getLsbD_of_ge b1 (i - 8) (by omega)
        have := BitVec.getLsbD_of_ge b2 (i - 16) (by omega)
        have e : i - 8 - 8 = i - 16 := by omega
        have e' : i - 16 - 8 = i - 24 := by omega
        have : ¬ i - 8 < 8 := by omega
        have : ¬ i - 16 < 8 := by omega
        simp [*]
        omega

theorem decode_ok (b : List Byte) (h : b.length = 64) :
    md5Decode b 64 = .ok ((List.range 16).map (X b)) := by
  have a := fill_ok (X b) 0 16 (fun i _ => do
      let b0 ← rd b (4 * i)
      let b1 ← rd b (4 * i + 1)
      let b2 ← rd b (4 * i + 2)
      let b3 ← rd b (4 * i + 3)
      .ok (((b0.setWidth 32 ||| (b1.setWidth 32) <<< 8) ||| (b2.setWidth 32) <<< 16) ||| (b3.setWidth 32) <<< 24)) (by
    intro j hj
    rw [rd_ok (by omega), bind_ok, rd_ok (by omega), bind_ok, rd_ok (by omega), bind_ok, rd_ok (by omega), bind_ok,
      le4_or, Nat.zero_add, X, take_drop4 b (4 * j) (by omega)])
  rw [Nat.zero_add] at a
  rw [← a, md5Decode]
  apply forN_congr
  intro i s hi
  rw [rd_ok (by omega), bind_ok, rd_ok (by omega), bind_ok, rd_ok (by omega), bind_ok, rd_ok (by omega), bind_ok]
  rfl

/-! ## The rounds -/

theorem roundTran_eq (a f b x : W32) (s : Nat) (ac : W32) (hs : s < 32) :
    md5RoundTran a f b x s ac = b + (a + f + x + ac).rotateLeft s := by
  rw [md5RoundTran]
  rw [clshift_eq _ _ hs, BitVec.add_comm b]
  simp only [BitVec.add_assoc]

/-- The array `buf` before step `i`, for the registers of the RFC. -/
def bufOf (i : Nat) (v : V4) : List W32 :=
  if i % 4 = 0 then [v.d, v.c, v.b, v.a] else if i % 4 = 1 then [v.a, v.d, v.c, v.b]
  else if i % 4 = 2 then [v.b, v.a, v.d, v.c] else [v.c, v.b, v.a, v.d]

theorem buf_cases (i : Nat) (P : Nat → Nat → Prop) (h : ∀ q r, r < 4 → P (4 * q + r) r) : P i (i % 4) := by
  have := h (i / 4) (i % 4) (Nat.mod_lt _ (by decide))
  rwa [Nat.div_add_mod] at this

theorem rd_buf (i : Nat) (v : V4) : rd (bufOf i v) ((i + 3) % 4) = .ok v.a ∧
    rd (bufOf i v) ((i + 2) % 4) = .ok v.b ∧ rd (bufOf i v) ((i + 1) % 4) = .ok v.c ∧
    rd (bufOf i v) ((i + 0) % 4) = .ok v.d := by
  have h : i % 4 = 0 ∨ i % 4 = 1 ∨ i % 4 = 2 ∨ i % 4 = 3 := by omega
  rw [Nat.add_mod i 3, Nat.add_mod i 2, Nat.add_mod i 1, Nat.add_mod i 0, bufOf]
  rcases h with h | h | h | h <;> rw [h] <;> exact ⟨rfl, rfl, rfl, rfl⟩

theorem wr_buf (i : Nat) (v : V4) (y : W32) :
    wr (bufOf i v) ((i + 3) % 4) y = .ok (bufOf (i + 1) ⟨v.d, y, v.b, v.c⟩) := by
  have h : i % 4 = 0 ∨ i % 4 = 1 ∨ i % 4 = 2 ∨ i % 4 = 3 := by omega
  rw [Nat.add_mod i 3, bufOf, bufOf, Nat.add_mod i 1]
  rcases h with h | h | h | h <;> rw [h] <;> rfl

theorem tables (r i : Nat) (hr : r < 4) (hi : i < 16) :
    rd2 md5Idx r i = .ok (Pgfe.Spec.Md5.k (16 * r + i)) ∧ Pgfe.Spec.Md5.k (16 * r + i) < 16 ∧
    rd2 md5S r (i % 4) = .ok (Pgfe.Spec.Md5.s (16 * r + i)) ∧ Pgfe.Spec.Md5.s (16 * r + i) < 32 ∧
    rd2 md5Ac r i = .ok (T.getD (16 * r + i) 0) := by
  have h : ∀ r : Fin 4, ∀ i : Fin 16,
    rd2 md5Idx r.val i.val = .ok (Pgfe.Spec.Md5.k (16 * r.val + i.val)) ∧ Pgfe.Spec.Md5.k (16 * r.val + i.val) < 16 ∧
    rd2 md5S r.val (i.val % 4) = .ok (Pgfe.Spec.Md5.s (16 * r.val + i.val)) ∧ Pgfe.Spec.Md5.s (16 * r.val + i.val) < 32 ∧
    rd2 md5Ac r.val i.val = .ok (T.getD (16 * r.val + i.val) 0) := by decide +kernel
  exact h ⟨r, hr⟩ ⟨i, hi⟩

theorem fun_ok (r i : Nat) (hr : r < 4) (hi : i < 16) : md5Fun r = some (fn (16 * r + i)) := by
  match r, hr with
  | 0, _ => rw [fn, if_pos (by omega)]; rfl
  | 1, _ => rw [fn, if_neg (by omega), if_pos (by omega)]; rfl
  | 2, _ => rw [fn, if_neg (by omega), if_neg (by omega), if_pos (by omega)]; rfl
  | 3, _ => rw [fn, if_neg (by omega), if_neg (by omega), if_neg (by omega)]; rfl

theorem step_ok (b : List Byte) (r i : Nat) (hr : r < 4) (hi : i < 16) (v : V4) :
    md5Step ((List.range 16).map (X b)) r i (bufOf i v) = .ok (bufOf (i + 1) (step b v (16 * r + i))) := by
  obtain ⟨t1, t2, t3, t4, t5⟩ := tables r i hr hi
  obtain ⟨r1, r2, r3, r4⟩ := rd_buf i v
  rw [md5Step, r1, bind_ok, r2, bind_ok, r3, bind_ok, r4, bind_ok, t1, bind_ok, rd_map_range _ _ _ t2, bind_ok,
    t3, bind_ok, t5, bind_ok, fun_ok r i hr hi]
  dsimp only
  rw [roundTran_eq _ _ _ _ _ _ t4, wr_buf]
  rfl

theorem rounds_ok (b : List Byte) (v : V4) :
    forN 4 (fun r buf => forN 16 (fun i buf => md5Step ((List.range 16).map (X b)) r i buf) buf) (bufOf 0 v)
      = .ok (bufOf 0 ((List.range 64).foldl (step b) v)) := by
  obtain ⟨s, h1, h2⟩ := forN_inv (fun r buf => buf = bufOf 0 ((List.range (16 * r)).foldl (step b) v)) 4
    (fun r buf => forN 16 (fun i buf => md5Step ((List.range 16).map (X b)) r i buf) buf) (bufOf 0 v) rfl (by
      intro r buf hr hb
      subst hb
      obtain ⟨s, h1, h2⟩ := forN_inv (fun i buf => buf = bufOf i ((List.range (16 * r + i)).foldl (step b) v)) 16
        (fun i buf => md5Step ((List.range 16).map (X b)) r i buf)
        (bufOf 0 ((List.range (16 * r)).foldl (step b) v)) rfl (by
          intro i buf hi hb
          subst hb
          refine ⟨_, step_ok b r i hr hi _, ?_⟩
          rw [← Nat.add_assoc, List.range_succ, List.foldl_append]
          rfl)
      refine ⟨s, h1, ?_⟩
      rw [h2, Nat.mul_add]
      rfl)
  rw [h1, h2]

/-- The state words as the registers of the RFC. -/
def toV4 (s : List W32) : V4 := ⟨s.getD 0 0, s.getD 1 0, s.getD 2 0, s.getD 3 0⟩
def words4 (v : V4) : List W32 := [v.a, v.b, v.c, v.d]
def comp (s : List W32) (b : List Byte) : List W32 := words4 (compress (toV4 s) b)

theorem comp_length (s : List W32) (b : List Byte) : (comp s b).length = 4 := rfl

theorem transform_ok (s : List W32) (b : List Byte) (hs : s.length = 4) (hb : b.length = 64) :
    md5Transform s b = .ok (comp s b) := by
  match s, hs with
  | [a0, b0, c0, d0], _ =>
    have e := rounds_ok b ⟨a0, b0, c0, d0⟩
    have e0 : bufOf 0 ⟨a0, b0, c0, d0⟩ = [d0, c0, b0, a0] := rfl
    rw [e0] at e
    rw [md5Transform]
    rw [show rd [a0, b0, c0, d0] 0 = .ok a0 from rfl, bind_ok, show rd [a0, b0, c0, d0] 1 = .ok b0 from rfl, bind_ok,
      show rd [a0, b0, c0, d0] 2 = .ok c0 from rfl, bind_ok, show rd [a0, b0, c0, d0] 3 = .ok d0 from rfl, bind_ok]
    dsimp only
    rw [decode_ok b hb, bind_ok, e, bind_ok]
    rfl

/-! ## Updates -/

/-- What of a context later calls depend on: the state, the byte count and the bytes of the current
block. -/
structure Abs (c : Md5Ctx) (s : List W32) (l : W64) (t : List Byte) : Prop where
  hs : c.state = s
  hl : c.blockLen = l
  hb : c.block.length = 64
  ht : c.block.take (l.toNat % 64) = t
  hs4 : s.length = 4

theorem offset_eq (c : Md5Ctx) : md5Offset c = c.blockLen.toNat % 64 := by
  have h : (c.blockLen &&& 0x3F#64).toNat = c.blockLen.toNat % 64 := by
    rw [BitVec.toNat_and]; exact Nat.and_two_pow_sub_one_eq_mod _ 6
  rw [md5Offset, h]; omega

theorem Abs.tlen {c s l t} (h : Abs c s l t) : t.length = l.toNat % 64 := by
  rw [← h.ht, List.length_take, h.hb]; omega

theorem add_mod64 (l : W64) (n : Nat) : (l + BitVec.ofNat 64 n).toNat % 64 = (l.toNat % 64 + n) % 64 := by
  rw [BitVec.toNat_add, BitVec.toNat_ofNat]; omega

theorem splice_take (b : List Byte) (i : Nat) (x : List Byte) (h : i + x.length ≤ b.length) :
    (splice b i x).take (i + x.length) = b.take i ++ x := by
  rw [splice]
  have : (b.take i ++ x).length = i + x.length := by rw [List.length_append, List.length_take]; omega
  rw [← this, List.take_left]

/-- A complete block. -/
theorem full_ok {c s l t} (h : Abs c s l t) (x : List Byte) (hx : x.length = 64 - t.length) :
    ∃ block, wrs c.block (md5Offset c) x = .ok block ∧ md5Transform c.state block = .ok (comp s (t ++ x)) ∧
      Abs ⟨comp s (t ++ x), c.blockLen + BitVec.ofNat 64 (64 - md5Offset c), block⟩ (comp s (t ++ x))
        (l + BitVec.ofNat 64 x.length) [] := by
  have ho : md5Offset c = t.length := by rw [offset_eq, h.hl, h.tlen]
  have htl := h.tlen
  have hlt : t.length < 64 := by omega
  have hfit : md5Offset c + x.length ≤ c.block.length := by rw [h.hb]; omega
  have hbl : splice c.block (md5Offset c) x = t ++ x := by
    have e := splice_take c.block (md5Offset c) x hfit
    rw [ho, ← List.take_of_length_le (l := splice c.block t.length x) (i := t.length + x.length)
      (by rw [splice_length (by rw [h.hb]; omega), h.hb]; omega)]
    rw [ho] at e
    rw [e]
    congr 1
    rw [htl]; exact h.ht
  refine ⟨t ++ x, by rw [wrs_ok hfit, hbl], ?_, rfl, ?_, ?_, ?_, rfl⟩
  · rw [h.hs]; exact transform_ok _ _ h.hs4 (by rw [List.length_append]; omega)
  · dsimp only; rw [h.hl, hx, ho]
  · show (t ++ x).length = 64
    rw [List.length_append]; omega
  · have : (l + BitVec.ofNat 64 x.length).toNat % 64 = 0 := by rw [add_mod64, ← htl]; omega
    rw [this]; rfl

/-- Part of a block. -/
theorem part_ok {c s l t} (h : Abs c s l t) (x : List Byte) (hx : x.length < 64 - t.length) :
    ∃ block, wrs c.block (md5Offset c) x = .ok block ∧
      Abs { c with block := block, blockLen := c.blockLen + BitVec.ofNat 64 x.length } s
        (l + BitVec.ofNat 64 x.length) (t ++ x) := by
  have ho : md5Offset c = t.length := by rw [offset_eq, h.hl, h.tlen]
  have htl := h.tlen
  have hfit : md5Offset c + x.length ≤ c.block.length := by rw [h.hb]; omega
  refine ⟨_, wrs_ok hfit, h.hs, by dsimp only; rw [h.hl], ?_, ?_, h.hs4⟩
  · show (splice c.block (md5Offset c) x).length = 64
    rw [splice_length hfit, h.hb]
  · have : (l + BitVec.ofNat 64 x.length).toNat % 64 = md5Offset c + x.length := by
      rw [add_mod64, ← htl, ho]; omega
    rw [this]
    show (splice c.block (md5Offset c) x).take _ = _
    rw [splice_take _ _ _ hfit, ho]
    congr 1
    rw [htl]; exact h.ht

theorem blocks_cons (t x y : List Byte) (h : t.length + x.length = 64) :
    blocks 64 (t ++ (x ++ y)) = (t ++ x) :: blocks 64 y ∧ tail 64 (t ++ (x ++ y)) = tail 64 y := by
  have hl : (t ++ x).length = 64 := by rw [List.length_append]; exact h
  rw [← List.append_assoc]
  constructor
  · rw [blocks_append 64 (by decide) _ _ (by rw [hl]), blocks_one 64 (by decide) _ hl]
    rfl
  · exact tail_append 64 (by decide) _ _ (by rw [hl])

theorem ofNat_add' (a b : Nat) : BitVec.ofNat 64 (a + b) = BitVec.ofNat 64 a + BitVec.ofNat 64 b := by
  apply BitVec.eq_of_toNat_eq
  simp [BitVec.toNat_add]

/-- From any point of the loop to the end of the update. -/
theorem loop_ok (input : List Byte) (n : Nat) (hn : n ≤ input.length) :
    ∀ d r c locals s l t, n - r = d → r ≤ n → Abs c s l t →
    (r = n → ∃ o w, locals = some (o, w) ∧ 0 < w ∧ w < 2 ^ 64) →
    ∃ c', (md5Loop input n c r locals >>= fun q => md5Finish input n q.1 q.2.1 q.2.2) = .ok c' ∧
      Abs c' ((blocks 64 (t ++ (input.take n).drop r)).foldl comp s) (l + BitVec.ofNat 64 (n - r))
        (tail 64 (t ++ (input.take n).drop r)) := by
  intro d
  induction d using Nat.strongRecOn with
  | _ d ih =>
    intro r c locals s l t hd hr h hloc
    have htl := h.tlen
    have ho : md5Offset c = t.length := by rw [offset_eq, h.hl, h.tlen]
    have hlt : t.length < 64 := by omega
    rw [md5Loop]
    by_cases hrn : r < n
    · clear hloc
      rw [dif_pos hrn]
      by_cases hsmall : n - r < 64 - md5Offset c
      · rw [if_pos hsmall, bind_ok]
        dsimp only
        rw [md5Finish]
        dsimp only
        rw [if_pos (by omega), rds_ok (by omega), bind_ok]
        have hxl : ((input.drop r).take (n - r)).length = n - r := by
          rw [List.length_take, List.length_drop]; omega
        have hx : (input.take n).drop r = (input.drop r).take (n - r) := by rw [List.drop_take]
        obtain ⟨block, h1, h2⟩ := part_ok h ((input.drop r).take (n - r)) (by rw [hxl]; omega)
        rw [h1, bind_ok, bind_ok]
        dsimp only
        rw [if_neg (by
          have : 64 - md5Offset c + 2 ^ 64 - (n - r) = (64 - md5Offset c - (n - r)) + 2 ^ 64 := by omega
          rw [this, Nat.add_mod_right, Nat.mod_eq_of_lt (by omega)]; omega)]
        rw [hxl] at h2
        refine ⟨_, rfl, ?_⟩
        rw [hx]
        have hsm : (t ++ (input.drop r).take (n - r)).length < 64 := by
          rw [List.length_append, hxl]; omega
        rw [blocks_small 64 _ hsm, tail_small 64 _ hsm]
        exact h2
      · rw [if_neg hsmall, rds_ok (by omega), bind_ok]
        have hxl : ((input.drop r).take (64 - md5Offset c)).length = 64 - md5Offset c := by
          rw [List.length_take, List.length_drop]; omega
        obtain ⟨block, h1, h2, h3⟩ := full_ok h ((input.drop r).take (64 - md5Offset c)) (by rw [hxl, ho])
        rw [h1, bind_ok, h2, bind_ok]
        obtain ⟨c', h4, h5⟩ := ih (n - (r + (64 - md5Offset c))) (by omega) (r + (64 - md5Offset c)) _
          (some (md5Offset c, 64 - md5Offset c)) _ _ _ rfl (by omega) h3 (by
            intro _; exact ⟨md5Offset c, 64 - md5Offset c, rfl, by omega, by omega⟩)
        refine ⟨c', h4, ?_⟩
        have hsplit : (input.take n).drop r = (input.drop r).take (64 - md5Offset c)
            ++ (input.take n).drop (r + (64 - md5Offset c)) := by
          rw [← List.take_append_drop (64 - md5Offset c) ((input.take n).drop r), List.drop_drop]
          congr 1
          rw [List.drop_take, List.take_take, Nat.min_eq_left (by omega)]
        obtain ⟨b1, b2⟩ := blocks_cons t _ ((input.take n).drop (r + (64 - md5Offset c)))
          (by rw [hxl, ho]; omega : t.length + ((input.drop r).take (64 - md5Offset c)).length = 64)
        rw [hsplit, b1, b2]
        rw [List.nil_append, hxl, BitVec.add_assoc, ← ofNat_add'] at h5
        have e : 64 - md5Offset c + (n - (r + (64 - md5Offset c))) = n - r := by omega
        rw [e] at h5
        exact h5
    · rw [dif_neg hrn, bind_ok]
      dsimp only
      have hrn : r = n := by omega
      obtain ⟨o, w, rfl, hw, hw2⟩ := hloc hrn
      subst hrn
      rw [md5Finish]
      dsimp only
      rw [if_neg (by omega), bind_ok]
      dsimp only
      rw [if_neg (by omega)]
      refine ⟨c, rfl, ?_⟩
      have hz : (input.take r).drop r = [] := by
        rw [List.drop_of_length_le]; rw [List.length_take]; omega
      rw [hz, List.append_nil, blocks_small 64 _ hlt, tail_small 64 _ hlt, Nat.sub_self]
      rw [BitVec.add_zero]
      exact h

theorem update_ok {c s l t} (h : Abs c s l t) (input : List Byte) (n : Nat) (hn : n ≤ input.length)
    (h0 : 0 < n) :
    ∃ c', md5Update c (some input) n = .ok c' ∧
      Abs c' ((blocks 64 (t ++ input.take n)).foldl comp s) (l + BitVec.ofNat 64 n)
        (tail 64 (t ++ input.take n)) := by
  have := loop_ok input n hn (n - 0) 0 c none s l t rfl (Nat.zero_le _) h (by omega)
  rw [List.drop_zero, Nat.sub_zero] at this
  exact this

/-- **A zero-length update uses uninitialised variables.** -/
theorem update_zero (c : Md5Ctx) (input : List Byte) : md5Update c (some input) 0 = .error .uninit := by
  rw [md5Update, md5Loop, dif_neg (by decide), bind_ok]
  rfl

/-! ## Output -/

theorem byte_eq (w : W32) (j : Nat) : ((w >>> (8 * j)) &&& 0xFF#32).setWidth 8 = BitVec.ofNat 8 (w.toNat / 256 ^ j) := by
  apply BitVec.eq_of_toNat_eq
  rw [BitVec.toNat_setWidth, BitVec.toNat_and, BitVec.toNat_ushiftRight, BitVec.toNat_ofNat, BitVec.toNat_ofNat]
  have : 255 % 2 ^ 32 = 2 ^ 8 - 1 := rfl
  rw [this, Nat.and_two_pow_sub_one_eq_mod, Nat.shiftRight_eq_div_pow, Nat.pow_mul, Nat.mod_mod]

theorem bytesLE4 (x : Nat) : bytesLE 4 x = [BitVec.ofNat 8 (x / 256 ^ 0), BitVec.ofNat 8 (x / 256 ^ 1),
    BitVec.ofNat 8 (x / 256 ^ 2), BitVec.ofNat 8 (x / 256 ^ 3)] := rfl

theorem flat_len (l : List W32) : (l.flatMap (fun w => bytesLE 4 w.toNat)).length = 4 * l.length := by
  induction l with
  | nil => rfl
  | cons a l ih => rw [List.flatMap_cons, List.length_append, ih, List.length_cons, bytesLE4]; simp; omega

theorem encode_ok (ws : List W32) (k : Nat) (hk : ws.length = k) (out : List Byte) (ho : 4 * k ≤ out.length) :
    md5Encode ws (4 * k) out = .ok (ws.flatMap (fun w => bytesLE 4 w.toNat) ++ out.drop (4 * k)) := by
  rw [md5Encode, Nat.mul_div_cancel_left _ (by decide)]
  obtain ⟨s, h1, h2⟩ := forN_inv (fun i o => o = (ws.take i).flatMap (fun w => bytesLE 4 w.toNat) ++ out.drop (4 * i))
    k (fun i output => do
      let w ← rd ws i
      let output ← wr output (4 * i) ((w &&& 0xFF#32).setWidth 8)
      let output ← wr output (4 * i + 1) (((w >>> 8) &&& 0xFF#32).setWidth 8)
      let output ← wr output (4 * i + 2) (((w >>> 16) &&& 0xFF#32).setWidth 8)
      wr output (4 * i + 3) (((w >>> 24) &&& 0xFF#32).setWidth 8)) out (by simp) (by
      intro i o hi hoo
      subst hoo
      rw [rd_ok (by omega), bind_ok]
      have hpl : ((ws.take i).flatMap (fun w => bytesLE 4 w.toNat)).length = 4 * i := by
        rw [flat_len, List.length_take]; omega
      have hdrop : out.drop (4 * i) = out[4*i] :: out[4*i+1] :: out[4*i+2] :: out[4*i+3] :: out.drop (4 * (i + 1)) := by
        rw [List.drop_eq_getElem_cons (by omega), List.drop_eq_getElem_cons (by omega),
          List.drop_eq_getElem_cons (by omega), List.drop_eq_getElem_cons (by omega)]
        rfl
      rw [hdrop]
      have htk : ws.take (i + 1) = ws.take i ++ [ws[i]] := by
        rw [List.take_add_one, List.getElem?_eq_getElem (by omega)]; rfl
      refine ⟨_, ?_, rfl⟩
      rw [htk, List.flatMap_append]
      generalize (ws.take i).flatMap (fun w => bytesLE 4 w.toNat) = p at hpl
      generalize out.drop (4 * (i + 1)) = q
      have e0 : ws[i] &&& 0xFF#32 = (ws[i] >>> (8 * 0)) &&& 0xFF#32 := by simp
      have w0 := wr_append p (out[4*i+1] :: out[4*i+2] :: out[4*i+3] :: q) out[4*i] ((ws[i] &&& 0xFF#32).setWidth 8)
      rw [hpl] at w0
      rw [w0, bind_ok]
      have w1 := wr_append (p ++ [(ws[i] &&& 0xFF#32).setWidth 8]) (out[4*i+2] :: out[4*i+3] :: q) out[4*i+1]
        (((ws[i] >>> 8) &&& 0xFF#32).setWidth 8)
      rw [List.length_append, hpl, List.length_singleton, List.append_assoc, List.singleton_append] at w1
      rw [w1, bind_ok]
      have w2 := wr_append (p ++ [(ws[i] &&& 0xFF#32).setWidth 8, ((ws[i] >>> 8) &&& 0xFF#32).setWidth 8])
        (out[4*i+3] :: q) out[4*i+2] (((ws[i] >>> 16) &&& 0xFF#32).setWidth 8)
      rw [List.length_append, hpl, List.append_assoc] at w2
      have w2 : wr (p ++ ((ws[i] &&& 0xFF#32).setWidth 8 :: ((ws[i] >>> 8) &&& 0xFF#32).setWidth 8 :: out[4*i+2] :: out[4*i+3] :: q)) (4 * i + 2) _ = _ := w2
      rw [List.append_assoc, List.singleton_append, w2, bind_ok]
      have w3 := wr_append (p ++ [(ws[i] &&& 0xFF#32).setWidth 8, ((ws[i] >>> 8) &&& 0xFF#32).setWidth 8,
        ((ws[i] >>> 16) &&& 0xFF#32).setWidth 8]) q out[4*i+3] (((ws[i] >>> 24) &&& 0xFF#32).setWidth 8)
      rw [List.length_append, hpl, List.append_assoc] at w3
      have w3 : wr (p ++ ((ws[i] &&& 0xFF#32).setWidth 8 :: ((ws[i] >>> 8) &&& 0xFF#32).setWidth 8 :: ((ws[i] >>> 16) &&& 0xFF#32).setWidth 8 :: out[4*i+3] :: q)) (4 * i + 3) _ = _ := w3
      rw [List.append_assoc]
      show wr (p ++ ((ws[i] &&& 0xFF#32).setWidth 8 :: ((ws[i] >>> 8) &&& 0xFF#32).setWidth 8 :: ((ws[i] >>> 16) &&& 0xFF#32).setWidth 8 :: out[4*i+3] :: q)) (4 * i + 3) _ = _
      rw [w3, e0, byte_eq, byte_eq _ 1, byte_eq _ 2, byte_eq _ 3]
      simp only [List.flatMap_cons, List.flatMap_nil, List.append_nil, List.append_assoc, bytesLE4]
      rfl)
  have hfull : ws.take k = ws := List.take_of_length_le (by omega)
  rw [h1, h2, hfull]

end Pgfe.Proofs.Md5
