import Verif.Proofs.Again
import Verif.Proofs.KeccakInj
import Verif.Proofs.Hmac
/-!
# What a context holds after the digest
-/
namespace Pgfe.Proofs.Residue
open Pgfe Pgfe.Model Pgfe.Proofs.Hash
open Pgfe.Model.HashImpl (Call)

theorem calls_updates {I : HashImpl} {H : List Byte → List Byte} (K : HashOK I H) (rest : List Call)
    (parts : List (List Byte)) : ∀ (m : List Byte) (c : I.Ctx), K.Inv m c → (∀ p ∈ parts, K.okUpd p.length) →
    K.okTot (m.length + parts.flatten.length) →
    ∃ c', I.calls c (parts.map .update ++ rest) = I.calls c' rest ∧ K.Inv (m ++ parts.flatten) c' := by
  induction parts with
  | nil =>
    intro m c h _ _
    exact ⟨c, rfl, by rw [List.flatten_nil, List.append_nil]; exact h⟩
  | cons p ps ih =>
    intro m c h hp ht
    rw [List.flatten_cons, List.length_append] at ht
    obtain ⟨c1, h1, h2⟩ := K.update_ok m c p p.length h (hp p (List.mem_cons_self ..)) (Nat.le_refl _)
      (K.tot_mono _ _ (by omega) ht)
    rw [List.take_of_length_le (Nat.le_refl _)] at h2
    obtain ⟨c', h3, h4⟩ := ih (m ++ p) c1 h2 (fun q hq => hp q (List.mem_cons_of_mem _ hq))
      (by rw [List.length_append, Nat.add_assoc]; exact ht)
    refine ⟨c', ?_, by rw [List.flatten_cons, ← List.append_assoc]; exact h4⟩
    rw [List.map_cons, List.cons_append, HashImpl.calls, h1, bind_ok, h3]

/-- Init, updates, one digest: the context before the digest has absorbed everything. -/
theorem calls_session {I : HashImpl} {H : List Byte → List Byte} (K : HashOK I H) (g : I.Ctx) (hg : K.WF g)
    (parts : List (List Byte)) (out : List Byte) (hu : ∀ p ∈ parts, K.okUpd p.length)
    (ht : K.okTot parts.flatten.length) :
    ∃ c, (I.init g >>= fun c => I.calls c (parts.map .update ++ [.digest out]))
        = (I.digest c out >>= fun r => .ok (r.1, [r.2])) ∧ K.Inv parts.flatten c := by
  obtain ⟨c0, h1, h2⟩ := K.init_ok g hg
  obtain ⟨c, h3, h4⟩ := calls_updates K [.digest out] parts [] c0 h2 hu (by simpa using ht)
  refine ⟨c, ?_, h4⟩
  rw [h1, bind_ok, h3, HashImpl.calls]
  rfl

/-! ## SHA -/
section sha
open Pgfe.Proofs.Sha
open Pgfe.Spec.Sha (blocks bytesOfNat bytesOfWord)

/-- What of the block buffer the padding leaves: the bytes of the message that are before the length field. -/
theorem last_take (bs thr : Nat) (t len blk : List Byte) (h : (Fam.libPad bs thr t len).getLast? = some blk) :
    blk.take (min t.length thr) = t.take thr := by
  rw [Fam.libPad] at h
  by_cases g : t.length + 1 ≤ thr
  · rw [if_pos g, List.getLast?_singleton, Option.some.injEq] at h
    rw [← h, Nat.min_eq_left (by omega), List.append_assoc, List.append_assoc, List.take_left' rfl,
      List.take_of_length_le (by omega)]
  · rw [if_neg g] at h
    have h : t.take thr ++ len = blk := by simpa using h
    rw [← h, List.take_left' (by rw [List.length_take]; omega)]

theorem residue1 (c : ShaCtx 32) (out : List Byte) (hc : F1.WF c) (hi : c.index < F1.bs) (ho : 20 ≤ out.length) :
    ∃ ws : List W32, ws.length = 5 ∧
      sha1Digest c out = .ok (⟨ws, 0#32, 0#32, 0, List.replicate 64 0#8⟩, ws.flatMap bytesOfWord ++ out.drop 20) := by
  obtain ⟨blk, hb, _, hp⟩ := Fam.pad32_ok F1 c hc hi
  have hp : shaPadding32 sha1ProcessBlock c = _ := hp
  have hl : (F1.final c.state (c.block.take c.index) (Fam.lenField c)).length = 5 :=
    F1.final_len _ _ _ hc.1 rfl (Fam.lenField_length rfl c) (by
      rw [List.length_take]; have := hc.2; omega)
  refine ⟨F1.final c.state (c.block.take c.index) (Fam.lenField c), hl, ?_⟩
  rw [sha1Digest, hp, bind_ok]
  dsimp only
  have hb : blk.length = 64 := hb
  rw [Fam.final] at hl
  have hk := output32_ok 20 _ out (by rw [hl]) ho
  rw [hk, bind_ok, hb, Fam.final]
  rw [List.take_of_length_le (l := List.flatMap bytesOfWord _) (by rw [flatMap_bytes_length, hl])]

theorem residue256 (n : Nat) (hn : n ≤ 32) (c : ShaCtx 32) (out : List Byte) (hc : F256.WF c) (hi : c.index < F256.bs)
    (ho : n ≤ out.length) :
    ∃ c' d, sha224n256Digest n c out = .ok (c', d) ∧
      c'.block.take (min c.index 56) = (c.block.take c.index).take 56 := by
  obtain ⟨blk, hb, hk, hp⟩ := Fam.pad32_ok F256 c hc hi
  have hp : shaPadding32 sha256ProcessBlock c = _ := hp
  rw [sha224n256Digest, hp, bind_ok]
  have hl : (F256.final c.state (c.block.take c.index) (Fam.lenField c)).length = 8 :=
    F256.final_len _ _ _ hc.1 rfl (Fam.lenField_length rfl c) (by
      rw [List.length_take]; have := hc.2; omega)
  dsimp only
  rw [output32_ok n _ out (by rw [Fam.final] at hl; rw [hl]; exact hn) ho, bind_ok]
  refine ⟨_, _, rfl, ?_⟩
  have h := last_take _ _ _ _ _ hk
  rwa [List.length_take, hc.2, Nat.min_eq_left (Nat.le_of_lt hi)] at h

theorem residue512 (n : Nat) (hn : n ≤ 64) (c : ShaCtx 64) (out : List Byte) (hc : F512.WF c) (hi : c.index < F512.bs)
    (ho : n ≤ out.length) :
    ∃ c' d, sha384n512Digest n c out = .ok (c', d) ∧
      c'.block.take (min c.index 112) = (c.block.take c.index).take 112 := by
  obtain ⟨blk, hb, hk, hp⟩ := Fam.pad64_ok c hc hi
  have hp : sha512Padding c PADDING_HEADER = _ := hp
  rw [sha384n512Digest, hp, bind_ok]
  have hl : (F512.final c.state (c.block.take c.index) (Fam.lenField c)).length = 8 :=
    F512.final_len _ _ _ hc.1 rfl (Fam.lenField_length rfl c) (by
      rw [List.length_take]; have := hc.2; omega)
  dsimp only
  rw [output64_ok n _ out (by rw [Fam.final] at hl; rw [hl]; exact hn) ho, bind_ok]
  refine ⟨_, _, rfl, ?_⟩
  have h := last_take _ _ _ _ _ hk
  rwa [List.length_take, hc.2, Nat.min_eq_left (Nat.le_of_lt hi)] at h

end sha

/-! ## MD5 -/
section md5
open Pgfe.Proofs.Md5

theorem splice_keep (b x : List Byte) (i j : Nat) (h : i ≤ j) (hb : j ≤ b.length) : (splice b j x).take i = b.take i := by
  rw [splice, List.append_assoc, List.take_append_of_le_length (by rw [List.length_take]; omega), List.take_take,
    Nat.min_eq_left h]

/-- An update that stays inside the current block does not change what is already there. -/
theorem md5_keep {c s l t} (h : Abs c s l t) (input : List Byte) (n : Nat) (hn : n ≤ input.length) (h0 : 0 < n)
    (hf : n ≤ 64 - t.length) (i : Nat) (hi : i ≤ t.length) (c' : Md5Ctx) (e : md5Update c (some input) n = .ok c') :
    c'.block.take i = c.block.take i := by
  have htl := h.tlen
  have ho : md5Offset c = t.length := by rw [offset_eq, h.hl, h.tlen]
  have hlt : t.length < 64 := by omega
  have hb := h.hb
  rw [md5Update, md5Loop, dif_pos h0] at e
  by_cases hs : n - 0 < 64 - md5Offset c
  · rw [if_pos hs, bind_ok, md5Finish] at e
    dsimp only at e
    have hxl : ((input.drop 0).take (n - 0)).length = n := by
      rw [List.length_take, List.length_drop]; omega
    rw [if_pos (by omega), rds_ok (by omega), bind_ok, wrs_ok (by rw [hxl]; omega), bind_ok, bind_ok] at e
    dsimp only at e
    rw [if_neg (by omega), Except.ok.injEq] at e
    rw [← e]
    exact splice_keep _ _ _ _ (by omega) (by omega)
  · rw [if_neg hs, rds_ok (by omega), bind_ok] at e
    have hxl : ((input.drop 0).take (64 - md5Offset c)).length = 64 - md5Offset c := by
      rw [List.length_take, List.length_drop]; omega
    obtain ⟨block, h1, h2, _⟩ := full_ok h ((input.drop 0).take (64 - md5Offset c)) (by rw [hxl, ho])
    rw [h1, bind_ok, h2, bind_ok, md5Loop, dif_neg (by omega), bind_ok, md5Finish] at e
    dsimp only at e
    rw [if_neg (by omega), bind_ok] at e
    dsimp only at e
    rw [if_neg (by omega), Except.ok.injEq] at e
    rw [wrs_ok (by rw [hxl]; omega), Except.ok.injEq] at h1
    rw [← e, ← h1]
    exact splice_keep _ _ _ _ (by omega) (by omega)

theorem residueMd5 {c s l t} (h : Abs c s l t) (ht : t.length < 56) (out : List Byte) (ho : 16 ≤ out.length) :
    ∃ c' d, md5Digest c out = .ok (c', d) ∧ c'.block.take t.length = t := by
  obtain ⟨c', e, _⟩ := digest_ok h out ho
  refine ⟨c', _, e, ?_⟩
  have htl := h.tlen
  have hi : (c.blockLen &&& 0x3F#64).toNat = l.toNat % 64 := by
    rw [h.hl, BitVec.toNat_and]; exact Nat.and_two_pow_sub_one_eq_mod _ 6
  rw [md5Digest] at e
  dsimp only at e
  have e1 := encode_ok [(c.blockLen <<< 3).setWidth 32, (c.blockLen >>> 29).setWidth 32] 2 rfl
    (List.replicate 8 0#8) (by decide)
  rw [show 4 * 2 = 8 from rfl] at e1
  rw [hi, if_pos (by omega), e1, bind_ok] at e
  obtain ⟨c1, u1, a1⟩ := update_ok h md5Padding (56 - l.toNat % 64) (by show _ ≤ 64; omega) (by omega)
  have k1 := md5_keep h md5Padding (56 - l.toNat % 64) (by show _ ≤ 64; omega) (by omega) (by omega) t.length (Nat.le_refl _) c1 u1
  rw [u1, bind_ok] at e
  have hpl : (md5Padding.take (56 - l.toNat % 64)).length = 56 - l.toNat % 64 := by
    rw [List.length_take, show md5Padding.length = 64 from rfl]; omega
  have hsm : (t ++ md5Padding.take (56 - l.toNat % 64)).length < 64 := by rw [List.length_append, hpl]; omega
  rw [Pgfe.Proofs.Sha.tail_small 64 _ hsm] at a1
  have htl2 : (t ++ md5Padding.take (56 - l.toNat % 64)).length = 56 := by rw [List.length_append, hpl]; omega
  generalize hch : List.flatMap (fun w => Pgfe.Spec.Md5.bytesLE 4 w.toNat)
    [(c.blockLen <<< 3).setWidth 32, (c.blockLen >>> 29).setWidth 32] ++ (List.replicate 8 0#8).drop 8 = chunk at e
  have hcl : chunk.length = 8 := by rw [← hch, List.length_append, flat_len]; rfl
  obtain ⟨c2, u2, a2⟩ := update_ok a1 chunk 8 (by omega) (by decide)
  have k2 := md5_keep a1 chunk 8 (by omega) (by decide) (by omega) t.length (by omega) c2 u2
  rw [u2, bind_ok] at e
  have e3 := encode_ok c2.state 4 (by rw [a2.hs]; exact a2.hs4) out ho
  rw [e3, bind_ok, Except.ok.injEq, Prod.mk.injEq] at e
  rw [← e.1, k2, k1, htl, h.ht]

end md5

/-! ## KECCAK -/
section keccak
open Pgfe.Proofs.Keccak Pgfe.Spec.Keccak Pgfe.Spec Pgfe.Proofs.KInj

theorem lpos_lt : ∀ k, k < 25 → lpos k < 25 := by decide

theorem stBytes_lst {f g : Nat → W64} (h : lst f = lst g) : stBytes f = stBytes g := by
  rw [stBytes, stBytes]
  apply List.map_congr_left
  intro j hj
  have hj := List.mem_range.1 hj
  have hl := lpos_lt (j / 8) (by omega)
  have := congrArg (fun l : List W64 => l.getD (lpos (j / 8)) 0#64) h
  simp only [lst_getD _ _ hl] at this
  rw [this]

theorem keccakFs_inj (k : Nat) : ∀ {S T : List Bool}, S.length = 1600 → T.length = 1600 → keccakFs k S = keccakFs k T → S = T := by
  induction k with
  | zero => intro S T _ _ h; exact h
  | succ k ih =>
    intro S T hS hT h
    have len (S : List Bool) (hS : S.length = 1600) : (keccakFs k S).length = 1600 := by
      cases k with
      | zero => exact hS
      | succ k => rw [keccakFs, keccakF, stringOf_length]
    exact ih hS hT (keccakF_inj (len S hS) (len T hT) h)

theorem at_inj {n o : Nat} {F G : Nat → W64} {pos : Nat} {c : KeccakCtx} {S T : List Bool} (hF : RepS F S) (hG : RepS G T)
    (h1 : At n o F pos c) (h2 : At n o G pos c) : S = T := by
  obtain ⟨k, off, ho, hp, q⟩ := h1
  obtain ⟨k', off', ho', hp', q'⟩ := h2
  have e : off = off' := by
    have := q.sz.symm.trans q'.sz
    omega
  subst e
  have ek : k = k' := by
    have h : k * (8 * n) = k' * (8 * n) := by omega
    exact Nat.eq_of_mul_eq_mul_right (by have := q.n0; omega) h
  subst ek
  have es := stBytes_lst (q.st.symm.trans q'.st)
  have r := perms_repS hF k
  have r' := perms_repS hG k
  apply keccakFs_inj k hF.1 hG.1
  rw [← rep_bytes r, ← rep_bytes r', es]

theorem single (r : Nat) (hr : r ≤ 1600) (x₁ x₂ : List Bool) (l₁ : x₁.length = r) (l₂ : x₂.length = r)
    (h : stateAfter r [x₁] = stateAfter r [x₂]) : x₁ = x₂ := by
  have s := state_length r []
  rw [← List.nil_append [x₁], ← List.nil_append [x₂], state_snoc, state_snoc] at h
  have e : List.zipWith (· ^^ ·) (stateAfter r []) (x₁ ++ List.replicate (1600 - r) false)
      = List.zipWith (· ^^ ·) (stateAfter r []) (x₂ ++ List.replicate (1600 - r) false) := by
    apply keccakF_inj _ _ h
    · rw [List.length_zipWith, List.length_append, List.length_replicate, s, l₁]; omega
    · rw [List.length_zipWith, List.length_append, List.length_replicate, s, l₂]; omega
  have := zip_cancel _ _ _ (by rw [s, List.length_append, List.length_replicate, l₁]; omega)
    (by rw [s, List.length_append, List.length_replicate, l₂]; omega) e
  exact List.append_cancel_right this

theorem residueK (P : Fam) (h8 : P.bits % 8 = 0) (g : KeccakCtx) (parts : List (List Byte))
    (hu : ∀ p ∈ parts, p.length ≤ 2 ^ 29 - 192) (out : List Byte) (ho : P.bits / 8 ≤ out.length) :
    ∃ c d, (P.I.init g >>= fun c => P.I.calls c (parts.map .update ++ [.digest out])) = .ok (c, [d]) ∧
      At P.n P.bits (fin (8 * P.n) (dsep P.ap P.al) parts.flatten) (P.bits / 8) c := by
  obtain ⟨c, e, h⟩ := calls_session P.hashOK g trivial parts out
    (fun p hp => by have := hu p hp; show 8 * p.length + 1536 ≤ 2 ^ 32; omega) trivial
  have hab := squeeze_abs h P.al0 P.al4 P.bits P.hbits out ho
  rw [Fam.fin_eq _ P.h0.n0] at hab
  obtain ⟨c1, e1, a1, _⟩ := hab
  rw [← P.hd c out (Or.inl h.ol)] at e1
  have e1 : P.I.digest c out = _ := e1
  exact ⟨c1, _, by rw [e, e1, bind_ok], a1 h8⟩

end keccak

/-! ## HMAC -/
section hmac
open Pgfe.Proofs.Hmac Pgfe.Spec

theorem residueHmac {I : HashImpl} {H : List Byte → List Byte} (K : HashOK I H) (bs : Nat) (k m : List Byte)
    (c : HmacCtx I) (h : HInv K bs k m c) (mid : List Byte) (g : I.Ctx) (out : List Byte) (c' : HmacCtx I) (d : List Byte)
    (e : HmacCtx.digest I bs K.ds mid g c out = .ok (c', d)) : c'.kOPad = xorPad bs k 0x5c#8 := by
  rw [HmacCtx.digest] at e
  generalize hx : I.digest c.hash mid = x at e
  cases x with
  | error u => rw [bind_err] at e; exact absurd e (by simp)
  | ok r =>
    rw [bind_ok] at e
    generalize hy : I.encodeMultiple g out [(some c.kOPad, bs), (some r.2, K.ds)] = y at e
    cases y with
    | error u => rw [bind_err] at e; exact absurd e (by simp)
    | ok o =>
      rw [bind_ok, Except.ok.injEq, Prod.mk.injEq] at e
      rw [← e.1]
      exact h.op

end hmac

end Pgfe.Proofs.Residue
