import Verif.Spec.Again
import Verif.Proofs.ShaStd
import Verif.Proofs.Alg
import Verif.Proofs.KeccakEval
/-!
# A hash context after a digest: the model follows the machines of `Spec/Again`
-/
namespace Pgfe.Proofs.Again
open Pgfe.Model Pgfe.Spec Pgfe.Spec.Again Pgfe.Proofs.Hash
open Pgfe.Model.HashImpl (Call)
open Pgfe.Spec.Sha (bytesOfNat bytesOfWord blocks V5 V8 P256 P512 Sha2)

theorem put_eq (d out : List Byte) (n : Nat) (h : d.length = n) : put d out = d ++ out.drop n := by
  rw [put, h]

/-! ## SHA -/
section sha
open Pgfe.Proofs.Sha

theorem closing_blocks (bs lb n : Nat) (hlb : lb < bs) (y : List Byte) :
    blocks bs (closing bs lb n y) = blocks bs y ++
      Fam.libPad bs (bs - lb) (tail bs y) (bytesOfNat lb (8 * n)) := by
  have hp : 0 < bs := by omega
  have htl := tail_length bs y
  have htb : (tail bs y).length < bs := by rw [htl]; exact Nat.mod_lt _ hp
  have hlen : (bytesOfNat lb (8 * n)).length = lb := by simp [bytesOfNat]
  have e : y.drop (y.length / bs * bs) = tail bs y := rfl
  rw [closing, Fam.libPad, e, ← htl]
  generalize bytesOfNat lb (8 * n) = len at hlen
  by_cases h : (tail bs y).length < bs - lb
  · rw [if_pos h, if_pos (by omega), List.append_assoc, List.append_assoc, blocks_tail bs hp]
    congr 1
    generalize tail bs y = t at htl htb h
    rw [← List.append_assoc, ← List.append_assoc, blocks_one bs hp _ (by simp [hlen]; omega)]
  · rw [if_neg h, if_neg (by omega), List.append_assoc, List.append_assoc, List.append_assoc, blocks_tail bs hp]
    congr 1
    generalize tail bs y = t at htl htb h
    have e2 : t ++ ([0x80#8] ++ (List.replicate (bs - t.length - 1) 0#8 ++ (t.take (bs - lb) ++ len)))
        = (t ++ [0x80#8] ++ List.replicate (bs - t.length - 1) 0#8) ++ (t.take (bs - lb) ++ len) := by
      simp
    have l1 : (t ++ [0x80#8] ++ List.replicate (bs - t.length - 1) 0#8).length = bs := by simp; omega
    rw [e2, blocks_append bs hp _ _ (by rw [l1]; exact Nat.mod_self _), blocks_one bs hp _ l1,
      blocks_one bs hp _ (by simp [hlen]; omega)]
    rfl

variable {w : Nat} (F : Fam w)

/-- The context after absorbing `y` from the chaining value `h`, `n` bytes counted before. -/
def InvAt (h : List (BitVec w)) (n : Nat) (y : List Byte) (c : ShaCtx w) : Prop :=
  F.WF c ∧ c.index = y.length % F.bs ∧ c.state = (blocks F.bs y).foldl F.compress h ∧
  c.block.take c.index = tail F.bs y ∧ Fam.val c = 8 * (n + y.length)

theorem push_at (h : List (BitVec w)) (n : Nat) (y : List Byte) (c : ShaCtx w) (b : Byte)
    (hi : InvAt F h n y c) (ht : 8 * (n + y.length + 1) < 2 ^ (2 * w)) :
    InvAt F h n (y ++ [b]) (F.push c b) := by
  obtain ⟨h1, h2, h3, h4, h5⟩ := hi
  -- the same context with the length words of `y` alone
  have hb : 8 * y.length < 2 ^ (2 * w) := by omega
  have key : ∀ lo hi : BitVec w, (F.push { c with lenLow := lo, lenHigh := hi } b).index = (F.push c b).index ∧
      (F.push { c with lenLow := lo, lenHigh := hi } b).state = (F.push c b).state ∧
      (F.push { c with lenLow := lo, lenHigh := hi } b).block = (F.push c b).block := by
    intro lo hi
    unfold Fam.push
    dsimp only
    split <;> exact ⟨rfl, rfl, rfl⟩
  have hv : ∃ lo hi : BitVec w, Fam.val (⟨c.state, lo, hi, c.index, c.block⟩ : ShaCtx w) = 8 * y.length := by
    refine ⟨BitVec.ofNat w (8 * y.length % 2 ^ w), BitVec.ofNat w (8 * y.length / 2 ^ w), ?_⟩
    rw [Fam.val]
    dsimp only
    rw [BitVec.toNat_ofNat, BitVec.toNat_ofNat, Nat.mod_mod]
    have : 8 * y.length / 2 ^ w < 2 ^ w := by
      apply Nat.div_lt_of_lt_mul
      rw [← Nat.pow_add, ← Nat.two_mul]; exact hb
    rw [Nat.mod_eq_of_lt this, Nat.mul_comm]
    have := Nat.div_add_mod (8 * y.length) (2 ^ w)
    omega
  obtain ⟨lo, hi, hv⟩ := hv
  have q : F.Inv h y ⟨c.state, lo, hi, c.index, c.block⟩ := ⟨h1, h2, h3, h4, hv⟩
  obtain ⟨q1, q2, q3, q4, _⟩ := F.push_inv h y _ b q (by omega)
  obtain ⟨k1, k2, k3⟩ := key lo hi
  have k1 : (F.push (⟨c.state, lo, hi, c.index, c.block⟩ : ShaCtx w) b).index = _ := k1
  have k2 : (F.push (⟨c.state, lo, hi, c.index, c.block⟩ : ShaCtx w) b).state = _ := k2
  have k3 : (F.push (⟨c.state, lo, hi, c.index, c.block⟩ : ShaCtx w) b).block = _ := k3
  rw [k1] at q2
  rw [k2] at q3
  rw [k3, k1] at q4
  refine ⟨F.push_wf c h1 b, q2, q3, q4, ?_⟩
  rw [F.push_val c b (by omega), h5, List.length_append, List.length_singleton]; omega

theorem foldl_at (h : List (BitVec w)) (n : Nat) (l : List Byte) : ∀ (y : List Byte) (c : ShaCtx w),
    InvAt F h n y c → 8 * (n + y.length + l.length) < 2 ^ (2 * w) →
    InvAt F h n (y ++ l) (l.foldl F.push c) := by
  induction l with
  | nil => intro y c h _; simpa using h
  | cons b l ih =>
    intro y c h' ht
    rw [List.length_cons] at ht
    have := ih (y ++ [b]) (F.push c b) (push_at F h n y c b h' (by omega))
      (by rw [List.length_append, List.length_singleton]; omega)
    rw [List.append_assoc] at this
    exact this

/-- The family member `F` computes with the words of the chaining values of `M`. -/
structure Match (M : MD) (words : M.V → List (BitVec w)) : Prop where
  bs : M.bs = F.bs
  lb : M.lb = w / 4
  lt : w / 4 < F.bs
  len : ∀ v, (words v).length = F.ns
  comp : ∀ (l : List (List Byte)) (v : M.V), l.foldl F.compress (words v) = words (l.foldl M.f v)
  bytes : ∀ v, (words v).flatMap bytesOfWord = M.bytes v

theorem sha_calls {M : MD} {words : M.V → List (BitVec w)} (hM : Match F M words) (k : Nat) (hk : w = 8 * k)
    (h0 : List (BitVec w)) (ds : Nat) (hds : ds ≤ F.ns * k) (wipe : Bool)
    (digest : ShaCtx w → List Byte → C (ShaCtx w × List Byte)) (hd : F.DigestOK wipe ds digest)
    (l : List Call) : ∀ (v : M.V) (n : Nat) (y : List Byte) (c : ShaCtx w),
    InvAt F (words v) n y c → 8 * (n + y.length + HashOK.absorbed l) < 2 ^ (2 * w) →
    (∀ x, Call.update x ∈ l → x.length < 2 ^ 31) → (∀ o, Call.digest o ∈ l → ds ≤ o.length) →
    ∃ c', (F.impl h0 digest).calls c l = .ok (c', M.answers wipe ds v n y l) := by
  induction l with
  | nil => intro v n y c _ _ _ _; exact ⟨c, rfl⟩
  | cons a l ih =>
    intro v n y c h ht hu ho
    cases a with
    | update x =>
      have e : HashOK.absorbed (.update x :: l) = x.length + HashOK.absorbed l := rfl
      rw [e] at ht
      have hi : c.index < F.bs := by rw [h.2.1]; exact Nat.mod_lt _ F.bs_pos
      have hv : Fam.val c = 8 * (n + y.length) := h.2.2.2.2
      have e1 := F.update_ok c h.1 hi x x.length (Nat.le_refl _) (hu x (List.mem_cons_self ..)) (by omega)
      rw [List.take_of_length_le (Nat.le_refl _)] at e1
      have e1 : (F.impl h0 digest).update c (some x) x.length = _ := e1
      obtain ⟨c', h2⟩ := ih v n (y ++ x) _ (foldl_at F (words v) n x y c h (by omega))
        (by rw [List.length_append]; omega) (fun z hz => hu z (List.mem_cons_of_mem _ hz))
        (fun z hz => ho z (List.mem_cons_of_mem _ hz))
      refine ⟨c', ?_⟩
      rw [HashImpl.calls, e1, bind_ok, h2, MD.answers]
    | digest o =>
      have e : HashOK.absorbed (.digest o :: l) = HashOK.absorbed l := by simp [HashOK.absorbed]
      rw [e] at ht
      have hi : c.index < F.bs := by rw [h.2.1]; exact Nat.mod_lt _ F.bs_pos
      obtain ⟨c1, e1, w1, i1, s1, hh, hl⟩ := hd c o h.1 hi (ho o (List.mem_cons_self ..))
      have ef : F.final c.state (c.block.take c.index) (Fam.lenField c) = words (M.close v n y) := by
        rw [h.2.2.2.1, h.2.2.1, lenField_eq hk, h.2.2.2.2, Fam.final, ← List.foldl_append]
        have := closing_blocks F.bs (w / 4) (n + y.length) hM.lt y
        rw [← this, hM.comp, MD.close, hM.bs, hM.lb]
      rw [ef, hM.bytes] at e1
      have e1 : (F.impl h0 digest).digest c o = _ := e1
      have hv : Fam.val c = 8 * (n + y.length) := h.2.2.2.2
      have inv : InvAt F (words (M.close v n y)) (if wipe then 0 else n + y.length) [] c1 := by
        refine ⟨w1, by rw [i1]; simp, by rw [s1, ef]; simp [blocks], by rw [i1]; simp [tail], ?_⟩
        rw [Fam.val, hh, hl]
        cases wipe
        · exact hv
        · simp
      obtain ⟨c', h2⟩ := ih _ _ [] c1 inv
        (by cases wipe
            · simpa using ht
            · simp only [if_true, List.length_nil, Nat.zero_add]; omega)
        (fun z hz => hu z (List.mem_cons_of_mem _ hz)) (fun z hz => ho z (List.mem_cons_of_mem _ hz))
      refine ⟨c', ?_⟩
      have hlen : ((M.bytes (M.close v n y)).take ds).length = ds := by
        rw [← hM.bytes, List.length_take, flatMap_bytes_length, hM.len]
        have : w / 8 = k := by omega
        rw [this]; omega
      rw [HashImpl.calls, e1, bind_ok]
      dsimp only
      rw [h2, bind_ok, MD.answers, put_eq _ _ ds hlen]

theorem match1 : Match F1 sha1MD words5 where
  bs := rfl
  lb := rfl
  lt := by decide
  len := fun _ => rfl
  comp := fold_comp5
  bytes := bytes5

theorem match256 (H0 : V8 32) : Match F256 (sha2MD P256 H0) V8.words where
  bs := rfl
  lb := rfl
  lt := by decide
  len := fun _ => rfl
  comp := fold_comp8 P256
  bytes := fun _ => rfl

theorem match512 (H0 : V8 64) : Match F512 (sha2MD P512 H0) V8.words where
  bs := rfl
  lb := rfl
  lt := by decide
  len := fun _ => rfl
  comp := fold_comp8 P512
  bytes := fun _ => rfl

theorem sha_all {M : MD} {words : M.V → List (BitVec w)} (hM : Match F M words) (k : Nat) (hk : w = 8 * k)
    (h0 : List (BitVec w)) (v : M.V) (hv : h0 = words v) (ds : Nat) (hds : ds ≤ F.ns * k) (wipe : Bool)
    (digest : ShaCtx w → List Byte → C (ShaCtx w × List Byte)) (hd : F.DigestOK wipe ds digest)
    (g : ShaCtx w) (hg : F.WF g) (l : List Call) (ht : 8 * HashOK.absorbed l < 2 ^ (2 * w))
    (hu : ∀ x, Call.update x ∈ l → x.length < 2 ^ 31) (ho : ∀ o, Call.digest o ∈ l → ds ≤ o.length) :
    ∃ c', ((F.impl h0 digest).init g >>= fun c => (F.impl h0 digest).calls c l)
      = .ok (c', M.answers wipe ds v 0 [] l) := by
  have e := F.init_eq h0 (by rw [hv]; exact hM.len v) g hg
  have e : (F.impl h0 digest).init g = _ := e
  rw [e, bind_ok]
  have q := F.init_inv h0 (by rw [hv]; exact hM.len v) g hg
  rw [hv] at q
  have q : InvAt F (words v) 0 [] ⟨words v, 0#w, 0#w, 0, g.block⟩ := ⟨q.1, q.2.1, q.2.2.1, q.2.2.2.1, by
    rw [q.2.2.2.2, Nat.zero_add]⟩
  have := sha_calls F hM k hk h0 ds hds wipe digest hd l v 0 [] _ q (by simpa using ht) hu ho
  rw [hv] at this ⊢
  exact this

end sha

/-! ## MD5 -/
section md5
open Pgfe.Proofs.Md5
open Pgfe.Proofs.Sha (tail blocks_tail tail_length)

theorem md5_pad_eq (m : List Byte) : m ++ (padBytes ((BitVec.ofNat 64 m.length).toNat % 64) ++
    Pgfe.Spec.Md5.bytesLE 8 (8 * (BitVec.ofNat 64 m.length).toNat % 2 ^ 64)) = Pgfe.Spec.Md5.pad m := by
  have h1 : (BitVec.ofNat 64 m.length).toNat % 64 = m.length % 64 := by
    rw [BitVec.toNat_ofNat]; omega
  have h2 : 8 * (BitVec.ofNat 64 m.length).toNat % 2 ^ 64 = 8 * m.length % 2 ^ 64 := by
    rw [BitVec.toNat_ofNat]; omega
  rw [h1, h2, Pgfe.Spec.Md5.pad, padBytes]
  have h3 : Pgfe.Spec.Sha.padZeros 64 8 m.length
      = (if m.length % 64 < 56 then 56 - m.length % 64 else 120 - m.length % 64) - 1 := by
    rw [Pgfe.Spec.Sha.padZeros]; split <;> omega
  rw [h3]
  simp

/-- After a digest of `m` the context has absorbed the padded `m`. -/
theorem md5_after (m : List Byte) (c : Md5Ctx) (h : Inv m c) (out : List Byte) (ho : 16 ≤ out.length) :
    ∃ c', md5Digest c out = .ok (c', Pgfe.Spec.Md5.md5 m ++ out.drop 16) ∧ Inv (Pgfe.Spec.Md5.pad m) c' := by
  obtain ⟨c', h1, h2⟩ := digest_ok h out ho
  rw [final_eq] at h1
  refine ⟨c', h1, ?_⟩
  rw [Pgfe.Proofs.Md5.Inv, ← md5_pad_eq m, blocks_tail 64 (by decide), List.foldl_append, Pgfe.Proofs.Md5.tail_tail, List.length_append,
    List.length_append, ofNat_add', ofNat_add', ← BitVec.add_assoc]
  have hbl : (Pgfe.Spec.Md5.bytesLE 8 (8 * (BitVec.ofNat 64 m.length).toNat % 2 ^ 64)).length = 8 := by
    simp [Pgfe.Spec.Md5.bytesLE]
  rw [hbl]
  exact h2

theorem md5_calls (l : List Call) : ∀ (m : List Byte) (c : Md5Ctx), Inv m c →
    (∀ x, Call.update x ∈ l → 0 < x.length) → (∀ o, Call.digest o ∈ l → 16 ≤ o.length) →
    ∃ c', md5Impl.calls c l = .ok (c', md5Answers m l) := by
  induction l with
  | nil => intro m c _ _ _; exact ⟨c, rfl⟩
  | cons a l ih =>
    intro m c h hu ho
    cases a with
    | update x =>
      obtain ⟨c1, e1, i1⟩ := hashOK.update_ok m c x x.length h (hu x (List.mem_cons_self ..)) (Nat.le_refl _) trivial
      rw [List.take_of_length_le (Nat.le_refl _)] at i1
      obtain ⟨c', h2⟩ := ih (m ++ x) c1 i1 (fun z hz => hu z (List.mem_cons_of_mem _ hz))
        (fun z hz => ho z (List.mem_cons_of_mem _ hz))
      refine ⟨c', ?_⟩
      rw [HashImpl.calls, e1, bind_ok, h2, md5Answers]
    | digest o =>
      obtain ⟨c1, e1, i1⟩ := md5_after m c h o (ho o (List.mem_cons_self ..))
      obtain ⟨c', h2⟩ := ih _ c1 i1 (fun z hz => hu z (List.mem_cons_of_mem _ hz))
        (fun z hz => ho z (List.mem_cons_of_mem _ hz))
      refine ⟨c', ?_⟩
      have e1 : md5Impl.digest c o = _ := e1
      rw [HashImpl.calls, e1, bind_ok]
      dsimp only
      rw [h2, bind_ok, md5Answers, put_eq _ _ 16 (md5_length m)]

end md5

/-! ## KECCAK -/
section keccak
open Pgfe.Proofs.Keccak Pgfe.Spec.Keccak

theorem sponge_sq (P : Fam) (h8 : P.bits % 8 = 0) (stream : Nat → List Byte → List Byte)
    (hs : ∀ n m, stream n m = piece (8 * P.n) (fin (8 * P.n) (dsep P.ap P.al) m) 0 n) (l : List Call) :
    ∀ (m : List Byte) (pos : Nat) (c : KeccakCtx), At P.n P.bits (fin (8 * P.n) (dsep P.ap P.al) m) pos c →
    (∀ o, Call.digest o ∈ l → P.bits / 8 ≤ o.length) →
    ∃ c', P.I.calls c l = .ok (c', spongeAnswers stream (P.bits / 8) m (some pos) l) := by
  induction l with
  | nil => intro m pos c _ _; exact ⟨c, rfl⟩
  | cons a l ih =>
    intro m pos c h ho
    have hsq : c.squeezing = true := by obtain ⟨k, off, _, _, hq⟩ := h; exact hq.sq
    have hol : c.outLength = P.bits := by obtain ⟨k, off, _, _, hq⟩ := h; exact hq.ol
    cases a with
    | update x =>
      obtain ⟨c', h2⟩ := ih m pos c h (fun z hz => ho z (List.mem_cons_of_mem _ hz))
      refine ⟨c', ?_⟩
      have e1 : P.I.update c (some x) x.length = .ok c := update_ignored hsq x x.length
      rw [HashImpl.calls, e1, bind_ok, h2, spongeAnswers]
    | digest o =>
      obtain ⟨c1, e1, a1⟩ := squeeze_at h P.bits P.hbits o (ho o (List.mem_cons_self ..))
      rw [← P.hd c o (Or.inr hol)] at e1
      obtain ⟨c', h2⟩ := ih m (pos + P.bits / 8) c1 (a1 h8) (fun z hz => ho z (List.mem_cons_of_mem _ hz))
      refine ⟨c', ?_⟩
      have e1 : P.I.digest c o = _ := e1
      have hp : (stream (pos + P.bits / 8) m).drop pos
          = piece (8 * P.n) (fin (8 * P.n) (dsep P.ap P.al) m) pos (P.bits / 8) := by
        rw [hs, piece_add, List.drop_left' (piece_length ..), Nat.zero_add]
      rw [HashImpl.calls, e1, bind_ok]
      dsimp only
      rw [h2, bind_ok, spongeAnswers, hp, put_eq _ _ _ (piece_length ..)]

theorem sponge_calls (P : Fam) (h8 : P.bits % 8 = 0) (stream : Nat → List Byte → List Byte)
    (hs : ∀ n m, stream n m = piece (8 * P.n) (fin (8 * P.n) (dsep P.ap P.al) m) 0 n) (l : List Call) :
    ∀ (m : List Byte) (c : KeccakCtx), P.Inv m c →
    (∀ x, Call.update x ∈ l → 8 * x.length + 1536 ≤ 2 ^ 32) →
    (∀ o, Call.digest o ∈ l → P.bits / 8 ≤ o.length) →
    ∃ c', P.I.calls c l = .ok (c', spongeAnswers stream (P.bits / 8) m none l) := by
  induction l with
  | nil => intro m c _ _ _; exact ⟨c, rfl⟩
  | cons a l ih =>
    intro m c h hu ho
    cases a with
    | update x =>
      obtain ⟨c1, e1, i1⟩ := P.hashOK.update_ok m c x x.length h (hu x (List.mem_cons_self ..)) (Nat.le_refl _) trivial
      rw [List.take_of_length_le (Nat.le_refl _)] at i1
      obtain ⟨c', h2⟩ := ih (m ++ x) c1 i1 (fun z hz => hu z (List.mem_cons_of_mem _ hz))
        (fun z hz => ho z (List.mem_cons_of_mem _ hz))
      refine ⟨c', ?_⟩
      rw [HashImpl.calls, e1, bind_ok, h2, spongeAnswers]
    | digest o =>
      have hab := squeeze_abs h P.al0 P.al4 P.bits P.hbits o (ho o (List.mem_cons_self ..))
      rw [Fam.fin_eq _ P.h0.n0] at hab
      obtain ⟨c1, e1, a1, _⟩ := hab
      rw [← P.hd c o (Or.inl h.ol)] at e1
      obtain ⟨c', h2⟩ := sponge_sq P h8 stream hs l m (P.bits / 8) c1 (a1 h8)
        (fun z hz => ho z (List.mem_cons_of_mem _ hz))
      refine ⟨c', ?_⟩
      have e1 : P.I.digest c o = _ := e1
      rw [HashImpl.calls, e1, bind_ok]
      dsimp only
      rw [h2, bind_ok, spongeAnswers, hs, put_eq _ _ _ (piece_length ..)]

theorem sponge_all (P : Fam) (h8 : P.bits % 8 = 0) (ds : Nat) (hds : P.bits / 8 = ds) (cap : Nat) (hc : 1600 - cap = 64 * P.n) (sfx : List Bool)
    (hd : DomSep sfx (dsep P.ap P.al)) (stream : Nat → List Byte → List Byte)
    (hs : ∀ n m, stream n m = bytesOf (keccak cap (bitsOf m ++ sfx) (8 * n))) (g : KeccakCtx) (l : List Call)
    (hu : ∀ x, Call.update x ∈ l → x.length ≤ 2 ^ 29 - 192)
    (ho : ∀ o, Call.digest o ∈ l → ds ≤ o.length) :
    ∃ c', (P.I.init g >>= fun c => P.I.calls c l) = .ok (c', spongeAnswers stream ds [] none l) := by
  subst hds
  obtain ⟨c0, h1, h2⟩ := P.hashOK.init_ok g trivial
  have h1 : P.I.init g = .ok c0 := h1
  rw [h1, bind_ok]
  refine sponge_calls P h8 stream ?_ l [] c0 h2 (fun x hx => by have := hu x hx; omega) ho
  intro n m
  rw [hs, keccak_bytes cap (8 * P.n) n (by omega) P.n0 (by have := P.h0.n24; omega) sfx _ hd, piece]
  simp only [Nat.zero_add]

end keccak

end Pgfe.Proofs.Again
