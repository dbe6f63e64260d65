import Verif.Proofs.WorkKeccak
import Verif.Proofs.Alg
/-!
# Upper bounds for the work: all algorithms, HMAC
-/
namespace Pgfe.Proofs.Work
open Pgfe.Model Pgfe.Spec

/-- The three functions of an implementation do work linear in the input. -/
structure Linear {I : HashImpl} (t : Traced I) (mem inv : I.Ctx → Prop) (φ : I.Ctx → Nat) (K D : Nat) : Prop where
  init : ∀ g, mem g → Run (t.init g) inv φ 217
  update : ∀ c x n, inv c → Run (t.update c (some x) n) inv φ (φ c + (K * n + 11))
  digest : ∀ c o, inv c → Run (t.digest c o) (fun r => inv r.1) (fun r => φ r.1) (φ c + D)
  again : ∀ c, inv c → mem c

theorem Linear.mono {I : HashImpl} {t : Traced I} {mem inv : I.Ctx → Prop} {φ : I.Ctx → Nat} {K D K' D' : Nat} (h : Linear t mem inv φ K D)
    (hK : K ≤ K') (hD : D ≤ D') : Linear t mem inv φ K' D' where
  init := h.init
  update := fun c x n hc => Run.mono (h.update c x n hc) (by have := Nat.mul_le_mul_right n hK; omega)
  digest := fun c o hc => Run.mono (h.digest c o hc) (by omega)
  again := h.again

theorem md5_linear (bits : Nat) : Linear (Alg.traced .MD5 bits) (fun _ => True) (fun _ => True) (fun (c : Md5Ctx) => 13 * md5Offset c) 15 1129 where
  init := fun g _ => by
    show Run (Tr.md5Init g) _ _ _
    unfold Tr.md5Init
    refine Run.next (Bd.wrs _ _ _ _) (by show max 1 4 ≤ _; omega) (fun s _ => ?_)
    refine Run.done _ trivial ?_
    have : md5Offset { state := s, blockLen := 0#64, block := g.block } = 0 := by
      unfold md5Offset
      dsimp only
      decide
    rw [this]
    omega
  update := fun c x n _ => Run.mono (md5Update_run c x n) (by omega)
  digest := fun c o _ => md5Digest_run c o
  again := fun _ _ => trivial

theorem sha_linear {w : Nat} {p : ShaCtx w → T (ShaCtx w)} {n bs q D : Nat} (hp : Proc p n) (hq : n ≤ q * bs)
    (h0 : List (BitVec w)) (hh : h0.length = 8 ∨ h0.length = 5) (dg : ShaCtx w → List Byte → T (ShaCtx w × List Byte))
    (hd : ∀ c o, Fit bs c → Run (dg c o) (fun r => r.1.block.length = bs ∧ r.1.index = 0) (fun _ => 0) D)
    (fi : ShaCtx w → C (ShaCtx w)) (fu : ShaCtx w → Option (List Byte) → Nat → C (ShaCtx w))
    (fd : ShaCtx w → List Byte → C (ShaCtx w × List Byte)) :
    Linear (I := ⟨ShaCtx w, fi, fu, fd⟩) ⟨Tr.shaInit h0, Tr.shaUpdate p bs, dg⟩ (fun (c : ShaCtx w) => c.block.length = bs) (Fit bs)
      (fun (c : ShaCtx w) => q * c.index) (q + 6) D where
  init := fun g hg => by
    refine Run.mono (Run.weaken (shaInit_run h0 hh bs g hg) (fun a ⟨h1, h2⟩ => ⟨⟨h1, by omega⟩, ?_⟩)) (by omega)
    show q * a.index ≤ _
    rw [h2, Nat.mul_zero]
    exact Nat.le_refl _
  update := fun c x n hc => Run.mono (shaUpdate_run hp hq c x n hc) (by omega)
  digest := fun c o hc => by
    refine Run.mono (Run.weaken (hd c o hc) (fun a ⟨h1, h2⟩ => ⟨⟨h1, by omega⟩, ?_⟩)) (by omega)
    show q * a.1.index ≤ _
    rw [h2, Nat.mul_zero]
    exact Nat.le_refl _
  again := fun _ hc => hc.1

theorem keccakUpdate_run {r o Q : Nat} (hr : r ≤ 1600) (hr8 : r % 8 = 0) (h8 : 8 ≤ r) (hQ : 11700 ≤ Q * r) (c : KeccakCtx) (x : List Byte) (n : Nat)
    (h : KFit r o c) : Run (Tr.keccakUpdate c (some x) n) (KFit r o) (fun c => Q * c.inqueueBits) (Q * c.inqueueBits + (8 * (Q + 12) * n + 11)) := by
  refine Run.mono (absorb_run hr hr8 h8 hQ c x (n * 8 % 2 ^ 64) h (.inr (by omega))) ?_
  have h1 : n * 8 % 2 ^ 64 ≤ 8 * n := by omega
  have h2 := Nat.mul_le_mul_left (Q + 12) h1
  have h3 : (Q + 12) * (8 * n) = 8 * (Q + 12) * n := by rw [← Nat.mul_assoc, Nat.mul_comm (Q + 12) 8]
  omega

/-- What the init functions of the KECCAK family establish. -/
theorem keccakInit_run {r o Q : Nat} {f : KeccakCtx → C KeccakCtx} (hf : ∀ g c, f g = .ok c → KFit r o c ∧ c.inqueueBits = 0) (g : KeccakCtx) :
    Run (Tr.keccakInit f g) (KFit r o) (fun c => Q * c.inqueueBits) 217 := by
  refine ⟨Nat.le_refl _, fun c hc => ?_⟩
  obtain ⟨h1, h2⟩ := hf g c hc
  refine ⟨h1, ?_⟩
  show 217 + Q * c.inqueueBits ≤ 217
  rw [h2, Nat.mul_zero]
  exact Nat.le_refl _

theorem sha3_linear {r o Q cap : Nat} (hc : r = (1600 + 2 ^ 32 - cap) % 2 ^ 32) (hr : r < 1600) (hr8 : r % 64 = 0) (h8 : 8 ≤ r) (hQ : 11700 ≤ Q * r)
    (fi : KeccakCtx → C KeccakCtx) (fu : KeccakCtx → Option (List Byte) → Nat → C KeccakCtx)
    (fd : KeccakCtx → List Byte → C (KeccakCtx × List Byte)) :
    Linear (I := ⟨KeccakCtx, fi, fu, fd⟩) ⟨Tr.keccakInit (sha3Init cap o), Tr.keccakUpdate, Tr.keccakSqueeze⟩ (fun _ => True) (KFit r o)
      (fun (c : KeccakCtx) => Q * c.inqueueBits) (8 * (Q + 12)) (23874 + 8 * Q + (Q * r + (Q + 6) * o)) where
  init := fun g _ => keccakInit_run (fun g c h => by
    unfold sha3Init keccakInit at h
    dsimp only at h
    rw [← hc, if_neg (by omega)] at h
    have h := Except.ok.inj h
    subst h
    exact ⟨⟨rfl, rfl, Nat.zero_le _, Nat.zero_le _, by show 2 ≤ 8; omega, Nat.le_refl _⟩, rfl⟩) g
  update := fun c x n h => keccakUpdate_run (by omega) (by omega) h8 hQ c x n h
  digest := fun c o h => squeeze_run (by omega) (by omega) h8 hQ c o h
  again := fun _ _ => trivial

theorem shake_linear {r Q cap : Nat} (bits : Nat) (hc : r = (1600 + 2 ^ 32 - cap) % 2 ^ 32) (hr : r < 1600) (hr8 : r % 64 = 0) (h8 : 8 ≤ r) (hQ : 11700 ≤ Q * r)
    (f : KeccakCtx → C KeccakCtx) (hf : f = shakeInit cap ∨ f = rawshakeInit cap)
    (fi : KeccakCtx → C KeccakCtx) (fu : KeccakCtx → Option (List Byte) → Nat → C KeccakCtx)
    (fd : KeccakCtx → List Byte → C (KeccakCtx × List Byte)) :
    Linear (I := ⟨KeccakCtx, fi, fu, fd⟩) ⟨Tr.keccakInit f, Tr.keccakUpdate, Tr.shakeDigest bits⟩ (fun _ => True) (KFit r (bits % 2 ^ 32))
      (fun (c : KeccakCtx) => Q * c.inqueueBits) (8 * (Q + 12)) (23874 + 8 * Q + (Q * r + (Q + 6) * (bits % 2 ^ 32))) where
  init := fun g _ => keccakInit_run (fun g c h => by
    rcases hf with rfl | rfl
    · unfold shakeInit keccakInit at h
      dsimp only at h
      rw [← hc, if_neg (by omega)] at h
      have h := Except.ok.inj h
      subst h
      exact ⟨⟨rfl, rfl, Nat.zero_le _, Nat.zero_le _, by show 4 ≤ 8; omega, Nat.zero_le _⟩, rfl⟩
    · unfold rawshakeInit keccakInit at h
      dsimp only at h
      rw [← hc, if_neg (by omega)] at h
      have h := Except.ok.inj h
      subst h
      exact ⟨⟨rfl, rfl, Nat.zero_le _, Nat.zero_le _, by show 2 ≤ 8; omega, Nat.zero_le _⟩, rfl⟩) g
  update := fun c x n h => keccakUpdate_run (by omega) (by omega) h8 hQ c x n h
  digest := fun c o h => squeeze_run (by omega) (by omega) h8 hQ { c with outLength := bits % 2 ^ 32 } o
    ⟨h.rate, h.nr, h.inq, h.sq, h.ap, Nat.le_refl _⟩
  again := fun _ _ => trivial

theorem exists_linear (a : Alg) (bits : Nat) : ∃ (mem inv : (a.impl bits).Ctx → Prop) (φ : (a.impl bits).Ctx → Nat),
    Linear (a.traced bits) mem inv φ (perByte a) (perDigest a bits) ∧ ∀ g, memOK a bits g → mem g := by
  cases a with
  | MD5 => exact ⟨_, _, _, md5_linear bits, fun _ _ => trivial⟩
  | SHA1 =>
    exact ⟨_, _, _, sha_linear (q := 12) sha1_proc (by omega) sha1H0 (.inr rfl) Tr.sha1Digest (fun c o h => sha1Digest_run c o h) _ _ _,
      fun _ h => h.2⟩
  | SHA224 =>
    exact ⟨_, _, _, Linear.mono (sha_linear (q := 10) sha256_proc (by omega) sha224H0 (.inl rfl) (Tr.sha224n256Digest 28)
      (fun c o h => sha224n256Digest_run 28 c o h) _ _ _) (by decide) (by show _ ≤ (_ : Nat); unfold perDigest; dsimp only; omega), fun _ h => h.2⟩
  | SHA256 =>
    exact ⟨_, _, _, Linear.mono (sha_linear (q := 10) sha256_proc (by omega) sha256H0 (.inl rfl) (Tr.sha224n256Digest 32)
      (fun c o h => sha224n256Digest_run 32 c o h) _ _ _) (by decide) (by show _ ≤ (_ : Nat); unfold perDigest; dsimp only; omega), fun _ h => h.2⟩
  | SHA384 =>
    exact ⟨_, _, _, Linear.mono (sha_linear (q := 9) sha512_proc (by omega) (words64 sha384H0) (.inl rfl) (Tr.sha384n512Digest 48)
      (fun c o h => sha384n512Digest_run 48 c o h) _ _ _) (by decide) (by show _ ≤ (_ : Nat); unfold perDigest; dsimp only; omega), fun _ h => h.2⟩
  | SHA512 =>
    exact ⟨_, _, _, Linear.mono (sha_linear (q := 9) sha512_proc (by omega) (words64 sha512H0) (.inl rfl) (Tr.sha384n512Digest 64)
      (fun c o h => sha384n512Digest_run 64 c o h) _ _ _) (by decide) (by show _ ≤ (_ : Nat); unfold perDigest; dsimp only; omega), fun _ h => h.2⟩
  | SHA512_224 =>
    exact ⟨_, _, _, Linear.mono (sha_linear (q := 9) sha512_proc (by omega) (words64 sha512H0_224) (.inl rfl) (Tr.sha384n512Digest 28)
      (fun c o h => sha384n512Digest_run 28 c o h) _ _ _) (by decide) (by show _ ≤ (_ : Nat); unfold perDigest; dsimp only; omega), fun _ h => h.2⟩
  | SHA512_256 =>
    exact ⟨_, _, _, Linear.mono (sha_linear (q := 9) sha512_proc (by omega) (words64 sha512H0_256) (.inl rfl) (Tr.sha384n512Digest 32)
      (fun c o h => sha384n512Digest_run 32 c o h) _ _ _) (by decide) (by show _ ≤ (_ : Nat); unfold perDigest; dsimp only; omega), fun _ h => h.2⟩
  | SHA3_224 =>
    exact ⟨_, _, _, Linear.mono (sha3_linear (r := 1152) (Q := 11) (cap := 448) (o := 224) (by decide) (by decide) (by decide) (by decide) (by decide) _ _ _)
      (by decide) (by unfold perDigest; dsimp only; omega), fun _ _ => trivial⟩
  | SHA3_256 =>
    exact ⟨_, _, _, Linear.mono (sha3_linear (r := 1088) (Q := 11) (cap := 512) (o := 256) (by decide) (by decide) (by decide) (by decide) (by decide) _ _ _)
      (by decide) (by unfold perDigest; dsimp only; omega), fun _ _ => trivial⟩
  | SHA3_384 =>
    exact ⟨_, _, _, Linear.mono (sha3_linear (r := 832) (Q := 15) (cap := 768) (o := 384) (by decide) (by decide) (by decide) (by decide) (by decide) _ _ _)
      (by decide) (by unfold perDigest; dsimp only; omega), fun _ _ => trivial⟩
  | SHA3_512 =>
    exact ⟨_, _, _, Linear.mono (sha3_linear (r := 576) (Q := 21) (cap := 1024) (o := 512) (by decide) (by decide) (by decide) (by decide) (by decide) _ _ _)
      (by decide) (by unfold perDigest; dsimp only; omega), fun _ _ => trivial⟩
  | RawSHAKE128 =>
    exact ⟨_, _, _, Linear.mono (shake_linear (r := 1344) (Q := 9) (cap := 256) bits (by decide) (by decide) (by decide) (by decide) (by decide) _ (.inr rfl) _ _ _)
      (by decide) (by unfold perDigest; dsimp only; omega), fun _ _ => trivial⟩
  | SHAKE128 =>
    exact ⟨_, _, _, Linear.mono (shake_linear (r := 1344) (Q := 9) (cap := 256) bits (by decide) (by decide) (by decide) (by decide) (by decide) _ (.inl rfl) _ _ _)
      (by decide) (by unfold perDigest; dsimp only; omega), fun _ _ => trivial⟩
  | RawSHAKE256 =>
    exact ⟨_, _, _, Linear.mono (shake_linear (r := 1088) (Q := 11) (cap := 512) bits (by decide) (by decide) (by decide) (by decide) (by decide) _ (.inr rfl) _ _ _)
      (by decide) (by unfold perDigest; dsimp only; omega), fun _ _ => trivial⟩
  | SHAKE256 =>
    exact ⟨_, _, _, Linear.mono (shake_linear (r := 1088) (Q := 11) (cap := 512) bits (by decide) (by decide) (by decide) (by decide) (by decide) _ (.inl rfl) _ _ _)
      (by decide) (by unfold perDigest; dsimp only; omega), fun _ _ => trivial⟩

section
variable {I : HashImpl} {t : Traced I} {mem inv : I.Ctx → Prop} {φ : I.Ctx → Nat} {K D : Nat} (L : Linear t mem inv φ K D)
include L

theorem calls_bd : ∀ (l : List HashImpl.Call) (c : I.Ctx), inv c →
    Bd (t.calls c l) (φ c + (K * fed l + D * digests l + perCall * l.length)) := by
  intro l
  induction l with
  | nil => intro c _; exact Bd.done _ _
  | cons x l ih =>
    intro c hc
    cases x with
    | update x =>
      rw [Traced.calls, fed, digests, List.length_cons, Nat.mul_add, Nat.mul_succ]
      refine Run.toBd (P := fun _ => True) (φ := fun _ => 0) ?_
      refine Run.seq (ψ := fun e => φ e + (K * fed l + D * digests l + perCall * l.length)) (P := inv) ?_ (fun e he => ⟨ih e he, fun _ _ => ⟨trivial, ih e he⟩⟩)
      have h := L.update c x x.length hc
      refine ⟨Nat.le_trans h.1 (by unfold perCall; omega), fun a ha => ⟨(h.2 a ha).1, ?_⟩⟩
      have := (h.2 a ha).2
      try dsimp only at this ⊢
      unfold perCall
      omega
    | digest o =>
      rw [Traced.calls, fed, digests, List.length_cons, Nat.mul_succ, Nat.mul_succ]
      refine Run.toBd (P := fun _ => True) (φ := fun _ => 0) ?_
      refine Run.seq (ψ := fun e => φ e.1 + (K * fed l + D * digests l + perCall * l.length)) (P := fun e => inv e.1) ?_ (fun e he => ?_)
      · have h := L.digest c o hc
        refine ⟨Nat.le_trans h.1 (by omega), fun a ha => ⟨(h.2 a ha).1, ?_⟩⟩
        have := (h.2 a ha).2
        try dsimp only at this ⊢
        omega
      · have hb := Bd.seq (b := 0) (ih e.1 he) (fun s => Bd.ret (s.1, e.2 :: s.2))
        exact ⟨hb, fun _ _ => ⟨trivial, hb⟩⟩

/-- Initialisation and any calls. -/
theorem session_bd (g : I.Ctx) (hg : mem g) (l : List HashImpl.Call) :
    Bd (do let c ← t.init g
           t.calls c l) (K * fed l + D * digests l + perCall * (l.length + 1)) := by
  refine Run.toBd (P := fun _ => True) (φ := fun _ => 0) ?_
  refine Run.seq (ψ := fun e => φ e + (K * fed l + D * digests l + perCall * l.length)) (P := inv) ?_
    (fun e he => ⟨calls_bd L l e he, fun _ _ => ⟨trivial, calls_bd L l e he⟩⟩)
  have h := L.init g hg
  rw [Nat.mul_succ]
  refine ⟨Nat.le_trans h.1 (by unfold perCall; omega), fun a ha => ⟨(h.2 a ha).1, ?_⟩⟩
  have := (h.2 a ha).2
  try dsimp only at this ⊢
  unfold perCall
  omega

/-- A run that starts with an update. -/
theorem update_then {β : Type} {k : I.Ctx → T β} {P : β → Prop} {ψ : β → Nat} (c : I.Ctx) (hc : inv c) (x : List Byte) (n R B : Nat)
    (hB : φ c + (K * n + 11) + R ≤ B) (g : ∀ e, inv e → Run (k e) P ψ (φ e + R)) : Run (t.update c (some x) n >>= k) P ψ B := by
  refine Run.seq (ψ := fun e => φ e + R) (P := inv) ?_ g
  have h := L.update c x n hc
  refine ⟨Nat.le_trans h.1 (by omega), fun a ha => ⟨(h.2 a ha).1, ?_⟩⟩
  have := (h.2 a ha).2
  try dsimp only at this ⊢
  omega

theorem init_then {β : Type} {k : I.Ctx → T β} {P : β → Prop} {ψ : β → Nat} (c : I.Ctx) (hc : mem c) (R B : Nat)
    (hB : 217 + R ≤ B) (g : ∀ e, inv e → Run (k e) P ψ (φ e + R)) : Run (t.init c >>= k) P ψ B := by
  refine Run.seq (ψ := fun e => φ e + R) (P := inv) ?_ g
  have h := L.init c hc
  refine ⟨Nat.le_trans h.1 (by omega), fun a ha => ⟨(h.2 a ha).1, ?_⟩⟩
  have := (h.2 a ha).2
  try dsimp only at this ⊢
  omega

theorem digest_then {β : Type} {k : I.Ctx × List Byte → T β} {P : β → Prop} {ψ : β → Nat} (c : I.Ctx) (hc : inv c) (o : List Byte) (R B : Nat)
    (hB : φ c + D + R ≤ B) (g : ∀ e, inv e.1 → Run (k e) P ψ (φ e.1 + R)) : Run (t.digest c o >>= k) P ψ B := by
  refine Run.seq (ψ := fun e => φ e.1 + R) (P := fun e => inv e.1) ?_ g
  have h := L.digest c o hc
  refine ⟨Nat.le_trans h.1 (by omega), fun a ha => ⟨(h.2 a ha).1, ?_⟩⟩
  have := (h.2 a ha).2
  try dsimp only at this ⊢
  omega

theorem macInit_run (bs : Nat) (c : HmacCtx I) (hc : mem c.hash) :
    Run (t.macInit bs c) (fun c => inv c.hash) (fun c => φ c.hash) (232 + (2 + K) * bs) := by
  unfold Traced.macInit
  rw [Nat.add_mul]
  refine init_then L _ hc (2 + 2 * bs + (K * bs + 11)) _ (by omega) (fun h hh => ?_)
  refine Run.next (Bd.wrs _ _ _ _) (by rw [List.length_replicate]; omega) (fun ip _ => ?_)
  refine Run.next (Bd.wrs _ _ _ _) (by rw [List.length_replicate, List.length_replicate]; omega) (fun op _ => ?_)
  rw [List.length_replicate, List.length_replicate]
  exact update_then L h hh ip bs 0 _ (by omega) (fun e he => Run.done _ he (by dsimp only; omega))

omit L in
theorem arrcpy_bd (a : Arr) (d : List Byte) (n : Nat) (s : List Byte) (m : Nat) : Bd (Traced.arrcpy a d n s m) (4 + 2 * n) := by
  unfold Traced.arrcpy
  refine Run.toBd (P := fun _ => True) (φ := fun _ => 0) ?_
  refine Run.next (Bd.br _) (by omega) (fun larger hl => ?_)
  have hl := br_ok hl
  extract_lets cp
  have hcp : cp ≤ n := by
    show (if larger = true then m else n) ≤ n
    rw [hl]
    split
    · rename_i h; have := of_decide_eq_true h; omega
    · omega
  clear_value cp
  refine Run.next (Bd.rds _ _ _ _) (by omega) (fun src hs => ?_)
  have hs := rds_length hs
  refine Run.next (Bd.wrs _ _ _ _) (by rw [hs]; omega) (fun d2 _ => ?_)
  have hw : Bd (T.wrs a d2 cp (List.replicate (n - cp) 0#8)) (4 + 2 * n - 1 - max 1 cp - max 1 src.length) :=
    Bd.mono (Bd.wrs _ _ _ _) (by rw [List.length_replicate, hs]; omega)
  exact ⟨hw, fun _ _ => ⟨trivial, hw⟩⟩

omit L in
theorem xorPads_bd (bs : Nat) (a b : List Byte) : Bd (Traced.xorPads bs a b) (5 * bs + 1) := by
  unfold Traced.xorPads
  refine Bd.mono (Bd.forN bs _ (b := 4) (fun i s => ?_)) (by omega)
  repeat bd1

theorem macSetKey_run (bs : Nat) (c : HmacCtx I) (hc : mem c.hash) (k : List Byte) (n : Nat) :
    Run (t.macSetKey bs c k n) (fun c => inv c.hash) (fun c => φ c.hash) (240 + (9 + K) * bs) := by
  unfold Traced.macSetKey
  rw [Nat.add_mul]
  refine Run.next (arrcpy_bd _ _ _ _ _) (by omega) (fun ip _ => ?_)
  refine Run.next (arrcpy_bd _ _ _ _ _) (by omega) (fun op _ => ?_)
  refine Run.next (xorPads_bd _ _ _) (by omega) (fun p _ => ?_)
  refine init_then L _ hc (K * bs + 11) _ (by omega) (fun h hh => ?_)
  exact update_then L h hh p.1 bs 0 _ (by omega) (fun e he => Run.done _ he (by dsimp only; omega))

theorem macUpdate_run (c : HmacCtx I) (hc : inv c.hash) (x : List Byte) (n : Nat) :
    Run (t.macUpdate c (some x) n) (fun c => inv c.hash) (fun c => φ c.hash) (φ c.hash + (K * n + 11)) := by
  unfold Traced.macUpdate
  exact update_then L _ hc x n 0 _ (by omega) (fun e he => Run.done _ he (by dsimp only; omega))

theorem encode2_run (g : I.Ctx) (hg : mem g) (o x y : List Byte) (n m : Nat) :
    Bd (t.encodeMultiple g o [(some x, n), (some y, m)]) (250 + K * n + K * m + D) := by
  unfold Traced.encodeMultiple
  refine Run.toBd (P := fun _ => True) (φ := fun _ => 0) ?_
  refine init_then L g hg (32 + K * n + K * m + D) _ (by omega) (fun c hc => ?_)
  refine Run.seq (P := inv) (ψ := fun c => φ c + D) ?_ (fun c hc => ?_)
  · rw [Traced.encodeMultipleLoop]
    refine Run.next (Bd.br _) (by omega) (fun _ _ => ?_)
    refine Run.next (Bd.br _) (by omega) (fun _ _ => ?_)
    refine update_then L c hc x n (16 + K * m + D) _ (by omega) (fun c hc => ?_)
    rw [Traced.encodeMultipleLoop]
    refine Run.next (Bd.br _) (by omega) (fun _ _ => ?_)
    refine Run.next (Bd.br _) (by omega) (fun _ _ => ?_)
    refine update_then L c hc y m (2 + D) _ (by omega) (fun c hc => ?_)
    rw [Traced.encodeMultipleLoop]
    refine Run.next (Bd.br _) (by omega) (fun _ _ => ?_)
    exact Run.done _ hc (by omega)
  · exact digest_then L c hc o 0 _ (by omega) (fun e he => Run.done _ trivial (by omega))

theorem macDigest_run (bs ds : Nat) (mid : List Byte) (g : I.Ctx) (hg : mem g) (c : HmacCtx I) (hc : inv c.hash) (o : List Byte) :
    Run (t.macDigest bs ds mid g c o) (fun r => inv r.1.hash) (fun r => φ r.1.hash) (φ c.hash + (250 + K * bs + K * ds + 2 * D)) := by
  unfold Traced.macDigest
  refine digest_then L _ hc mid (250 + K * bs + K * ds + D) _ (by omega) (fun r hr => ?_)
  refine Run.next (encode2_run L g hg o _ _ bs ds) (by omega) (fun out _ => ?_)
  exact Run.done _ hr (by dsimp only; omega)

theorem macOneShot_bd (bs ds : Nat) (g : HmacCtx.Mem I) (h1 : mem g.ctx.hash) (h2 : mem g.inner) (k : List Byte) (kl : Nat) (x : List Byte) (n : Nat)
    (o : List Byte) : Bd (t.macOneShot bs ds g k kl x n o) (733 + 11 * bs + 3 * (K * bs) + K * ds + 2 * D + K * n) := by
  unfold Traced.macOneShot
  refine Run.toBd (P := fun _ => True) (φ := fun _ => 0) ?_
  have hi := macInit_run L bs g.ctx h1
  rw [Nat.add_mul] at hi
  refine Run.seq (P := fun c => inv c.hash) (ψ := fun c => 501 + 9 * bs + 2 * (K * bs) + K * ds + 2 * D + K * n) ?_ (fun c hc => ?_)
  · refine ⟨Nat.le_trans hi.1 (by omega), fun a ha => ⟨(hi.2 a ha).1, ?_⟩⟩
    have := (hi.2 a ha).2
    try dsimp only at this ⊢
    omega
  have hs := macSetKey_run L bs c (L.again _ hc) k kl
  rw [Nat.add_mul] at hs
  refine Run.seq (P := fun c => inv c.hash) (ψ := fun c => φ c.hash + (261 + (K * bs) + K * ds + 2 * D + K * n)) ?_ (fun c hc => ?_)
  · refine ⟨Nat.le_trans hs.1 (by omega), fun a ha => ⟨(hs.2 a ha).1, ?_⟩⟩
    have := (hs.2 a ha).2
    try dsimp only at this ⊢
    omega
  have hu := macUpdate_run L c hc x n
  refine Run.seq (P := fun c => inv c.hash) (ψ := fun c => φ c.hash + (250 + (K * bs) + K * ds + 2 * D)) ?_ (fun c hc => ?_)
  · refine ⟨Nat.le_trans hu.1 (by omega), fun a ha => ⟨(hu.2 a ha).1, ?_⟩⟩
    have := (hu.2 a ha).2
    try dsimp only at this ⊢
    omega
  have hd := macDigest_run L bs ds g.mid g.inner h2 c hc o
  refine Run.seq (P := fun _ => True) (ψ := fun _ => 0) ?_ (fun c hc => Run.done _ trivial (by omega))
  refine ⟨Nat.le_trans hd.1 (by omega), fun a ha => ⟨trivial, ?_⟩⟩
  have := (hd.2 a ha).2
  try dsimp only at this ⊢
  omega

/-- The steps of one call on an HMAC context besides those for its message. -/
theorem macCalls_bd (bs ds M : Nat) (hM1 : 240 + (9 + K) * bs ≤ M) (hM2 : 250 + K * bs + K * ds + 2 * D ≤ M) :
    ∀ (l : List (HmacCtx.Call I)), (∀ mid g o, HmacCtx.Call.digest mid g o ∈ l → mem g) → ∀ (c : HmacCtx I), inv c.hash →
    Bd (t.macCalls bs ds c l) (φ c.hash + (K * macFed l + M * l.length)) := by
  intro l
  induction l with
  | nil => intro _ c _; exact Bd.done _ _
  | cons x l ih =>
    intro hm c hc
    have ih := ih (fun mid g o h => hm mid g o (List.mem_cons_of_mem _ h))
    have hrun : ∀ e : HmacCtx I, inv e.hash → Run (t.macCalls bs ds e l) (fun _ => True) (fun _ => 0) (φ e.hash + (K * macFed l + M * l.length)) :=
      fun e he => ⟨ih e he, fun _ _ => ⟨trivial, ih e he⟩⟩
    have step : ∀ (m : T (HmacCtx I)) (B : Nat), Run m (fun c => inv c.hash) (fun c => φ c.hash) B →
        Bd (m >>= fun e => t.macCalls bs ds e l) (B + (K * macFed l + M * l.length)) := by
      intro m B h
      refine Run.toBd (P := fun _ => True) (φ := fun _ => 0) (Run.seq (P := fun c => inv c.hash) (ψ := fun e => φ e.hash + (K * macFed l + M * l.length)) ?_ hrun)
      refine ⟨Nat.le_trans h.1 (by omega), fun a ha => ⟨(h.2 a ha).1, ?_⟩⟩
      have := (h.2 a ha).2
      try dsimp only at this ⊢
      omega
    rw [List.length_cons, Nat.mul_succ]
    cases x with
    | init =>
      rw [Traced.macCalls, macFed]
      · refine Bd.mono (step _ _ (macInit_run L bs c (L.again _ hc))) ?_
        rw [Nat.add_mul] at hM1 ⊢
        omega
      · intro x h; cases h
    | setKey k =>
      rw [Traced.macCalls, macFed]
      · refine Bd.mono (step _ _ (macSetKey_run L bs c (L.again _ hc) k k.length)) ?_
        omega
      · intro x h; cases h
    | update x =>
      rw [Traced.macCalls, macFed, Nat.mul_add]
      refine Bd.mono (step _ _ (macUpdate_run L c hc x x.length)) ?_
      omega
    | digest mid g o =>
      rw [Traced.macCalls, macFed]
      · refine Run.toBd (P := fun _ => True) (φ := fun _ => 0)
          (Run.seq (P := fun r => inv r.1.hash) (ψ := fun e => φ e.1.hash + (K * macFed l + M * l.length)) ?_ (fun e he => hrun e.1 he))
        have h := macDigest_run L bs ds mid g (hm mid g o (List.mem_cons_self ..)) c hc o
        refine ⟨Nat.le_trans h.1 (by omega), fun a ha => ⟨(h.2 a ha).1, ?_⟩⟩
        have := (h.2 a ha).2
        try dsimp only at this ⊢
        omega
      · intro x h; cases h

theorem macFirst_bd (bs ds M : Nat) (hM1 : 240 + (9 + K) * bs ≤ M) (hM2 : 250 + K * bs + K * ds + 2 * D ≤ M)
    (first : HmacCtx.Call I) (hf : first = .init ∨ ∃ k, first = .setKey k)
    (l : List (HmacCtx.Call I)) (hm : ∀ mid g o, HmacCtx.Call.digest mid g o ∈ l → mem g) (c : HmacCtx I) (hc : mem c.hash) :
    Bd (t.macCalls bs ds c (first :: l)) (K * macFed l + M * (l.length + 1)) := by
  have hrun : ∀ e : HmacCtx I, inv e.hash → Run (t.macCalls bs ds e l) (fun _ => True) (fun _ => 0) (φ e.hash + (K * macFed l + M * l.length)) :=
    fun e he => ⟨macCalls_bd L bs ds M hM1 hM2 l hm e he, fun _ _ => ⟨trivial, macCalls_bd L bs ds M hM1 hM2 l hm e he⟩⟩
  have step : ∀ (m : T (HmacCtx I)) (B : Nat), Run m (fun c => inv c.hash) (fun c => φ c.hash) B →
      Bd (m >>= fun e => t.macCalls bs ds e l) (B + (K * macFed l + M * l.length)) := by
    intro m B h
    refine Run.toBd (P := fun _ => True) (φ := fun _ => 0) (Run.seq (P := fun c => inv c.hash) (ψ := fun e => φ e.hash + (K * macFed l + M * l.length)) ?_ hrun)
    refine ⟨Nat.le_trans h.1 (by omega), fun a ha => ⟨(h.2 a ha).1, ?_⟩⟩
    have := (h.2 a ha).2
    try dsimp only at this ⊢
    omega
  rw [Nat.mul_succ]
  rcases hf with rfl | ⟨k, rfl⟩
  · rw [Traced.macCalls]
    refine Bd.mono (step _ _ (macInit_run L bs c hc)) ?_
    rw [Nat.add_mul] at hM1 ⊢
    omega
  · rw [Traced.macCalls]
    exact Bd.mono (step _ _ (macSetKey_run L bs c hc k k.length)) (by omega)
end

end Pgfe.Proofs.Work
