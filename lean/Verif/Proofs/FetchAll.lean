import Verif.Proofs.FetchKeccak
import Verif.Proofs.WorkOther
/-!
# Reads of the input: all algorithms, HMAC, Blowfish
-/
namespace Pgfe.Proofs.Fetch
open Pgfe.Model Pgfe.Spec
open Pgfe.Proofs.Trace (res_bind)
open Pgfe.Proofs.Work

/-- What the functions of an implementation do with the caller's arrays; `cnt c n`: `n` bytes have been fed. -/
structure Fetches {I : HashImpl} (t : Traced I) (inv : I.Ctx → Prop) (cnt : I.Ctx → Nat → Prop) : Prop where
  init : ∀ g c, (t.init g).res = .ok c → cnt c 0
  initKey : ∀ g, Quiet .key (t.init g)
  update : ∀ c x, inv c → Adv x.length (t.update c (some x) x.length) 0
    (fun c' e => ∀ n, cnt c n → n + x.length < 2 ^ 61 → e = x.length ∧ cnt c' (n + x.length))
  updateKey : ∀ c x n, Quiet .key (t.update c (some x) n)

theorem md5_fetches (bits : Nat) : Fetches (Alg.traced .MD5 bits) (fun _ => True) (fun _ _ => True) where
  init := fun _ _ _ => trivial
  initKey := fun g => Quiet.seq (Quiet.wrs (by decide) _ _ _) (fun _ _ => Quiet.ret _)
  update := fun c x _ => Adv.mono (md5Update_adv c x) (fun _ _ _ h _ _ _ => ⟨h, trivial⟩)
  updateKey := md5Update_key

theorem sha_fetches {w : Nat} (hw : 32 ≤ w) {p : ShaCtx w → T (ShaCtx w)} (hp : Inner p) (bs : Nat) (h0 : List (BitVec w))
    (dg : ShaCtx w → List Byte → T (ShaCtx w × List Byte))
    (fi : ShaCtx w → C (ShaCtx w)) (fu : ShaCtx w → Option (List Byte) → Nat → C (ShaCtx w))
    (fd : ShaCtx w → List Byte → C (ShaCtx w × List Byte)) :
    Fetches (I := ⟨ShaCtx w, fi, fu, fd⟩) ⟨Tr.shaInit h0, Tr.shaUpdate p bs, dg⟩ (Fit bs) (fun (c : ShaCtx w) n => bitCount c = 8 * n) where
  init := fun g c h => by
    have h : (Tr.shaInit h0 g).res = .ok c := h
    unfold Tr.shaInit at h
    obtain ⟨_, _, h⟩ := res_last h
    rw [← ok_pure h]
    unfold bitCount
    simp
  initKey := fun g => by
    show Quiet .key (Tr.shaInit h0 g)
    unfold Tr.shaInit
    exact Quiet.seq (Quiet.wrs (by decide) _ _ _) (fun _ _ => Quiet.ret _)
  update := fun c x _ => Adv.mono (shaUpdate_adv hp (by omega) c x) (fun c' e _ h n hn hl => by
    have h64 : 2 ^ (2 * 32) ≤ 2 ^ (2 * w) := Nat.pow_le_pow_right (by omega) (by omega)
    have e64 : 2 ^ (2 * 32) = 8 * 2 ^ 61 := by decide
    obtain ⟨h1, h2⟩ := h (by omega)
    exact ⟨h1, by omega⟩)
  updateKey := fun c x n => shaUpdate_key hp c x n

theorem keccak_fetches {r o : Nat} (hr : r < 1600) (hr64 : r % 64 = 0) (hr0 : 0 < r) (f : KeccakCtx → C KeccakCtx)
    (hf : ∀ g c, f g = .ok c → Bytes false c)
    (dg : KeccakCtx → List Byte → T (KeccakCtx × List Byte))
    (fi : KeccakCtx → C KeccakCtx) (fu : KeccakCtx → Option (List Byte) → Nat → C KeccakCtx)
    (fd : KeccakCtx → List Byte → C (KeccakCtx × List Byte)) :
    Fetches (I := ⟨KeccakCtx, fi, fu, fd⟩) ⟨Tr.keccakInit f, Tr.keccakUpdate, dg⟩ (KFit r o) (fun (c : KeccakCtx) _ => Bytes false c) where
  init := fun g c h => hf g c h
  initKey := fun _ => ⟨rfl, rfl⟩
  update := fun c x h => Adv.mono (keccakUpdate_adv (by omega) hr64 hr0 c x h) (fun _ _ _ h _ hn hl => h hn (by omega))
  updateKey := keccakUpdate_key

theorem sha3_bytes {r cap o : Nat} (hc : r = (1600 + 2 ^ 32 - cap) % 2 ^ 32) (hr : 0 < r ∧ r < 1600) (hr64 : r % 64 = 0) (g c : KeccakCtx)
    (h : sha3Init cap o g = .ok c) : Bytes false c := by
  unfold sha3Init keccakInit at h
  dsimp only at h
  rw [← hc, if_neg (by omega)] at h
  have h := Except.ok.inj h
  subst h
  exact ⟨rfl, rfl⟩

theorem shake_bytes {r cap : Nat} (hc : r = (1600 + 2 ^ 32 - cap) % 2 ^ 32) (hr : 0 < r ∧ r < 1600) (hr64 : r % 64 = 0) (g c : KeccakCtx)
    (h : shakeInit cap g = .ok c ∨ rawshakeInit cap g = .ok c) : Bytes false c := by
  rcases h with h | h
  · unfold shakeInit keccakInit at h
    dsimp only at h
    rw [← hc, if_neg (by omega)] at h
    have h := Except.ok.inj h
    subst h
    exact ⟨rfl, rfl⟩
  · unfold rawshakeInit keccakInit at h
    dsimp only at h
    rw [← hc, if_neg (by omega)] at h
    have h := Except.ok.inj h
    subst h
    exact ⟨rfl, rfl⟩

theorem exists_fetches (a : Alg) (bits : Nat) : ∃ (mem inv : (a.impl bits).Ctx → Prop) (φ : (a.impl bits).Ctx → Nat) (K D : Nat)
    (cnt : (a.impl bits).Ctx → Nat → Prop),
    Linear (a.traced bits) mem inv φ K D ∧ (∀ g, memOK a bits g → mem g) ∧ Fetches (a.traced bits) inv cnt := by
  cases a with
  | MD5 => exact ⟨_, _, _, _, _, _, md5_linear bits, fun _ _ => trivial, md5_fetches bits⟩
  | SHA1 =>
    exact ⟨_, _, _, _, _, _, sha_linear (q := 12) sha1_proc (by omega) sha1H0 (.inr rfl) Tr.sha1Digest (fun c o h => sha1Digest_run c o h) _ _ _,
      fun _ h => h.2, sha_fetches (by decide) sha1_inner _ _ _ _ _ _⟩
  | SHA224 =>
    exact ⟨_, _, _, _, _, _, sha_linear (q := 10) sha256_proc (by omega) sha224H0 (.inl rfl) (Tr.sha224n256Digest 28)
      (fun c o h => sha224n256Digest_run 28 c o h) _ _ _, fun _ h => h.2, sha_fetches (by decide) sha256_inner _ _ _ _ _ _⟩
  | SHA256 =>
    exact ⟨_, _, _, _, _, _, sha_linear (q := 10) sha256_proc (by omega) sha256H0 (.inl rfl) (Tr.sha224n256Digest 32)
      (fun c o h => sha224n256Digest_run 32 c o h) _ _ _, fun _ h => h.2, sha_fetches (by decide) sha256_inner _ _ _ _ _ _⟩
  | SHA384 =>
    exact ⟨_, _, _, _, _, _, sha_linear (q := 9) sha512_proc (by omega) (words64 sha384H0) (.inl rfl) (Tr.sha384n512Digest 48)
      (fun c o h => sha384n512Digest_run 48 c o h) _ _ _, fun _ h => h.2, sha_fetches (by decide) sha512_inner _ _ _ _ _ _⟩
  | SHA512 =>
    exact ⟨_, _, _, _, _, _, sha_linear (q := 9) sha512_proc (by omega) (words64 sha512H0) (.inl rfl) (Tr.sha384n512Digest 64)
      (fun c o h => sha384n512Digest_run 64 c o h) _ _ _, fun _ h => h.2, sha_fetches (by decide) sha512_inner _ _ _ _ _ _⟩
  | SHA512_224 =>
    exact ⟨_, _, _, _, _, _, sha_linear (q := 9) sha512_proc (by omega) (words64 sha512H0_224) (.inl rfl) (Tr.sha384n512Digest 28)
      (fun c o h => sha384n512Digest_run 28 c o h) _ _ _, fun _ h => h.2, sha_fetches (by decide) sha512_inner _ _ _ _ _ _⟩
  | SHA512_256 =>
    exact ⟨_, _, _, _, _, _, sha_linear (q := 9) sha512_proc (by omega) (words64 sha512H0_256) (.inl rfl) (Tr.sha384n512Digest 32)
      (fun c o h => sha384n512Digest_run 32 c o h) _ _ _, fun _ h => h.2, sha_fetches (by decide) sha512_inner _ _ _ _ _ _⟩
  | SHA3_224 =>
    exact ⟨_, _, _, _, _, _, sha3_linear (r := 1152) (Q := 11) (cap := 448) (o := 224) (by decide) (by decide) (by decide) (by decide) (by decide) _ _ _,
      fun _ _ => trivial, keccak_fetches (by decide) (by decide) (by decide) _ (fun g c h => sha3_bytes (r := 1152) (by decide) (by decide) (by decide) g c h) _ _ _ _⟩
  | SHA3_256 =>
    exact ⟨_, _, _, _, _, _, sha3_linear (r := 1088) (Q := 11) (cap := 512) (o := 256) (by decide) (by decide) (by decide) (by decide) (by decide) _ _ _,
      fun _ _ => trivial, keccak_fetches (by decide) (by decide) (by decide) _ (fun g c h => sha3_bytes (r := 1088) (by decide) (by decide) (by decide) g c h) _ _ _ _⟩
  | SHA3_384 =>
    exact ⟨_, _, _, _, _, _, sha3_linear (r := 832) (Q := 15) (cap := 768) (o := 384) (by decide) (by decide) (by decide) (by decide) (by decide) _ _ _,
      fun _ _ => trivial, keccak_fetches (by decide) (by decide) (by decide) _ (fun g c h => sha3_bytes (r := 832) (by decide) (by decide) (by decide) g c h) _ _ _ _⟩
  | SHA3_512 =>
    exact ⟨_, _, _, _, _, _, sha3_linear (r := 576) (Q := 21) (cap := 1024) (o := 512) (by decide) (by decide) (by decide) (by decide) (by decide) _ _ _,
      fun _ _ => trivial, keccak_fetches (by decide) (by decide) (by decide) _ (fun g c h => sha3_bytes (r := 576) (by decide) (by decide) (by decide) g c h) _ _ _ _⟩
  | RawSHAKE128 =>
    exact ⟨_, _, _, _, _, _, shake_linear (r := 1344) (Q := 9) (cap := 256) bits (by decide) (by decide) (by decide) (by decide) (by decide) _ (.inr rfl) _ _ _,
      fun _ _ => trivial, keccak_fetches (by decide) (by decide) (by decide) _ (fun g c h => shake_bytes (r := 1344) (by decide) (by decide) (by decide) g c (.inr h)) _ _ _ _⟩
  | SHAKE128 =>
    exact ⟨_, _, _, _, _, _, shake_linear (r := 1344) (Q := 9) (cap := 256) bits (by decide) (by decide) (by decide) (by decide) (by decide) _ (.inl rfl) _ _ _,
      fun _ _ => trivial, keccak_fetches (by decide) (by decide) (by decide) _ (fun g c h => shake_bytes (r := 1344) (by decide) (by decide) (by decide) g c (.inl h)) _ _ _ _⟩
  | RawSHAKE256 =>
    exact ⟨_, _, _, _, _, _, shake_linear (r := 1088) (Q := 11) (cap := 512) bits (by decide) (by decide) (by decide) (by decide) (by decide) _ (.inr rfl) _ _ _,
      fun _ _ => trivial, keccak_fetches (by decide) (by decide) (by decide) _ (fun g c h => shake_bytes (r := 1088) (by decide) (by decide) (by decide) g c (.inr h)) _ _ _ _⟩
  | SHAKE256 =>
    exact ⟨_, _, _, _, _, _, shake_linear (r := 1088) (Q := 11) (cap := 512) bits (by decide) (by decide) (by decide) (by decide) (by decide) _ (.inl rfl) _ _ _,
      fun _ _ => trivial, keccak_fetches (by decide) (by decide) (by decide) _ (fun g c h => shake_bytes (r := 1088) (by decide) (by decide) (by decide) g c (.inl h)) _ _ _ _⟩

section
variable {I : HashImpl} {t : Traced I} {mem inv : I.Ctx → Prop} {φ : I.Ctx → Nat} {K D : Nat} (L : Linear t mem inv φ K D)
  {cnt : I.Ctx → Nat → Prop} (F : Fetches t inv cnt)
include L

theorem calls_inv : ∀ (l : List HashImpl.Call) (c : I.Ctx) (r : I.Ctx × List (List Byte)), inv c → (t.calls c l).res = .ok r → inv r.1 := by
  intro l
  induction l with
  | nil => intro c r hc h; rw [← ok_pure (show (pure (c, []) : T _).res = .ok r from h)]; exact hc
  | cons x l ih =>
    intro c r hc h
    cases x with
    | update x =>
      rw [Traced.calls] at h
      obtain ⟨c', h1, h⟩ := res_last h
      exact ih c' r ((L.update c x x.length hc).2 c' h1).1 h
    | digest o =>
      rw [Traced.calls] at h
      obtain ⟨c', h1, h⟩ := res_last h
      obtain ⟨s, h2, h⟩ := res_last h
      rw [← ok_pure h]
      exact ih c'.1 s ((L.digest c o hc).2 c' h1).1 h2

include F

theorem calls_cnt : ∀ (l : List HashImpl.Call) (c : I.Ctx) (r : I.Ctx × List (List Byte)) (n : Nat), inv c → cnt c n →
    digests l = 0 → n + fed l < 2 ^ 61 → (t.calls c l).res = .ok r → cnt r.1 (n + fed l) := by
  intro l
  induction l with
  | nil => intro c r n _ hn _ _ h; rw [← ok_pure (show (pure (c, []) : T _).res = .ok r from h)]; exact hn
  | cons x l ih =>
    intro c r n hc hn hd hl h
    cases x with
    | update x =>
      rw [Traced.calls] at h
      rw [digests] at hd
      rw [fed] at hl ⊢
      obtain ⟨c', h1, h⟩ := res_last h
      obtain ⟨-, e, -, -, -, h2⟩ := F.update c x hc
      rw [← Nat.add_assoc]
      exact ih c' r _ ((L.update c x x.length hc).2 c' h1).1 (h2 c' h1 n hn (by omega)).2 hd (by omega) h
    | digest o => rw [digests] at hd; omega
end

theorem bfF_q {b : Arr} (hb : Foreign b) (c : BfCtx) (x : W32) : Quiet b (Tr.Bf.F c x) := by
  have h : ∀ i j, Quiet b (Tr.Bf.rdS c i j) := fun i j => ⟨by
    have : Arr.bfS ≠ b := Foreign.ne hb (by decide)
    simp [Tr.Bf.rdS, fetched, this], rfl⟩
  unfold Tr.Bf.F
  repeat first | with_reducible exact h _ _ | qt

theorem bfRound_q {b : Arr} (hb : Foreign b) (c : BfCtx) (i : Nat) (u : BfUnit) : Quiet b (Tr.Bf.round c i u) := by
  unfold Tr.Bf.round
  repeat first | with_reducible exact bfF_q hb _ _ | qt

theorem bfUnit_q {b : Arr} (hb : Foreign b) (c : BfCtx) (u : BfUnit) : Quiet b (Tr.Bf.encryptUnit c u) ∧ Quiet b (Tr.Bf.decryptUnit c u) := by
  unfold Tr.Bf.encryptUnit Tr.Bf.decryptUnit
  constructor <;> (repeat first | with_reducible exact bfRound_q hb _ _ _ | qt)

theorem bfGeneric_adv {f : BfUnit → T BfUnit} (hf : ∀ u, Quiet .input (f u)) (unp x out : List Byte) :
    Adv x.length (Tr.Bf.generic f unp x x.length out) 0 (fun _ e => e = x.length) := by
  have hb : Foreign .input := .inl rfl
  have h1 : ∀ u, Quiet .input (Tr.Bf.onBytes f u) := fun u => Quiet.seq (hf _) (fun _ _ => Quiet.ret _)
  have h2 : ∀ u o n, Quiet .input (Tr.Bf.copyOut u o n) := by
    intro u o n
    unfold Tr.Bf.copyOut
    repeat qt
  unfold Tr.Bf.generic
  refine Adv.seq (Adv.forN (I := fun k (_ : List Byte × List Byte) e => e = k) x.length (fun j s e hj le he => ?_) _ (by omega) rfl) (fun s e le he => ?_)
  · subst he
    refine Adv.seq (Adv.rd x hj) (fun v e' le' ⟨_, he'⟩ => ?_)
    subst he'
    refine Adv.next (Quiet.wr (by decide) _ _ _) le' (fun u _ => ?_)
    refine Adv.next (Quiet.br _) le' (fun full _ => ?_)
    cases full with
    | true =>
      rw [if_pos rfl]
      refine Adv.next (h1 _) le' (fun u _ => ?_)
      refine Adv.next (h2 _ _ _) le' (fun o _ => ?_)
      exact Adv.done _ le' rfl
    | false =>
      rw [if_neg (by decide)]
      exact Adv.done _ le' rfl
  · refine Adv.next (Quiet.br _) le (fun rest _ => ?_)
    cases rest with
    | true =>
      rw [if_pos rfl]
      refine Adv.next (Quiet.wrs (by decide) _ _ _) le (fun u _ => ?_)
      refine Adv.next (h1 _) le (fun u _ => ?_)
      refine Adv.next (h2 _ _ _) le (fun o _ => ?_)
      exact Adv.done _ le he
    | false =>
      rw [if_neg (by decide)]
      exact Adv.done _ le he

theorem bfOp_adv (c : BfCtx) (o : Tr.Bf.Op) : Adv o.input.length (Tr.Bf.op c o) 0 (fun _ e => e = o.input.length) := by
  unfold Tr.Bf.op
  split
  · exact bfGeneric_adv (fun u => (bfUnit_q (.inl rfl) c u).1) _ _ _
  · exact bfGeneric_adv (fun u => (bfUnit_q (.inl rfl) c u).2) _ _ _

theorem fetched_bind {α β : Type} (b : Arr) {m : T α} {k : α → T β} {r : β} (h : (m >>= k).res = .ok r) :
    ∃ a, m.res = .ok a ∧ (k a).res = .ok r ∧ fetched b (m >>= k).tr = fetched b m.tr ++ fetched b (k a).tr := by
  rcases bind_tr m k with ⟨e, h1, h2, h3⟩ | ⟨a, h1, h2, h3⟩
  · rw [h3] at h; cases h
  · exact ⟨a, h1, by rw [← h3]; exact h, by rw [h2, fetched_append]⟩

theorem arrcpy_key {a : Arr} (ha : a ≠ .key) (d : List Byte) (n : Nat) (s : List Byte) (m : Nat) (r : List Byte)
    (h : (Traced.arrcpy a d n s m).res = .ok r) : fetched .key (Traced.arrcpy a d n s m).tr = List.range (min n m) := by
  unfold Traced.arrcpy at h ⊢
  obtain ⟨lg, h1, h, e1⟩ := fetched_bind .key h
  have h1 := br_ok h1
  obtain ⟨src, h2, h, e2⟩ := fetched_bind .key h
  obtain ⟨d2, h3, h, e3⟩ := fetched_bind .key h
  rw [e1, e2, e3, (Quiet.wrs ha _ _ _).1, (Quiet.wrs ha _ _ _).1, (Quiet.br _).1]
  have hm : (if lg = true then m else n) = min n m := by
    rw [h1]
    by_cases hc : n > m
    · simp [hc]; omega
    · simp [hc]; omega
  rw [hm]
  simp [T.rds, fetched, List.range_eq_range']

theorem setKey_key {I : HashImpl} {t : Traced I} {inv : I.Ctx → Prop} {cnt : I.Ctx → Nat → Prop} (F : Fetches t inv cnt) (bs : Nat)
    (c : HmacCtx I) (k : List Byte) (n : Nat) (r : HmacCtx I) (h : (t.macSetKey bs c k n).res = .ok r) :
    fetched .key (t.macSetKey bs c k n).tr = List.range (min bs n) ++ List.range (min bs n) := by
  unfold Traced.macSetKey at h ⊢
  obtain ⟨ip, h1, h, e1⟩ := fetched_bind .key h
  obtain ⟨op, h2, h, e2⟩ := fetched_bind .key h
  obtain ⟨p, h3, h, e3⟩ := fetched_bind .key h
  obtain ⟨c1, h4, h, e4⟩ := fetched_bind .key h
  obtain ⟨c2, h5, h, e5⟩ := fetched_bind .key h
  have hx : Quiet .key (Traced.xorPads bs ip op) := by
    unfold Traced.xorPads
    repeat qt
  rw [e1, e2, e3, e4, e5, arrcpy_key (by decide) _ _ _ _ _ h1, arrcpy_key (by decide) _ _ _ _ _ h2, hx.1, (F.initKey _).1,
    (F.updateKey _ _ _).1, (Quiet.ret _).1]
  simp

section
variable {I : HashImpl} {t : Traced I} {mem inv : I.Ctx → Prop} {φ : I.Ctx → Nat} {K D : Nat} (L : Linear t mem inv φ K D)
  {cnt : I.Ctx → Nat → Prop} (F : Fetches t inv cnt)
include L

theorem macCalls_inv (bs ds : Nat) : ∀ (l : List (HmacCtx.Call I)), (∀ mid g o, HmacCtx.Call.digest mid g o ∈ l → mem g) →
    ∀ (c r : HmacCtx I), inv c.hash → (t.macCalls bs ds c l).res = .ok r → inv r.hash := by
  intro l
  induction l with
  | nil => intro _ c r hc h; rw [← ok_pure (show (pure c : T _).res = .ok r from h)]; exact hc
  | cons x l ih =>
    intro hm c r hc h
    have ih := ih (fun mid g o h => hm mid g o (List.mem_cons_of_mem _ h))
    cases x with
    | init =>
      rw [Traced.macCalls] at h
      obtain ⟨c', h1, h⟩ := res_last h
      exact ih c' r ((macInit_run L bs c (L.again _ hc)).2 c' h1).1 h
    | setKey k =>
      rw [Traced.macCalls] at h
      obtain ⟨c', h1, h⟩ := res_last h
      exact ih c' r ((macSetKey_run L bs c (L.again _ hc) k k.length).2 c' h1).1 h
    | update x =>
      rw [Traced.macCalls] at h
      obtain ⟨c', h1, h⟩ := res_last h
      exact ih c' r ((macUpdate_run L c hc x x.length).2 c' h1).1 h
    | digest mid g o =>
      rw [Traced.macCalls] at h
      obtain ⟨c', h1, h⟩ := res_last h
      exact ih c'.1 r ((macDigest_run L bs ds mid g (hm mid g o (List.mem_cons_self ..)) c hc o).2 c' h1).1 h

theorem macFirst_inv (bs ds : Nat) (first : HmacCtx.Call I) (hf : first = .init ∨ ∃ k, first = .setKey k)
    (l : List (HmacCtx.Call I)) (hm : ∀ mid g o, HmacCtx.Call.digest mid g o ∈ l → mem g) (c r : HmacCtx I) (hc : mem c.hash)
    (h : (t.macCalls bs ds c (first :: l)).res = .ok r) : inv r.hash := by
  rcases hf with rfl | ⟨k, rfl⟩
  · rw [Traced.macCalls] at h
    obtain ⟨c', h1, h⟩ := res_last h
    exact macCalls_inv L bs ds l hm c' r ((macInit_run L bs c hc).2 c' h1).1 h
  · rw [Traced.macCalls] at h
    obtain ⟨c', h1, h⟩ := res_last h
    exact macCalls_inv L bs ds l hm c' r ((macSetKey_run L bs c hc k k.length).2 c' h1).1 h

include F

theorem macInit_cnt (bs : Nat) (hbs : bs < 2 ^ 61) (c r : HmacCtx I) (hc : mem c.hash) (hi : c.kIPad.length = bs) (h : (t.macInit bs c).res = .ok r) :
    cnt r.hash bs := by
  unfold Traced.macInit at h
  obtain ⟨c1, h1, h⟩ := res_last h
  obtain ⟨ip, h2, h⟩ := res_last h
  obtain ⟨op, h3, h⟩ := res_last h
  obtain ⟨c2, h4, h⟩ := res_last h
  rw [← ok_pure h]
  have hl : ip.length = bs := by rw [(wrs_length h2).1, hi]
  obtain ⟨-, e, -, -, -, h5⟩ := F.update c1 ip ((L.init _ hc).2 c1 h1).1
  rw [hl] at h5
  have := (h5 c2 h4 0 (F.init _ c1 h1) (by omega)).2
  rw [Nat.zero_add] at this
  exact this

omit L in
theorem macUpdate_adv (c : HmacCtx I) (hc : inv c.hash) (x : List Byte) :
    Adv x.length (t.macUpdate c (some x) x.length) 0
      (fun c' e => ∀ n, cnt c.hash n → n + x.length < 2 ^ 61 → e = x.length ∧ cnt c'.hash (n + x.length)) := by
  unfold Traced.macUpdate
  exact Adv.seq (F.update c.hash x hc) (fun h e le hP => Adv.done _ le hP)

omit L F in
theorem arrcpy_length {a : Arr} {d : List Byte} {n : Nat} {s : List Byte} {m : Nat} {r : List Byte} (h : (Traced.arrcpy a d n s m).res = .ok r) :
    r.length = d.length := by
  unfold Traced.arrcpy at h
  obtain ⟨_, _, h⟩ := res_last h
  obtain ⟨_, _, h⟩ := res_last h
  obtain ⟨d2, h3, h⟩ := res_last h
  rw [(wrs_length h).1, (wrs_length h3).1]

omit L F in
theorem iter_inv {σ : Type} {f : Nat → σ → T σ} {P : σ → Prop} (hf : ∀ i s s', P s → (f i s).res = .ok s' → P s') :
    ∀ (n : Nat) (s r : σ), P s → (T.iter n f s).res = .ok r → P r := by
  intro n
  induction n with
  | zero => intro s r hs h; rw [← ok_pure (show (pure s : T _).res = .ok r from h)]; exact hs
  | succ n ih =>
    intro s r hs h
    rw [T.iter] at h
    obtain ⟨s', h1, h⟩ := res_last h
    exact hf n s' r (ih s s' hs h1) h

omit L F in
theorem xorPads_length {bs : Nat} {i o : List Byte} {r : List Byte × List Byte} (h : (Traced.xorPads bs i o).res = .ok r) :
    r.1.length = i.length := by
  unfold Traced.xorPads T.forN at h
  obtain ⟨s, h1, h⟩ := res_last h
  obtain ⟨_, _, h⟩ := res_last h
  rw [← ok_pure h]
  refine iter_inv (P := fun s => s.1.length = i.length) (fun k s s' hs hk => ?_) bs (i, o) s rfl h1
  obtain ⟨_, _, hk⟩ := res_last hk
  obtain ⟨_, _, hk⟩ := res_last hk
  obtain ⟨p1, hp, hk⟩ := res_last hk
  obtain ⟨_, _, hk⟩ := res_last hk
  obtain ⟨_, _, hk⟩ := res_last hk
  rw [← ok_pure hk]
  dsimp only
  rw [(wr_length hp).1, hs]

theorem macSetKey_cnt (bs : Nat) (hbs : bs < 2 ^ 61) (c r : HmacCtx I) (hc : mem c.hash) (hi : c.kIPad.length = bs) (k : List Byte) (m : Nat)
    (h : (t.macSetKey bs c k m).res = .ok r) : cnt r.hash bs := by
  unfold Traced.macSetKey at h
  obtain ⟨ip, h1, h⟩ := res_last h
  obtain ⟨op, h2, h⟩ := res_last h
  obtain ⟨p, h3, h⟩ := res_last h
  obtain ⟨c1, h4, h⟩ := res_last h
  obtain ⟨c2, h5, h⟩ := res_last h
  rw [← ok_pure h]
  have hl : p.1.length = bs := by rw [xorPads_length h3, arrcpy_length h1, hi]
  obtain ⟨-, e, -, -, -, h6⟩ := F.update c1 p.1 ((L.init _ hc).2 c1 h4).1
  rw [hl] at h6
  have := (h6 c2 h5 0 (F.init _ c1 h4) (by omega)).2
  rw [Nat.zero_add] at this
  exact this

/-- Updates only. -/
theorem macUpdates_cnt (bs ds : Nat) : ∀ (l : List (HmacCtx.Call I)), (∀ y ∈ l, ∃ u, y = .update u) → ∀ (c r : HmacCtx I) (n : Nat), inv c.hash →
    cnt c.hash n → n + macFed l < 2 ^ 61 → (t.macCalls bs ds c l).res = .ok r → cnt r.hash (n + macFed l) := by
  intro l
  induction l with
  | nil => intro _ c r n _ hn _ h; rw [← ok_pure (show (pure c : T _).res = .ok r from h)]; exact hn
  | cons x l ih =>
    intro hl c r n hc hn hlt h
    obtain ⟨u, rfl⟩ := hl x (List.mem_cons_self ..)
    rw [Traced.macCalls] at h
    rw [macFed] at hlt ⊢
    obtain ⟨c', h1, h⟩ := res_last h
    obtain ⟨-, e, -, -, -, h2⟩ := macUpdate_adv F c hc u
    rw [← Nat.add_assoc]
    exact ih (fun y hy => hl y (List.mem_cons_of_mem _ hy)) c' r _ ((macUpdate_run L c hc u u.length).2 c' h1).1
      (h2 c' h1 n hn (by omega)).2 (by omega) h

theorem macFirst_cnt (bs ds : Nat) (hbs : bs < 2 ^ 61) (first : HmacCtx.Call I) (hf : first = .init ∨ ∃ k, first = .setKey k)
    (l : List (HmacCtx.Call I)) (hl : ∀ y ∈ l, ∃ u, y = .update u) (c r : HmacCtx I) (hc : mem c.hash) (hi : c.kIPad.length = bs)
    (hlt : bs + macFed l < 2 ^ 61) (h : (t.macCalls bs ds c (first :: l)).res = .ok r) : cnt r.hash (bs + macFed l) := by
  rcases hf with rfl | ⟨k, rfl⟩
  · rw [Traced.macCalls] at h
    obtain ⟨c', h1, h⟩ := res_last h
    exact macUpdates_cnt L F bs ds l hl c' r bs ((macInit_run L bs c hc).2 c' h1).1 (macInit_cnt L F bs hbs c c' hc hi h1) hlt h
  · rw [Traced.macCalls] at h
    obtain ⟨c', h1, h⟩ := res_last h
    exact macUpdates_cnt L F bs ds l hl c' r bs ((macSetKey_run L bs c hc k k.length).2 c' h1).1 (macSetKey_cnt L F bs hbs c c' hc hi k _ h1) hlt h
end

/-! ## The Blowfish key -/

/-- On success exactly the elements `l` of the key are read. -/
def Takes {α : Type} (m : T α) (l : List Nat) (P : α → Prop) : Prop := ∀ a, m.res = .ok a → fetched .key m.tr = l ∧ P a

namespace Takes
variable {α β σ : Type}
theorem seq {m : T α} {k : α → T β} {l l' : List Nat} {P : α → Prop} {Q : β → Prop} (h : Takes m l P) (g : ∀ a, P a → Takes (k a) l' Q) :
    Takes (m >>= k) (l ++ l') Q := by
  intro r hr
  obtain ⟨a, h1, h2, e⟩ := fetched_bind .key hr
  obtain ⟨h3, h4⟩ := h a h1
  obtain ⟨h5, h6⟩ := g a h4 r h2
  exact ⟨by rw [e, h3, h5], h6⟩
theorem next {m : T α} {k : α → T β} {l : List Nat} {Q : β → Prop} (h : Quiet .key m) (g : ∀ a, m.res = .ok a → Takes (k a) l Q) : Takes (m >>= k) l Q := by
  intro r hr
  obtain ⟨a, h1, h2, e⟩ := fetched_bind .key hr
  obtain ⟨h5, h6⟩ := g a h1 r h2
  exact ⟨by rw [e, h.1, h5]; rfl, h6⟩
theorem last {m : T α} {k : α → T β} {l : List Nat} {P : α → Prop} (h : Takes m l P) (g : ∀ a, P a → Quiet .key (k a)) : Takes (m >>= k) l (fun _ => True) := by
  have := seq (l' := []) (Q := fun _ => True) h (fun a ha => fun _ _ => ⟨(g a ha).1, trivial⟩)
  rw [List.append_nil] at this
  exact this
theorem done {P : α → Prop} (a : α) (h : P a) : Takes (pure a : T α) [] P := fun r hr => ⟨rfl, by rw [← ok_pure hr]; exact h⟩
theorem iter {f : Nat → σ → T σ} {I : Nat → σ → Prop} {g : Nat → List Nat} (n : Nat) (h : ∀ i s, i < n → I i s → Takes (f i s) (g i) (I (i + 1)))
    (s : σ) (h0 : I 0 s) : ∀ m, m ≤ n → Takes (T.iter m f s) ((List.range m).flatMap g) (I m) := by
  intro m
  induction m with
  | zero => intro _; exact done s h0
  | succ m ih =>
    intro hm
    rw [T.iter, List.range_succ, List.flatMap_append, List.flatMap_singleton]
    exact seq (ih (by omega)) (fun s' hs' => h m s' (by omega) hs')
theorem forN {f : Nat → σ → T σ} {I : Nat → σ → Prop} {g : Nat → List Nat} (n : Nat) (h : ∀ i s, i < n → I i s → Takes (f i s) (g i) (I (i + 1)))
    (s : σ) (h0 : I 0 s) : Takes (T.forN n f s) ((List.range n).flatMap g) (I n) := by
  unfold T.forN
  rw [← List.append_nil (List.flatMap _ _)]
  exact seq (iter n (fun i s hi hs => next (Quiet.br _) (fun _ _ => h i s hi hs)) s h0 n (Nat.le_refl _))
    (fun s' hs' => next (Quiet.br _) (fun _ _ => done _ hs'))
end Takes

theorem keyWord_takes (key : List Byte) (n i j : Nat) (h0 : 0 < n) (hi : i < 18) (hj : j = 4 * i % n) :
    Takes (Tr.Bf.keyWord key n j) ((List.range 4).flatMap (fun k => [(4 * i + k) % n])) (fun w => w.2 = (4 * i + 4) % n) := by
  unfold Tr.Bf.keyWord
  refine Takes.forN (I := fun k (s : W32 × Nat) => s.2 = (4 * i + k) % n) 4 (fun k s hk hs => ?_) _ hj
  have e : ∀ l : List Nat, l = l ++ [] := fun l => (List.append_nil l).symm
  rw [e [_]]
  refine Takes.seq (P := fun _ => True) (fun b _ => ⟨?_, trivial⟩) (fun b _ => ?_)
  · rw [← hs]
    simp [T.rd, fetched]
  · dsimp only
    rw [if_neg (by omega)]
    refine Takes.done _ ?_
    dsimp only
    have h1 : s.2 ≤ 4 * i + k := by rw [hs]; exact Nat.mod_le _ _
    rw [Nat.mod_eq_of_lt (show s.2 + 1 < 2 ^ 16 by omega), hs, ← Nat.add_assoc]
    exact Nat.mod_add_mod _ _ _

theorem bfKey_q (m : BfCtx) (u : BfUnit) : Quiet .key (Tr.Bf.pPhase m u) ∧ Quiet .key (Tr.Bf.sPhase m u) := by
  have h : ∀ c u, Quiet .key (Tr.Bf.encryptUnit c u) := fun c u => (bfUnit_q (.inr rfl) c u).1
  have hw : ∀ c i j v, Quiet .key (Tr.Bf.wrS c i j v) := fun c i j v => ⟨rfl, rfl⟩
  constructor
  · unfold Tr.Bf.pPhase
    repeat first | with_reducible exact h _ _ | qt
  · unfold Tr.Bf.sPhase
    repeat first | with_reducible exact h _ _ | with_reducible exact hw _ _ _ _ | qt

theorem keyPhase_takes (key : List Byte) (n : Nat) (h0 : 0 < n) (P : List W32) :
    Takes (Tr.Bf.keyPhase key n P) ((List.range 72).map (· % n)) (fun _ => True) := by
  have e : (List.range 72).map (· % n) = (List.range 18).flatMap (fun i => (List.range 4).flatMap (fun k => [(4 * i + k) % n])) := rfl
  rw [e]
  unfold Tr.Bf.keyPhase
  refine Takes.last (Takes.forN (I := fun i (s : List W32 × Nat) => s.2 = 4 * i % n) 18 (fun i s hi hs => ?_) _ (Nat.zero_mod n).symm) (fun _ _ => Quiet.ret _)
  have e : ∀ l : List Nat, l = l ++ [] := fun l => (List.append_nil l).symm
  rw [e (List.flatMap _ _)]
  refine Takes.seq (keyWord_takes key n i s.2 h0 hi hs) (fun w hw => ?_)
  refine Takes.next (Quiet.rd (by decide) _ _) (fun _ _ => ?_)
  refine Takes.next (Quiet.wr (by decide) _ _ _) (fun _ _ => ?_)
  exact Takes.done _ hw

theorem bfInit_takes (m : BfCtx) (key : List Byte) (n : Nat) (h0 : 0 < n) : Takes (Tr.Bf.init m key n) ((List.range 72).map (· % n)) (fun _ => True) := by
  unfold Tr.Bf.init
  refine Takes.next ⟨rfl, rfl⟩ (fun S _ => ?_)
  refine Takes.last (keyPhase_takes key n h0 _) (fun P _ => ?_)
  refine Quiet.seq (bfKey_q _ _).1 (fun s _ => ?_)
  exact Quiet.seq (bfKey_q _ _).2 (fun _ _ => Quiet.ret _)

end Pgfe.Proofs.Fetch
