import Verif.Proofs.TraceKeccak
import Verif.Proofs.Alg
import Verif.Spec.Trace
/-!
# Two runs with the same trace: all algorithms, HMAC
-/
namespace Pgfe.Proofs.Trace
open Pgfe.Model Pgfe.Spec

/-- The trace of `t` depends on memories only through `M`, on contexts only through `R`. -/
structure Blind {I : HashImpl} (t : Traced I) (M R : I.Ctx → I.Ctx → Prop) : Prop where
  init : ∀ g g', M g g' → Same R (t.init g) (t.init g')
  update : ∀ c c', R c c' → ∀ x x', L x x' → ∀ n, Same R (t.update c (some x) n) (t.update c' (some x') n)
  digest : ∀ c c', R c c' → ∀ o o', L o o' → Same (Both R) (t.digest c o) (t.digest c' o')
  mem : ∀ c c', R c c' → M c c'

/-- Two SHA contexts with arrays of the same sizes. -/
def ShaMem {w : Nat} (c c' : ShaCtx w) : Prop := L c.state c'.state ∧ L c.block c'.block

theorem blind_md5 : Blind (Alg.traced .MD5 0) (fun (c c' : Md5Ctx) => L c.state c'.state ∧ L c.block c'.block) Md5Like :=
  ⟨fun _ _ h => md5Init_same h.1 h.2, fun _ _ h _ _ hx n => md5Update_same hx n h, fun _ _ h _ _ ho => md5Digest_same h ho,
    fun _ _ h => ⟨h.state, h.block⟩⟩

theorem blind_sha {w : Nat} (h0 : List (BitVec w)) (p : ShaCtx w → T (ShaCtx w)) (hp : ProcOK p) (bs : Nat)
    (d : ShaCtx w → List Byte → T (ShaCtx w × List Byte))
    (hd : ∀ c c', ShaLike c c' → ∀ o o', L o o' → Same (Both ShaLike) (d c o) (d c' o'))
    (i : ShaCtx w → C (ShaCtx w)) (u : ShaCtx w → Option (List Byte) → Nat → C (ShaCtx w))
    (g : ShaCtx w → List Byte → C (ShaCtx w × List Byte)) :
    Blind (I := ⟨ShaCtx w, i, u, g⟩) ⟨Tr.shaInit h0, Tr.shaUpdate p bs, d⟩ ShaMem ShaLike :=
  ⟨fun _ _ h => shaInit_same h0 h.1 h.2, fun _ _ h _ _ hx n => shaUpdate_same hp bs n hx h, hd,
    fun _ _ h => ⟨h.state, h.block⟩⟩

theorem keccakInit_const (cap : Nat) (hc : cap % 64 = 0) (hp : 0 < cap) (h : cap ≤ 1600) (c c' : KeccakCtx) :
    keccakInit c cap = keccakInit c' cap := by
  unfold keccakInit
  dsimp only
  rw [if_neg (by omega), if_neg (by omega)]

theorem KLike.refl (c : KeccakCtx) : KLike c c := ⟨rfl, rfl, rfl⟩

theorem blind_keccak (init : KeccakCtx → C KeccakCtx) (hi : ∀ c c', init c = init c')
    (d : KeccakCtx → List Byte → T (KeccakCtx × List Byte))
    (hd : ∀ c c', KLike c c' → ∀ o o', L o o' → Same (Both KLike) (d c o) (d c' o'))
    (i : KeccakCtx → C KeccakCtx) (u : KeccakCtx → Option (List Byte) → Nat → C KeccakCtx)
    (g : KeccakCtx → List Byte → C (KeccakCtx × List Byte)) :
    Blind (I := ⟨KeccakCtx, i, u, g⟩) ⟨Tr.keccakInit init, Tr.keccakUpdate, d⟩ (fun _ _ => True) KLike := by
  refine ⟨fun c c' _ => ⟨rfl, ?_⟩, fun _ _ h _ _ hx n => keccakUpdate_same hx n h, hd, fun _ _ _ => trivial⟩
  show Out KLike (init c) (init c')
  rw [hi c c']
  cases init c' with
  | error e => exact rfl
  | ok c => exact KLike.refl c

theorem sha3Init_const (cap n : Nat) (hc : cap % 64 = 0) (hp : 0 < cap) (h : cap ≤ 1600) (c c' : KeccakCtx) :
    sha3Init cap n c = sha3Init cap n c' := by
  unfold sha3Init; rw [keccakInit_const cap hc hp h c c']
theorem shakeInit_const (cap : Nat) (hc : cap % 64 = 0) (hp : 0 < cap) (h : cap ≤ 1600) (c c' : KeccakCtx) :
    shakeInit cap c = shakeInit cap c' := by
  unfold shakeInit; rw [keccakInit_const cap hc hp h c c']
theorem rawshakeInit_const (cap : Nat) (hc : cap % 64 = 0) (hp : 0 < cap) (h : cap ≤ 1600) (c c' : KeccakCtx) :
    rawshakeInit cap c = rawshakeInit cap c' := by
  unfold rawshakeInit; rw [keccakInit_const cap hc hp h c c']

/-- All algorithms. -/
theorem exists_blind (a : Alg) (bits : Nat) :
    ∃ M R, Blind (a.traced bits) M R ∧ ∀ g g', memOK a bits g → memOK a bits g' → M g g' := by
  cases a with
  | MD5 => exact ⟨_, _, blind_md5, fun _ _ h h' => ⟨h.1.trans h'.1.symm, h.2.trans h'.2.symm⟩⟩
  | SHA1 => exact ⟨_, _, blind_sha _ _ sha1ProcessBlock_same _ _ (fun _ _ h _ _ ho => sha1Digest_same h ho) _ _ _,
      fun _ _ h h' => ⟨h.1.trans h'.1.symm, h.2.trans h'.2.symm⟩⟩
  | SHA224 => exact ⟨_, _, blind_sha _ _ sha256ProcessBlock_same _ _ (fun _ _ h _ _ ho => sha224n256Digest_same _ h ho) _ _ _,
      fun _ _ h h' => ⟨h.1.trans h'.1.symm, h.2.trans h'.2.symm⟩⟩
  | SHA256 => exact ⟨_, _, blind_sha _ _ sha256ProcessBlock_same _ _ (fun _ _ h _ _ ho => sha224n256Digest_same _ h ho) _ _ _,
      fun _ _ h h' => ⟨h.1.trans h'.1.symm, h.2.trans h'.2.symm⟩⟩
  | SHA384 => exact ⟨_, _, blind_sha _ _ sha512ProcessBlock_same _ _ (fun _ _ h _ _ ho => sha384n512Digest_same _ h ho) _ _ _,
      fun _ _ h h' => ⟨h.1.trans h'.1.symm, h.2.trans h'.2.symm⟩⟩
  | SHA512 => exact ⟨_, _, blind_sha _ _ sha512ProcessBlock_same _ _ (fun _ _ h _ _ ho => sha384n512Digest_same _ h ho) _ _ _,
      fun _ _ h h' => ⟨h.1.trans h'.1.symm, h.2.trans h'.2.symm⟩⟩
  | SHA512_224 => exact ⟨_, _, blind_sha _ _ sha512ProcessBlock_same _ _ (fun _ _ h _ _ ho => sha384n512Digest_same _ h ho) _ _ _,
      fun _ _ h h' => ⟨h.1.trans h'.1.symm, h.2.trans h'.2.symm⟩⟩
  | SHA512_256 => exact ⟨_, _, blind_sha _ _ sha512ProcessBlock_same _ _ (fun _ _ h _ _ ho => sha384n512Digest_same _ h ho) _ _ _,
      fun _ _ h h' => ⟨h.1.trans h'.1.symm, h.2.trans h'.2.symm⟩⟩
  | SHA3_224 => exact ⟨_, _, blind_keccak _ (sha3Init_const 448 224 (by decide) (by decide) (by decide)) _ (fun _ _ h _ _ ho => keccakSqueeze_same h ho) _ _ _, fun _ _ _ _ => trivial⟩
  | SHA3_256 => exact ⟨_, _, blind_keccak _ (sha3Init_const 512 256 (by decide) (by decide) (by decide)) _ (fun _ _ h _ _ ho => keccakSqueeze_same h ho) _ _ _, fun _ _ _ _ => trivial⟩
  | SHA3_384 => exact ⟨_, _, blind_keccak _ (sha3Init_const 768 384 (by decide) (by decide) (by decide)) _ (fun _ _ h _ _ ho => keccakSqueeze_same h ho) _ _ _, fun _ _ _ _ => trivial⟩
  | SHA3_512 => exact ⟨_, _, blind_keccak _ (sha3Init_const 1024 512 (by decide) (by decide) (by decide)) _ (fun _ _ h _ _ ho => keccakSqueeze_same h ho) _ _ _, fun _ _ _ _ => trivial⟩
  | RawSHAKE128 => exact ⟨_, _, blind_keccak _ (rawshakeInit_const 256 (by decide) (by decide) (by decide)) _ (fun _ _ h _ _ ho => shakeDigest_same bits h ho) _ _ _, fun _ _ _ _ => trivial⟩
  | SHAKE128 => exact ⟨_, _, blind_keccak _ (shakeInit_const 256 (by decide) (by decide) (by decide)) _ (fun _ _ h _ _ ho => shakeDigest_same bits h ho) _ _ _, fun _ _ _ _ => trivial⟩
  | RawSHAKE256 => exact ⟨_, _, blind_keccak _ (rawshakeInit_const 512 (by decide) (by decide) (by decide)) _ (fun _ _ h _ _ ho => shakeDigest_same bits h ho) _ _ _, fun _ _ _ _ => trivial⟩
  | SHAKE256 => exact ⟨_, _, blind_keccak _ (shakeInit_const 512 (by decide) (by decide) (by decide)) _ (fun _ _ h _ _ ho => shakeDigest_same bits h ho) _ _ _, fun _ _ _ _ => trivial⟩

section
variable {I : HashImpl} {t : Traced I} {M R : I.Ctx → I.Ctx → Prop} (B : Blind t M R)
include B

/-- The same answers in number and size. -/
theorem calls_same (l l' : List HashImpl.Call) (hl : l.map callShape = l'.map callShape) :
    ∀ c c', R c c' → Same (fun r r' => R r.1 r'.1 ∧ r.2.map List.length = r'.2.map List.length)
      (t.calls c l) (t.calls c' l') := by
  induction l generalizing l' with
  | nil =>
    intro c c' h
    cases l' with
    | nil => exact Same.ret ⟨h, rfl⟩
    | cons y l' => simp at hl
  | cons x l ih =>
    intro c c' h
    cases l' with
    | nil => simp at hl
    | cons y l' =>
      rw [List.map_cons, List.map_cons, List.cons.injEq] at hl
      obtain ⟨h1, h2⟩ := hl
      cases x with
      | update x =>
        cases y with
        | digest o => simp [callShape] at h1
        | update y =>
          have e : x.length = y.length := by simpa [callShape] using h1
          rw [Traced.calls, Traced.calls, e]
          exact Same.seq (B.update c c' h x y e _) (fun c c' h => ih l' h2 c c' h)
      | digest o =>
        cases y with
        | update o => simp [callShape] at h1
        | digest o' =>
          have e : o.length = o'.length := by simpa [callShape] using h1
          rw [Traced.calls, Traced.calls]
          refine Same.seq (B.digest c c' h o o' e) (fun r r' hr => ?_)
          refine Same.seq (ih l' h2 _ _ hr.1) (fun s s' hs => Same.ret ⟨hs.1, ?_⟩)
          rw [List.map_cons, List.map_cons, hs.2, show r.2.length = r'.2.length from hr.2]

/-- Two HMAC contexts of the same sizes. -/
def MacMem (M : I.Ctx → I.Ctx → Prop) (c c' : HmacCtx I) : Prop := M c.hash c'.hash ∧ L c.kIPad c'.kIPad ∧ L c.kOPad c'.kOPad

theorem arrcpy_same (a : Arr) {d d' : List Byte} (hd : L d d') (n : Nat) {s s' : List Byte} (hs : L s s') (m : Nat) :
    Same L (Traced.arrcpy a d n s m) (Traced.arrcpy a d' n s' m) := by
  unfold Traced.arrcpy
  refine Same.br rfl ?_
  refine Same.seq (Same.rds _ _ _ hs) (fun _ _ h => ?_)
  exact Same.seq (Same.wrs _ _ hd h) (fun _ _ h => Same.wrs _ _ h rfl)

theorem macInit_same (bs : Nat) {c c' : HmacCtx I} (h : MacMem M c c') :
    Same (MacMem R) (t.macInit bs c) (t.macInit bs c') := by
  unfold Traced.macInit
  refine Same.seq (B.init _ _ h.1) (fun g g' hg => ?_)
  refine Same.seq (Same.wrs _ _ h.2.1 rfl) (fun _ _ h1 => ?_)
  refine Same.seq (Same.wrs _ _ h.2.2 rfl) (fun _ _ h2 => ?_)
  exact Same.seq (B.update g g' hg _ _ h1 bs) (fun _ _ hg => Same.ret ⟨hg, h1, h2⟩)

theorem xorPads_same (bs : Nat) {p p' q q' : List Byte} (hp : L p p') (hq : L q q') :
    Same (fun r r' => L r.1 r'.1 ∧ L r.2 r'.2) (Traced.xorPads bs p q) (Traced.xorPads bs p' q') := by
  unfold Traced.xorPads
  refine Same.forN bs (R := fun (r r' : List Byte × List Byte) => L r.1 r'.1 ∧ L r.2 r'.2) ⟨hp, hq⟩ (fun i s s' hs => ?_)
  obtain ⟨h1, h2⟩ := hs
  rd! h1
  wr! h1
  rd! h2
  wr! h2
  exact Same.ret ⟨h1, h2⟩

theorem macSetKey_same (bs : Nat) {c c' : HmacCtx I} (h : MacMem M c c') {k k' : List Byte} (hk : L k k') (n : Nat) :
    Same (MacMem R) (t.macSetKey bs c k n) (t.macSetKey bs c' k' n) := by
  unfold Traced.macSetKey
  refine Same.seq (arrcpy_same B _ h.2.1 _ hk _) (fun _ _ h1 => ?_)
  refine Same.seq (arrcpy_same B _ h.2.2 _ hk _) (fun _ _ h2 => ?_)
  refine Same.seq (xorPads_same B bs h1 h2) (fun p p' hp => ?_)
  refine Same.seq (B.init _ _ h.1) (fun g g' hg => ?_)
  exact Same.seq (B.update g g' hg _ _ hp.1 bs) (fun _ _ hg => Same.ret ⟨hg, hp.1, hp.2⟩)

theorem macUpdate_same {c c' : HmacCtx I} (h : MacMem R c c') {x x' : List Byte} (hx : L x x') (n : Nat) :
    Same (MacMem R) (t.macUpdate c (some x) n) (t.macUpdate c' (some x') n) := by
  unfold Traced.macUpdate
  exact Same.seq (B.update _ _ h.1 _ _ hx n) (fun _ _ hg => Same.ret ⟨hg, h.2⟩)

theorem encodeMultiple_same {g g' : I.Ctx} (hg : M g g') {o o' : List Byte} (ho : L o o') {x x' y y' : List Byte}
    (hx : L x x') (hy : L y y') (n m : Nat) :
    Same L (t.encodeMultiple g o [(some x, n), (some y, m)]) (t.encodeMultiple g' o' [(some x', n), (some y', m)]) := by
  unfold Traced.encodeMultiple
  refine Same.seq (B.init _ _ hg) (fun c c' h => ?_)
  refine Same.seq (R := R) ?_ (fun c c' h => ?_)
  · simp only [Traced.encodeMultipleLoop]
    refine Same.br rfl (Same.br rfl (Same.seq (B.update c c' h _ _ hx n) (fun c c' h => ?_)))
    refine Same.br rfl (Same.br rfl (Same.seq (B.update c c' h _ _ hy m) (fun c c' h => ?_)))
    exact Same.br rfl (Same.ret h)
  · exact Same.seq (B.digest c c' h o o' ho) (fun r r' hr => Same.ret hr.2)

theorem macDigest_same (bs ds : Nat) {mid mid' : List Byte} (hm : L mid mid') {g g' : I.Ctx} (hg : M g g') {c c' : HmacCtx I}
    (h : MacMem R c c') {o o' : List Byte} (ho : L o o') :
    Same (Both (MacMem R)) (t.macDigest bs ds mid g c o) (t.macDigest bs ds mid' g' c' o') := by
  unfold Traced.macDigest
  refine Same.seq (B.digest _ _ h.1 _ _ hm) (fun r r' hr => ?_)
  exact Same.seq (encodeMultiple_same B hg ho h.2.2 hr.2 bs ds) (fun _ _ ho => Same.ret ⟨⟨hr.1, h.2⟩, ho⟩)

theorem macOneShot_same (bs ds : Nat) {g g' : HmacCtx.Mem I} (hc : MacMem M g.ctx g'.ctx) (hm : L g.mid g'.mid)
    (hg : M g.inner g'.inner) {k k' : List Byte} (hk : L k k') (n : Nat) {x x' : List Byte} (hx : L x x') (m : Nat)
    {o o' : List Byte} (ho : L o o') :
    Same L (t.macOneShot bs ds g k n x m o) (t.macOneShot bs ds g' k' n x' m o') := by
  unfold Traced.macOneShot
  refine Same.seq (macInit_same B bs hc) (fun c c' h => ?_)
  refine Same.seq (macSetKey_same B bs ⟨B.mem _ _ h.1, h.2⟩ hk n) (fun c c' h => ?_)
  refine Same.seq (macUpdate_same B h hx m) (fun c c' h => ?_)
  exact Same.seq (macDigest_same B bs ds hm hg h ho) (fun _ _ h => Same.ret h.2)

/-- The local variables of a digest call. -/
def LocalsLike (M : I.Ctx → I.Ctx → Prop) : HmacCtx.Call I → HmacCtx.Call I → Prop
  | .digest mid g _, .digest mid' g' _ => L mid mid' ∧ M g g'
  | _, _ => True

theorem macCalls_same (bs ds : Nat) (l l' : List (HmacCtx.Call I)) (hl : l.map macShape = l'.map macShape)
    (hm : ∀ x ∈ l, ∀ y ∈ l', LocalsLike M x y) :
    ∀ c c', MacMem R c c' → Same (MacMem R) (t.macCalls bs ds c l) (t.macCalls bs ds c' l') := by
  induction l generalizing l' with
  | nil =>
    intro c c' h
    cases l' with
    | nil => exact Same.ret h
    | cons y l' => simp at hl
  | cons x l ih =>
    intro c c' h
    cases l' with
    | nil => simp at hl
    | cons y l' =>
      rw [List.map_cons, List.map_cons, List.cons.injEq] at hl
      obtain ⟨h1, h2⟩ := hl
      have hxy := hm x (List.mem_cons_self ..) y (List.mem_cons_self ..)
      have ih := ih l' h2 (fun x hx y hy => hm x (List.mem_cons_of_mem _ hx) y (List.mem_cons_of_mem _ hy))
      cases x with
      | init =>
        cases y <;> simp [macShape] at h1
        rw [Traced.macCalls, Traced.macCalls]
        exact Same.seq (macInit_same B bs ⟨B.mem _ _ h.1, h.2⟩) ih
      | setKey k =>
        cases y <;> simp [macShape] at h1
        rw [Traced.macCalls, Traced.macCalls, h1]
        exact Same.seq (macSetKey_same B bs ⟨B.mem _ _ h.1, h.2⟩ h1 _) ih
      | update x =>
        cases y <;> simp [macShape] at h1
        rw [Traced.macCalls, Traced.macCalls, h1]
        exact Same.seq (macUpdate_same B h h1 _) ih
      | digest mid g o =>
        cases y <;> simp [macShape] at h1
        rw [Traced.macCalls, Traced.macCalls]
        exact Same.seq (macDigest_same B bs ds hxy.1 hxy.2 h h1) (fun r r' hr => ih _ _ hr.1)

end
end Pgfe.Proofs.Trace
