import Verif.Props.Again
import Verif.Props.Hmac
import Verif.Model.HmacAgain
/-!
# C83: an HMAC context that goes on being used after a digest
-/
namespace Pgfe.Props
open Pgfe.Model Pgfe.Spec Pgfe.Spec.Again Pgfe.Proofs.Hash Pgfe.Proofs.Hmac
open Pgfe.Model.HashImpl (Call)

/-! ## Specification -/

/-- The calls as the inner hash sees them. -/
def hashCall {I : HashImpl} : HmacCtx.MacCall I → Call
  | .update x => .update x
  | .digest _ _ _ => .digest []

/-- The output buffers of the digest calls. -/
def macBuffers {I : HashImpl} : List (HmacCtx.MacCall I) → List (List Byte)
  | [] => []
  | .update _ :: r => macBuffers r
  | .digest _ _ out :: r => out :: macBuffers r

/-- The answers of an HMAC context with key `k`: the inner hash context, which saw the key with ipad first, gives its
answers (C80); each of them is hashed after the key with opad. -/
def macAnswers {I : HashImpl} (a : Alg) (k : List Byte) (l : List (HmacCtx.MacCall I)) : List (List Byte) :=
  List.zipWith put
    ((answers a 0 (.update (xorPad (blockBytes a) k 0x36#8) :: l.map hashCall)).map
      (fun d => libHash a 0 (xorPad (blockBytes a) k 0x5c#8 ++ d)))
    (macBuffers l)

/-- What the arguments of a call have to satisfy. -/
def macCallOK (a : Alg) : HmacCtx.MacCall (a.impl 0) → Prop
  | .update x => okUpd a x.length
  | .digest mid inner out => mid.length = outSize a 0 + 1 ∧ memOK a 0 inner ∧ outSize a 0 ≤ out.length

/-! ## The answers of the machines and the buffers -/

def stripBuf : Call → Call
  | .update x => .update x
  | .digest _ => .digest []

def bufs : List Call → List (List Byte)
  | [] => []
  | .update _ :: r => bufs r
  | .digest o :: r => o :: bufs r

theorem put_nil (d : List Byte) : put d [] = d := by simp [put]

theorem md5_buf (l : List Call) : ∀ m, md5Answers m l = List.zipWith put (md5Answers m (l.map stripBuf)) (bufs l) := by
  induction l with
  | nil => intro m; rfl
  | cons x l ih =>
    intro m
    cases x with
    | update x => exact ih _
    | digest o =>
      show put (Md5.md5 m) o :: _ = List.zipWith put (put (Md5.md5 m) [] :: _) (o :: bufs l)
      rw [put_nil, List.zipWith_cons_cons, ih]

theorem md_buf (M : MD) (w : Bool) (ds : Nat) (l : List Call) : ∀ h n y,
    M.answers w ds h n y l = List.zipWith put (M.answers w ds h n y (l.map stripBuf)) (bufs l) := by
  induction l with
  | nil => intro h n y; rfl
  | cons x l ih =>
    intro h n y
    cases x with
    | update x => exact ih _ _ _
    | digest o =>
      show put _ o :: _ = List.zipWith put (put _ [] :: _) (o :: bufs l)
      rw [put_nil, List.zipWith_cons_cons, ih]

theorem sponge_buf (s : Nat → List Byte → List Byte) (ds : Nat) (m : List Byte) (l : List Call) : ∀ m p,
    spongeAnswers s ds m p l = List.zipWith put (spongeAnswers s ds m p (l.map stripBuf)) (bufs l) := by
  induction l with
  | nil => intro m p; cases p <;> rfl
  | cons x l ih =>
    intro m p
    cases x with
    | update x => cases p <;> exact ih _ _
    | digest o =>
      cases p with
      | none =>
        show put _ o :: _ = List.zipWith put (put _ [] :: _) (o :: bufs l)
        rw [put_nil, List.zipWith_cons_cons, ih]
      | some p =>
        show put _ o :: _ = List.zipWith put (put _ [] :: _) (o :: bufs l)
        rw [put_nil, List.zipWith_cons_cons, ih]

theorem answers_buf (a : Alg) (n : Nat) (l : List Call) :
    answers a n l = List.zipWith put (answers a n (l.map stripBuf)) (bufs l) := by
  cases a <;> simp only [answers] <;> first | exact md5_buf _ _ | exact md_buf _ _ _ _ _ _ _ | exact sponge_buf _ _ [] _ _ _

/-! ## The HMAC context follows its hash context -/

theorem setKey_hash {I : HashImpl} (bs : Nat) (c : HmacCtx I) (hi : c.kIPad.length = bs) (ho : c.kOPad.length = bs)
    (key : List Byte) :
    HmacCtx.setKey I bs c key key.length = (I.init c.hash >>= fun h =>
      I.update h (some (xorPad bs (key.take bs) 0x36#8)) bs >>= fun h =>
        .ok ⟨h, xorPad bs (key.take bs) 0x36#8, xorPad bs (key.take bs) 0x5c#8⟩) := by
  have hkl : ((key.take key.length).take bs ++ List.replicate (bs - key.length) 0#8).length = bs := by
    simp; omega
  have e : ∀ u : Byte, ((key.take key.length).take bs ++ List.replicate (bs - key.length) 0#8).map (· ^^^ u)
      = xorPad bs (key.take bs) u := by
    intro u
    rw [xorPad, List.take_length, List.length_take, show bs - min bs key.length = bs - key.length by omega]
  rw [HmacCtx.setKey, arrcpy_ok _ _ _ _ hi (Nat.le_refl _), bind_ok, arrcpy_ok _ _ _ _ ho (Nat.le_refl _), bind_ok,
    xorPads_ok bs _ _ hkl hkl, bind_ok]
  simp only [e]
  rfl

/-- The calls on the hash context inside. -/
def innerCall {I : HashImpl} : HmacCtx.MacCall I → Call
  | .update x => .update x
  | .digest mid _ _ => .digest mid

theorem outputs_sim (a : Alg) (ha : isShake a = false) (op : List Byte) (hop : op.length = blockBytes a)
    (l : List (HmacCtx.MacCall (a.impl 0))) (hl : ∀ x ∈ l, macCallOK a x) :
    ∀ (c : HmacCtx (a.impl 0)) (h' : (a.impl 0).Ctx) (ds : List (List Byte)), c.kOPad = op →
      (a.impl 0).calls c.hash (l.map innerCall) = .ok (h', ds) → (∀ d ∈ ds, outSize a 0 ≤ d.length) →
      HmacCtx.outputs (a.impl 0) (blockBytes a) (outSize a 0) c l = .ok (⟨h', c.kIPad, op⟩,
        List.zipWith put (ds.map (fun d => libHash a 0 (op ++ d.take (outSize a 0)))) (macBuffers l)) := by
  obtain ⟨K, cf⟩ := exists_ok0 a
  have hd := cf.ds
  obtain ⟨s1, s2, s3⟩ := hmac_sizes a ha
  induction l with
  | nil =>
    intro c h' ds hc h _
    rw [List.map_nil, HashImpl.calls, Except.ok.injEq, Prod.mk.injEq] at h
    rw [HmacCtx.outputs, ← h.1, ← h.2, ← hc]
    rfl
  | cons x l ih =>
    intro c h' ds hc h hds
    have ih := ih (fun y hy => hl y (List.mem_cons_of_mem _ hy))
    have hx := hl x (List.mem_cons_self ..)
    cases x with
    | update x =>
      rw [List.map_cons, innerCall, HashImpl.calls] at h
      rw [HmacCtx.outputs, HmacCtx.update]
      generalize (a.impl 0).update c.hash (some x) x.length = z at h ⊢
      cases z with
      | error e => rw [bind_err] at h; cases h
      | ok c1 =>
        rw [bind_ok] at h
        rw [bind_ok, bind_ok]
        exact ih { c with hash := c1 } h' ds hc h hds
    | digest mid inner out =>
      rw [List.map_cons, innerCall, HashImpl.calls] at h
      rw [HmacCtx.outputs, HmacCtx.digest]
      generalize (a.impl 0).digest c.hash mid = z at h ⊢
      cases z with
      | error e => rw [bind_err] at h; cases h
      | ok r =>
        rw [bind_ok] at h
        rw [bind_ok]
        cases hr : (a.impl 0).calls r.1 (l.map innerCall) with
        | error e => rw [hr, bind_err] at h; cases h
        | ok s =>
          rw [hr, bind_ok, Except.ok.injEq, Prod.mk.injEq] at h
          obtain ⟨e1, e2⟩ := h
          have hr2 : outSize a 0 ≤ r.2.length := hds r.2 (by rw [← e2]; exact List.mem_cons_self ..)
          have hct : HashOK.content [(some c.kOPad, blockBytes a), (some r.2, outSize a 0)] = op ++ r.2.take (outSize a 0) := by
            simp only [HashOK.content, List.flatMap_cons, List.flatMap_nil, List.append_nil]
            rw [hc, List.take_of_length_le (by omega)]
          have h3 := K.encodeMultiple_ok inner (cf.wf _ hx.2.1) [(some c.kOPad, blockBytes a), (some r.2, outSize a 0)] out (by
              intro p hp y hy
              simp only [List.mem_cons, List.not_mem_nil, or_false] at hp
              rcases hp with rfl | rfl
              · simp only [Option.some.injEq] at hy
                subst hy
                exact ⟨cf.u _ s1, by rw [hc, hop]; exact Nat.le_refl _⟩
              · simp only [Option.some.injEq] at hy
                subst hy
                exact ⟨cf.u _ s2, hr2⟩) (by
              rw [hct, List.length_append, List.length_take, hop, Nat.min_eq_left hr2]; exact cf.t _ s3)
              (by rw [hd]; exact hx.2.2)
          rw [h3, hct, hd]
          have := ih { c with hash := r.1 } s.1 s.2 hc hr (fun d h => hds d (by rw [← e2]; exact List.mem_cons_of_mem _ h))
          rw [bind_ok, bind_ok]
          dsimp only
          rw [this, bind_ok, ← e1, ← e2]
          show Except.ok (_, _ :: _) = Except.ok (_, List.zipWith put (_ :: _) (out :: macBuffers l))
          rw [List.zipWith_cons_cons, put, show (libHash a 0 (op ++ r.2.take (outSize a 0))).length = outSize a 0 by rw [← hd]; exact K.len _]

/-! ## Lengths of the answers -/

theorem md5_len (l : List Call) : ∀ m, ∀ d ∈ md5Answers m (l.map stripBuf), d.length = 16 := by
  induction l with
  | nil => intro m d h; cases h
  | cons x l ih =>
    intro m
    cases x with
    | update x => exact ih _
    | digest o =>
      intro d h
      rcases List.mem_cons.1 h with rfl | h
      · rw [put_nil, Pgfe.Proofs.Md5.md5_length]
      · exact ih _ d h

theorem md_len (M : MD) (w : Bool) (ds : Nat) (hM : ∀ v, ds ≤ (M.bytes v).length) (l : List Call) : ∀ h n y,
    ∀ d ∈ M.answers w ds h n y (l.map stripBuf), d.length = ds := by
  induction l with
  | nil => intro h n y d hd; cases hd
  | cons x l ih =>
    intro h n y
    cases x with
    | update x => exact ih _ _ _
    | digest o =>
      intro d hd
      rcases List.mem_cons.1 hd with rfl | hd
      · rw [put_nil, List.length_take, Nat.min_eq_left (hM _)]
      · exact ih _ _ _ d hd

theorem sponge_len (s : Nat → List Byte → List Byte) (hs : ∀ n m, (s n m).length = n) (ds : Nat) (l : List Call) :
    ∀ m p, ∀ d ∈ spongeAnswers s ds m p (l.map stripBuf), d.length = ds := by
  induction l with
  | nil => intro m p d h; cases p <;> cases h
  | cons x l ih =>
    intro m p
    cases x with
    | update x => cases p <;> exact ih _ _
    | digest o =>
      cases p with
      | none =>
        intro d h
        rcases List.mem_cons.1 h with rfl | h
        · rw [put_nil, hs]
        · exact ih _ _ d h
      | some p =>
        intro d h
        rcases List.mem_cons.1 h with rfl | h
        · rw [put_nil, List.length_drop, hs, Nat.add_sub_cancel_left]
        · exact ih _ _ d h

theorem sha3Stream_len (c rb : Nat) (hc : 1600 - c = 8 * rb) (h0 : 0 < rb) (h200 : rb ≤ 200) (n : Nat) (m : List Byte) :
    (sha3Stream c n m).length = n := by
  rw [sha3Stream, Pgfe.Proofs.Keccak.keccak_bytes c rb n hc h0 h200 _ _ Pgfe.Proofs.Keccak.domSep_sha3]
  simp

theorem answers_len (a : Alg) (ha : isShake a = false) (l : List Call) :
    ∀ d ∈ answers a 0 (l.map stripBuf), d.length = outSize a 0 := by
  have l5 (v : Sha.V5) : 20 ≤ v.bytes.length := by simp [Sha.V5.bytes, Sha.bytesOfWord, Sha.bytesOfNat]
  have le8 (n : Nat) (hn : n ≤ 32) (v : Sha.V8 32) : n ≤ v.bytes.length := by
    rw [show v.bytes.length = 32 from Pgfe.Proofs.Sha.bytes8_length v]; exact hn
  have le8' (n : Nat) (hn : n ≤ 64) (v : Sha.V8 64) : n ≤ v.bytes.length := by
    rw [show v.bytes.length = 64 from Pgfe.Proofs.Sha.bytes8_length v]; exact hn
  cases a
  case MD5 => exact md5_len l []
  case SHA1 => exact md_len sha1MD _ 20 l5 l _ _ _
  case SHA224 => exact md_len (sha2MD Sha.P256 Sha.sha224H0) _ 28 (le8 28 (by decide)) l _ _ _
  case SHA256 => exact md_len (sha2MD Sha.P256 Sha.sha256H0) _ 32 (le8 32 (by decide)) l _ _ _
  case SHA384 => exact md_len (sha2MD Sha.P512 Sha.sha384H0) _ 48 (le8' 48 (by decide)) l _ _ _
  case SHA512 => exact md_len (sha2MD Sha.P512 Sha.sha512H0) _ 64 (le8' 64 (by decide)) l _ _ _
  case SHA512_224 => exact md_len (sha2MD Sha.P512 (Sha.sha512tH0 "SHA-512/224")) _ 28 (le8' 28 (by decide)) l _ _ _
  case SHA512_256 => exact md_len (sha2MD Sha.P512 (Sha.sha512tH0 "SHA-512/256")) _ 32 (le8' 32 (by decide)) l _ _ _
  case SHA3_224 => exact sponge_len (sha3Stream 448) (sha3Stream_len 448 144 rfl (by decide) (by decide)) 28 l [] none
  case SHA3_256 => exact sponge_len (sha3Stream 512) (sha3Stream_len 512 136 rfl (by decide) (by decide)) 32 l [] none
  case SHA3_384 => exact sponge_len (sha3Stream 768) (sha3Stream_len 768 104 rfl (by decide) (by decide)) 48 l [] none
  case SHA3_512 => exact sponge_len (sha3Stream 1024) (sha3Stream_len 1024 72 rfl (by decide) (by decide)) 64 l [] none
  all_goals exact absurd ha (by decide)

/-! ## C83 -/

/-- How many bytes the updates hand over. -/
def macTotal {I : HashImpl} : List (HmacCtx.MacCall I) → Nat
  | [] => 0
  | .update x :: r => x.length + macTotal r
  | .digest _ _ _ :: r => macTotal r

theorem total_inner {I : HashImpl} (l : List (HmacCtx.MacCall I)) : total (l.map innerCall) = macTotal l := by
  induction l with
  | nil => rfl
  | cons x l ih =>
    cases x with
    | update x => exact congrArg (x.length + ·) ih
    | digest mid inner out => exact ih

theorem strip_inner {I : HashImpl} (l : List (HmacCtx.MacCall I)) : (l.map innerCall).map stripBuf = l.map hashCall := by
  rw [List.map_map]
  apply List.map_congr_left
  intro x _
  cases x <;> rfl

/-- Cutting the answers out of the buffers they were written to. -/
theorem cut_answers (n : Nat) (f : List Byte → List Byte) : ∀ (A B C : List (List Byte)), C.length = B.length →
    (∀ d ∈ A, d.length = n) →
    List.zipWith put ((List.zipWith put A B).map (fun d => f (d.take n))) C = List.zipWith put (A.map f) C := by
  intro A
  induction A with
  | nil => intro B C _ _; rfl
  | cons x A ih =>
    intro B C hB h
    cases C with
    | nil => rw [List.zipWith_nil_right, List.zipWith_nil_right]
    | cons z C =>
      cases B with
      | nil => cases hB
      | cons y B =>
        rw [List.zipWith_cons_cons, List.map_cons, List.map_cons, List.zipWith_cons_cons, List.zipWith_cons_cons,
          ih B C (by simpa using hB) (fun d hd => h d (List.mem_cons_of_mem _ hd)),
          show (put x y).take n = x from List.take_left' (h x (List.mem_cons_self ..))]

theorem bufs_length {I : HashImpl} (l : List (HmacCtx.MacCall I)) : (macBuffers l).length = (bufs (l.map innerCall)).length := by
  induction l with
  | nil => rfl
  | cons x l ih =>
    cases x with
    | update x => exact ih
    | digest mid inner out => exact congrArg (· + 1) ih

/-- What is left in a buffer is not shorter than the buffer. -/
theorem zip_put_length (n : Nat) : ∀ (A B : List (List Byte)), (∀ d ∈ A, d.length = n) →
    ∀ d ∈ List.zipWith put A B, n ≤ d.length := by
  intro A
  induction A with
  | nil => intro B _ d h; cases h
  | cons x A ih =>
    intro B h d hd
    cases B with
    | nil => cases hd
    | cons y B =>
      rcases List.mem_cons.1 hd with rfl | hd
      · rw [put, List.length_append, h x (List.mem_cons_self ..)]; omega
      · exact ih B (fun d hd => h d (List.mem_cons_of_mem _ hd)) d hd

/-- **C83, what every history returns.** An HMAC context in any memory, given a key, and then any sequence of update and
digest calls: no call leaves the defined behaviour, and the digest calls return `macAnswers`.

What is missing from the property as one would want it: a digest call changes what the following calls see
(`C83_violation`). -/
theorem C83_partial (a : Alg) (ha : isShake a = false) (c : HmacCtx (a.impl 0)) (hc : hmacCtxOK a c) (key : List Byte)
    (l : List (HmacCtx.MacCall (a.impl 0))) (hl : ∀ x ∈ l, macCallOK a x) (ht : okTot a (blockBytes a + macTotal l)) :
    ∃ c', (HmacCtx.setKey (a.impl 0) a.blockSize c key key.length >>= fun c =>
        HmacCtx.outputs (a.impl 0) a.blockSize a.digestSize c l)
      = .ok (c', macAnswers a (key.take (blockBytes a)) l) := by
  obtain ⟨s1, s2, s3⟩ := hmac_sizes a ha
  have hip : (xorPad (blockBytes a) (key.take (blockBytes a)) 0x36#8).length = blockBytes a :=
    xorPad_length _ _ _ (by rw [List.length_take]; omega)
  have hop : (xorPad (blockBytes a) (key.take (blockBytes a)) 0x5c#8).length = blockBytes a :=
    xorPad_length _ _ _ (by rw [List.length_take]; omega)
  obtain ⟨h', e⟩ := C80_partial a 0 (by decide) (fun h => by rw [ha] at h) c.hash hc.1
    (.update (xorPad (blockBytes a) (key.take (blockBytes a)) 0x36#8) :: l.map innerCall)
    (by
      intro x hx
      rcases List.mem_cons.1 hx with h | h
      · cases h
        rw [hip]; exact s1
      · obtain ⟨y, hy, e⟩ := List.mem_map.1 h
        cases y with
        | update y => cases e; exact hl _ hy
        | digest => cases e)
    (by rw [total, hip, total_inner]; exact ht)
    (by
      intro o hx
      rcases List.mem_cons.1 hx with h | h
      · cases h
      · obtain ⟨y, hy, e⟩ := List.mem_map.1 h
        cases y with
        | update y => cases e
        | digest mid inner out => cases e; have := (hl _ hy).1; omega)
  rw [blockSize_eq, digestSize_eq a ha, setKey_hash _ c hc.2.1 hc.2.2]
  generalize (a.impl 0).init c.hash = z at e ⊢
  cases z with
  | error e' => rw [bind_err] at e; cases e
  | ok h0 =>
    rw [bind_ok, HashImpl.calls, hip] at e
    rw [bind_ok]
    generalize (a.impl 0).update h0 _ _ = z at e ⊢
    cases z with
    | error e' => rw [bind_err] at e; cases e
    | ok h1 =>
      rw [bind_ok] at e
      rw [bind_ok, bind_ok]
      have hb := answers_buf a 0 (.update (xorPad (blockBytes a) (key.take (blockBytes a)) 0x36#8) :: l.map innerCall)
      rw [List.map_cons, strip_inner, stripBuf, bufs] at hb
      have hlen := answers_len a ha (.update (xorPad (blockBytes a) (key.take (blockBytes a)) 0x36#8) :: l.map innerCall)
      rw [List.map_cons, strip_inner, stripBuf] at hlen
      rw [hb] at e
      have sim := outputs_sim a ha _ hop l hl ⟨h1, xorPad (blockBytes a) (key.take (blockBytes a)) 0x36#8,
        xorPad (blockBytes a) (key.take (blockBytes a)) 0x5c#8⟩ _ _ rfl e (zip_put_length _ _ _ hlen)
      rw [cut_answers (outSize a 0) (fun d => libHash a 0 (xorPad (blockBytes a) (key.take (blockBytes a)) 0x5c#8 ++ d)) _ _ _
        (bufs_length l) hlen] at sim
      exact ⟨_, sim⟩

/-- **C83, MD5.** A second digest call returns the HMAC-MD5 of a longer message: the first one with the MD5 padding
`x` of the string that was hashed. -/
theorem C83_md5 (c : HmacCtx (Alg.impl .MD5 0)) (hc : hmacCtxOK .MD5 c) (key m : List Byte) (hm : 0 < m.length)
    (mid₁ mid₂ : List Byte) (hm₁ : mid₁.length = 17) (hm₂ : mid₂.length = 17) (g₁ g₂ : (Alg.impl .MD5 0).Ctx)
    (hg₁ : memOK .MD5 0 g₁) (hg₂ : memOK .MD5 0 g₂) (out₁ out₂ : List Byte) (ho₁ : 16 ≤ out₁.length) (ho₂ : 16 ≤ out₂.length) :
    ∃ c' x, 0 < x.length ∧
      Md5.pad (xorPad 64 (key.take 64) 0x36#8 ++ m) = xorPad 64 (key.take 64) 0x36#8 ++ (m ++ x) ∧
      (HmacCtx.setKey (Alg.impl .MD5 0) (Alg.blockSize .MD5) c key key.length >>= fun c =>
        HmacCtx.outputs (Alg.impl .MD5 0) (Alg.blockSize .MD5) (Alg.digestSize .MD5) c
          [.update m, .digest mid₁ g₁ out₁, .digest mid₂ g₂ out₂])
      = .ok (c', [put (hmacShort Md5.md5 64 (key.take 64) m) out₁, put (hmacShort Md5.md5 64 (key.take 64) (m ++ x)) out₂]) := by
  obtain ⟨c', h⟩ := C83_partial .MD5 rfl c hc key [.update m, .digest mid₁ g₁ out₁, .digest mid₂ g₂ out₂]
    (by
      intro x hx
      simp only [List.mem_cons, List.not_mem_nil, or_false] at hx
      rcases hx with rfl | rfl | rfl
      · exact hm
      · exact ⟨hm₁, hg₁, ho₁⟩
      · exact ⟨hm₂, hg₂, ho₂⟩) trivial
  have hp : ∃ x, 0 < x.length ∧
      Md5.pad (xorPad 64 (key.take 64) 0x36#8 ++ m) = xorPad 64 (key.take 64) 0x36#8 ++ (m ++ x) := by
    generalize hn : (xorPad 64 (key.take 64) 0x36#8 ++ m).length = n
    refine ⟨[0x80#8] ++ (List.replicate (Pgfe.Spec.Sha.padZeros 64 8 n) 0x00#8 ++ Md5.bytesLE 8 (8 * n % 2 ^ 64)), ?_, ?_⟩
    · rw [List.length_append]; exact Nat.lt_add_right _ (by decide)
    · rw [Md5.pad, hn]
      simp only [List.append_assoc]
  obtain ⟨x, hx0, hx⟩ := hp
  refine ⟨c', x, hx0, hx, ?_⟩
  rw [h]
  show Except.ok (c', [put (Md5.md5 (xorPad 64 (key.take 64) 0x5c#8 ++
      put (Md5.md5 ([] ++ xorPad 64 (key.take 64) 0x36#8 ++ m)) [])) out₁,
    put (Md5.md5 (xorPad 64 (key.take 64) 0x5c#8 ++
      put (Md5.md5 (Md5.pad ([] ++ xorPad 64 (key.take 64) 0x36#8 ++ m))) [])) out₂]) = _
  rw [List.nil_append, put_nil, put_nil, hx]
  rfl

end Pgfe.Props
