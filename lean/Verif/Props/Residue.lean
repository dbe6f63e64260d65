import Verif.Proofs.Residue
import Verif.Props.SpongeCollision
import Verif.Props.Hmac
/-!
# C85: what a context still holds after the digest
-/
namespace Pgfe.Spec
open Pgfe.Model

/-- The block buffer of a context: the array in which update collects the bytes of the current block. -/
def bufferOf (a : Alg) (bits : Nat) : (a.impl bits).Ctx → List Byte :=
  match a with
  | .MD5 => fun (c : Md5Ctx) => c.block
  | .SHA1 | .SHA224 | .SHA256 => fun (c : ShaCtx 32) => c.block
  | .SHA384 | .SHA512 | .SHA512_224 | .SHA512_256 => fun (c : ShaCtx 64) => c.block
  | .SHA3_224 | .SHA3_256 | .SHA3_384 | .SHA3_512 => fun (c : KeccakCtx) => c.dataQueue
  | .RawSHAKE128 | .SHAKE128 | .RawSHAKE256 | .SHAKE256 => fun (c : KeccakCtx) => c.dataQueue

/-- The members of the SHA-2 family. -/
def isSha2 : Alg → Bool
  | .SHA224 | .SHA256 | .SHA384 | .SHA512 | .SHA512_224 | .SHA512_256 => true
  | _ => false

/-- Bytes of the length field at the end of the last block. -/
def lengthField : Alg → Nat
  | .SHA384 | .SHA512 | .SHA512_224 | .SHA512_256 => 16
  | _ => 8

/-- The bytes of the message after its last whole block of `B` bytes. -/
def endOf (B : Nat) (m : List Byte) : List Byte := m.drop (m.length / B * B)

end Pgfe.Spec

namespace Pgfe.Props
open Pgfe.Model Pgfe.Spec Pgfe.Proofs.Hash Pgfe.Proofs.Residue
open Pgfe.Model.HashImpl (Call)
open Pgfe.Spec.Sha (bytesOfWord)
open Pgfe.Proofs.Sha (F1 F256 F512 Fam)

/-- **C85 for SHA-1.** After init, any updates and a digest the context holds the five words of the digest,
and zeros: nothing else of the message. -/
theorem C85_sha1 (g : ShaCtx 32) (hg : memOK .SHA1 0 g) (parts : List (List Byte))
    (hp : ∀ p ∈ parts, p.length < 2 ^ 31) (ht : 8 * parts.flatten.length < 2 ^ 64) (out : List Byte) (ho : 20 ≤ out.length) :
    ∃ ws : List W32, ws.flatMap bytesOfWord = libHash .SHA1 0 parts.flatten ∧
      (sha1Impl.init g >>= fun c => sha1Impl.calls c (parts.map .update ++ [.digest out]))
        = .ok ((⟨ws, 0#32, 0#32, 0, List.replicate 64 0#8⟩ : ShaCtx 32), [libHash .SHA1 0 parts.flatten ++ out.drop 20]) := by
  obtain ⟨c, e, h⟩ := calls_session hashOK_sha1 g hg parts out hp ht
  have hi : c.index < F1.bs := by rw [h.2.1]; exact Nat.mod_lt _ F1.bs_pos
  obtain ⟨ws, hl, e1⟩ := residue1 c out h.1 hi ho
  obtain ⟨c2, e2, _⟩ := hashOK_sha1.digest_ok _ c out h ht ho
  have e1 : sha1Impl.digest c out = _ := e1
  have e3 := e1.symm.trans e2
  rw [Except.ok.injEq, Prod.mk.injEq] at e3
  have hw : ws.flatMap bytesOfWord = libHash .SHA1 0 parts.flatten := by
    refine (List.append_inj e3.2 ?_).1
    rw [Pgfe.Proofs.Sha.flatMap_bytes_length, hl]
    exact (sha1Stale_length _).symm
  exact ⟨ws, hw, by rw [e, e1, bind_ok, hw]⟩

theorem sha2_left {w : Nat} (F : Fam w) (h0 : List (BitVec w)) (digest : ShaCtx w → List Byte → C (ShaCtx w × List Byte))
    {H : List Byte → List Byte} (K : HashOK (F.impl h0 digest) H) (hI : K.Inv = F.Inv h0) (thr n : Nat)
    (hd : ∀ (c : ShaCtx w) (out : List Byte), F.WF c → c.index < F.bs → n ≤ out.length →
      ∃ c' d, digest c out = .ok (c', d) ∧ c'.block.take (min c.index thr) = (c.block.take c.index).take thr)
    (g : ShaCtx w) (hg : K.WF g) (parts : List (List Byte)) (out : List Byte) (hu : ∀ p ∈ parts, K.okUpd p.length)
    (ht : K.okTot parts.flatten.length) (ho : n ≤ out.length) :
    ∃ c d, ((F.impl h0 digest).init g >>= fun c => (F.impl h0 digest).calls c (parts.map .update ++ [.digest out])) = .ok (c, [d]) ∧
      (show ShaCtx w from c).block.take (min (parts.flatten.length % F.bs) thr) = (endOf F.bs parts.flatten).take thr := by
  obtain ⟨c, e, h⟩ := calls_session K g hg parts out hu ht
  rw [hI] at h
  have hi : c.index < F.bs := by rw [h.2.1]; exact Nat.mod_lt _ F.bs_pos
  obtain ⟨c', d, e1, k⟩ := hd c out h.1 hi ho
  rw [h.2.2.2.1, h.2.1] at k
  have e1 : (F.impl h0 digest).digest c out = _ := e1
  exact ⟨c', d, by rw [e, e1, bind_ok], k⟩

/-- **C85, violation (SHA-2).** After init, any updates and a digest the block buffer of the context still begins
with the end of the message: its bytes after the last whole block, as far as they are before the length field. -/
theorem C85_sha2_violation (a : Alg) (ha : isSha2 a = true) (g : (a.impl 0).Ctx) (hg : memOK a 0 g) (parts : List (List Byte))
    (hp : ∀ p ∈ parts, okUpd a p.length) (ht : okTot a parts.flatten.length) (out : List Byte) (ho : outSize a 0 ≤ out.length) :
    ∃ c d, ((a.impl 0).init g >>= fun c => (a.impl 0).calls c (parts.map .update ++ [.digest out])) = .ok (c, [d]) ∧
      (bufferOf a 0 c).take (min (parts.flatten.length % blockBytes a) (blockBytes a - lengthField a))
        = (endOf (blockBytes a) parts.flatten).take (blockBytes a - lengthField a) := by
  cases a
  case SHA224 => exact sha2_left F256 _ _ hashOK_sha224 rfl 56 28 (residue256 28 (by decide)) g hg parts out hp ht ho
  case SHA256 => exact sha2_left F256 _ _ hashOK_sha256 rfl 56 32 (residue256 32 (by decide)) g hg parts out hp ht ho
  case SHA384 => exact sha2_left F512 _ _ hashOK_sha384 rfl 112 48 (residue512 48 (by decide)) g hg parts out hp ht ho
  case SHA512 => exact sha2_left F512 _ _ hashOK_sha512 rfl 112 64 (residue512 64 (by decide)) g hg parts out hp ht ho
  case SHA512_224 => exact sha2_left F512 _ _ hashOK_sha512_224 rfl 112 28 (residue512 28 (by decide)) g hg parts out hp ht ho
  case SHA512_256 => exact sha2_left F512 _ _ hashOK_sha512_256 rfl 112 32 (residue512 32 (by decide)) g hg parts out hp ht ho
  all_goals exact absurd ha (by decide)

/-- **C85, violation (MD5).** The same, for messages whose padding fits into the last block. -/
theorem C85_md5_violation (g : Md5Ctx) (hg : memOK .MD5 0 g) (parts : List (List Byte))
    (hp : ∀ p ∈ parts, 0 < p.length) (h56 : parts.flatten.length % 64 < 56) (out : List Byte) (ho : 16 ≤ out.length) :
    ∃ c d, (md5Impl.init g >>= fun c => md5Impl.calls c (parts.map .update ++ [.digest out])) = .ok (c, [d]) ∧
      (bufferOf .MD5 0 c).take (parts.flatten.length % 64) = endOf 64 parts.flatten := by
  obtain ⟨c, e, h⟩ := calls_session Pgfe.Proofs.Md5.hashOK g hg parts out hp trivial
  have h : Pgfe.Proofs.Md5.Inv parts.flatten c := h
  have hl := Pgfe.Proofs.Sha.tail_length 64 parts.flatten
  obtain ⟨c', d, e1, k⟩ := residueMd5 h (by rw [hl]; exact h56) out ho
  have e1 : md5Impl.digest c out = _ := e1
  rw [hl] at k
  exact ⟨c', d, by rw [e, e1, bind_ok], k⟩

theorem keccak_pair (a : Alg) (P : Pgfe.Proofs.Keccak.Fam) (hc : 1600 - capacity a = 64 * P.n)
    (hd : Pgfe.Proofs.Keccak.DomSep (suffix a) (Pgfe.Proofs.Keccak.dsep P.ap P.al)) (h8 : P.bits % 8 = 0) (ds : Nat) (hs : P.bits / 8 = ds)
    (g₁ g₂ : KeccakCtx) (parts₁ parts₂ : List (List Byte)) (hp₁ : ∀ p ∈ parts₁, p.length ≤ 2 ^ 29 - 192)
    (hp₂ : ∀ p ∈ parts₂, p.length ≤ 2 ^ 29 - 192) (out₁ out₂ : List Byte) (ho₁ : ds ≤ out₁.length) (ho₂ : ds ≤ out₂.length) :
    ∃ c₁ d₁ c₂ d₂, (P.I.init g₁ >>= fun c => P.I.calls c (parts₁.map .update ++ [.digest out₁])) = .ok (c₁, [d₁]) ∧
      (P.I.init g₂ >>= fun c => P.I.calls c (parts₂.map .update ++ [.digest out₂])) = .ok (c₂, [d₂]) ∧
      (c₁ = c₂ → stateAfter (1600 - capacity a) (spongeBlocks a parts₁.flatten)
        = stateAfter (1600 - capacity a) (spongeBlocks a parts₂.flatten)) := by
  subst hs
  obtain ⟨c₁, d₁, e₁, a₁⟩ := residueK P h8 g₁ parts₁ hp₁ out₁ ho₁
  obtain ⟨c₂, d₂, e₂, a₂⟩ := residueK P h8 g₂ parts₂ hp₂ out₂ ho₂
  refine ⟨c₁, d₁, c₂, d₂, e₁, e₂, ?_⟩
  intro h
  subst h
  have h24 := P.h0.n24
  have r₁ := Pgfe.Proofs.Keccak.fin_repS (8 * P.n) P.n0 (by omega) _ _ hd parts₁.flatten
  have r₂ := Pgfe.Proofs.Keccak.fin_repS (8 * P.n) P.n0 (by omega) _ _ hd parts₂.flatten
  rw [state_absorb, state_absorb, hc, show 64 * P.n = 8 * (8 * P.n) by omega]
  exact at_inj r₁ r₂ a₁ a₂

theorem keccak_all (a : Alg) (ha : isKeccak a = true) (bits : Nat) (hb : bits < 2 ^ 32) (h8 : isShake a = true → bits % 8 = 0)
    (g₁ g₂ : (a.impl bits).Ctx) (parts₁ parts₂ : List (List Byte)) (hp₁ : ∀ p ∈ parts₁, p.length ≤ 2 ^ 29 - 192)
    (hp₂ : ∀ p ∈ parts₂, p.length ≤ 2 ^ 29 - 192) (out₁ out₂ : List Byte)
    (ho₁ : outSize a bits ≤ out₁.length) (ho₂ : outSize a bits ≤ out₂.length) :
    ∃ c₁ d₁ c₂ d₂, ((a.impl bits).init g₁ >>= fun c => (a.impl bits).calls c (parts₁.map .update ++ [.digest out₁])) = .ok (c₁, [d₁]) ∧
      ((a.impl bits).init g₂ >>= fun c => (a.impl bits).calls c (parts₂.map .update ++ [.digest out₂])) = .ok (c₂, [d₂]) ∧
      (c₁ = c₂ → stateAfter (1600 - capacity a) (spongeBlocks a parts₁.flatten)
        = stateAfter (1600 - capacity a) (spongeBlocks a parts₂.flatten)) := by
  cases a
  case SHA3_224 =>
    exact keccak_pair .SHA3_224 (kfam .SHA3_224 bits hb) rfl dsep3 (by decide : (224 : Nat) % 8 = 0) 28 (by decide : (224 : Nat) / 8 = 28)
      g₁ g₂ parts₁ parts₂ hp₁ hp₂ out₁ out₂ ho₁ ho₂
  case SHA3_256 =>
    exact keccak_pair .SHA3_256 (kfam .SHA3_256 bits hb) rfl dsep3 (by decide : (256 : Nat) % 8 = 0) 32 (by decide : (256 : Nat) / 8 = 32)
      g₁ g₂ parts₁ parts₂ hp₁ hp₂ out₁ out₂ ho₁ ho₂
  case SHA3_384 =>
    exact keccak_pair .SHA3_384 (kfam .SHA3_384 bits hb) rfl dsep3 (by decide : (384 : Nat) % 8 = 0) 48 (by decide : (384 : Nat) / 8 = 48)
      g₁ g₂ parts₁ parts₂ hp₁ hp₂ out₁ out₂ ho₁ ho₂
  case SHA3_512 =>
    exact keccak_pair .SHA3_512 (kfam .SHA3_512 bits hb) rfl dsep3 (by decide : (512 : Nat) % 8 = 0) 64 (by decide : (512 : Nat) / 8 = 64)
      g₁ g₂ parts₁ parts₂ hp₁ hp₂ out₁ out₂ ho₁ ho₂
  case RawSHAKE128 =>
    exact keccak_pair .RawSHAKE128 (kfam .RawSHAKE128 bits hb) rfl dsepR (h8 rfl) _ rfl g₁ g₂ parts₁ parts₂ hp₁ hp₂ out₁ out₂ ho₁ ho₂
  case RawSHAKE256 =>
    exact keccak_pair .RawSHAKE256 (kfam .RawSHAKE256 bits hb) rfl dsepR (h8 rfl) _ rfl g₁ g₂ parts₁ parts₂ hp₁ hp₂ out₁ out₂ ho₁ ho₂
  case SHAKE128 =>
    exact keccak_pair .SHAKE128 (kfam .SHAKE128 bits hb) rfl dsepS (h8 rfl) _ rfl g₁ g₂ parts₁ parts₂ hp₁ hp₂ out₁ out₂ ho₁ ho₂
  case SHAKE256 =>
    exact keccak_pair .SHAKE256 (kfam .SHAKE256 bits hb) rfl dsepS (h8 rfl) _ rfl g₁ g₂ parts₁ parts₂ hp₁ hp₂ out₁ out₂ ho₁ ho₂
  all_goals exact absurd ha (by decide)

theorem one_block (a : Alg) (ha : isKeccak a = true) (m : List Byte) (h : m.length < blockBytes a) : ∃ x, spongeBlocks a m = [x] := by
  obtain ⟨rb, d, hc, h0, h200, hd⟩ := keccak_params a ha
  have hr : blockBytes a = rb := by
    have : 8 * blockBytes a = 1600 - capacity a := by
      cases a <;> first | exact absurd ha (by decide) | rfl
    omega
  rw [hr] at h
  have hl : (Pgfe.Proofs.Keccak.padB rb d m).length = rb := by
    rw [Pgfe.Proofs.Keccak.padB, List.length_append, Pgfe.Proofs.Keccak.padTail_length _ _ (by rw [Nat.mod_eq_of_lt h]; omega),
      Nat.mod_eq_of_lt h]; omega
  refine ⟨Pgfe.Spec.Keccak.bitsOf (Pgfe.Proofs.Keccak.padB rb d m), ?_⟩
  rw [spongeBlocks, hc, ← Pgfe.Proofs.Keccak.pad_bits rb h0 _ d hd, Pgfe.Proofs.Keccak.bitBlocks_bitsOf,
    Pgfe.Proofs.Sha.blocks_one rb h0 _ hl]
  rfl

/-- **C85, violation (KECCAK).** Two computations with the same function, from any memories and with any updates.
If the contexts after the digest are the same, the messages were the same, or they collide inside the sponge.  For
messages shorter than a block there is no "or": the context, which is still there, tells the whole message. -/
theorem C85_keccak_violation (a : Alg) (ha : isKeccak a = true) (bits : Nat) (hb : bits < 2 ^ 32) (h8 : isShake a = true → bits % 8 = 0)
    (g₁ g₂ : (a.impl bits).Ctx) (parts₁ parts₂ : List (List Byte)) (hp₁ : ∀ p ∈ parts₁, p.length ≤ 2 ^ 29 - 192)
    (hp₂ : ∀ p ∈ parts₂, p.length ≤ 2 ^ 29 - 192) (out₁ out₂ : List Byte)
    (ho₁ : outSize a bits ≤ out₁.length) (ho₂ : outSize a bits ≤ out₂.length) :
    ∃ c₁ d₁ c₂ d₂, ((a.impl bits).init g₁ >>= fun c => (a.impl bits).calls c (parts₁.map .update ++ [.digest out₁])) = .ok (c₁, [d₁]) ∧
      ((a.impl bits).init g₂ >>= fun c => (a.impl bits).calls c (parts₂.map .update ++ [.digest out₂])) = .ok (c₂, [d₂]) ∧
      (c₁ = c₂ → parts₁.flatten = parts₂.flatten ∨
        InnerCollision (1600 - capacity a) (spongeBlocks a parts₁.flatten) (spongeBlocks a parts₂.flatten)) ∧
      (parts₁.flatten.length < blockBytes a → parts₂.flatten.length < blockBytes a → c₁ = c₂ →
        parts₁.flatten = parts₂.flatten) := by
  obtain ⟨c₁, d₁, c₂, d₂, e₁, e₂, h⟩ := keccak_all a ha bits hb h8 g₁ g₂ parts₁ parts₂ hp₁ hp₂ out₁ out₂ ho₁ ho₂
  refine ⟨c₁, d₁, c₂, d₂, e₁, e₂, ?_, ?_⟩
  · intro hc
    by_cases hne : spongeBlocks a parts₁.flatten = spongeBlocks a parts₂.flatten
    · exact .inl (C81_padding a a ha ha rfl _ _ hne).2
    · have f₁ := blocks_facts a ha parts₁.flatten
      have f₂ := blocks_facts a ha parts₂.flatten
      exact .inr (Pgfe.Proofs.KInj.inner _ (by omega) _ _ f₁.1 f₂.1 f₁.2.1 f₂.2.1 hne (h hc))
  · intro l₁ l₂ hc
    obtain ⟨x₁, q₁⟩ := one_block a ha _ l₁
    obtain ⟨x₂, q₂⟩ := one_block a ha _ l₂
    have f₁ := (blocks_facts a ha parts₁.flatten).1
    have f₂ := (blocks_facts a ha parts₂.flatten).1
    have hs := h hc
    rw [q₁] at f₁ hs
    rw [q₂] at f₂ hs
    have e := single _ (by omega) x₁ x₂ (f₁ x₁ (by simp)) (f₂ x₂ (by simp)) hs
    exact (C81_padding a a ha ha rfl _ _ (by rw [q₁, q₂, e])).2

/-- **C85, violation (HMAC).** After set_key, any updates and a digest the key can be read off the context: its
second pad, xored with 0x5c, is the key (cut to the block size), filled up with zeros. -/
theorem C85_hmac_violation (a : Alg) (ha : isShake a = false) (c : HmacCtx (a.impl 0)) (hc : hmacCtxOK a c)
    (mid : List Byte) (hm : mid.length = outSize a 0 + 1) (g : (a.impl 0).Ctx) (hg : memOK a 0 g)
    (key : List Byte) (parts : List (List Byte)) (hp : ∀ p ∈ parts, okUpd a p.length)
    (ht : okTot a (blockBytes a + parts.flatten.length)) (out : List Byte) (ho : outSize a 0 ≤ out.length) :
    ∃ c1 c2 c3 d, HmacCtx.setKey (a.impl 0) a.blockSize c key key.length = .ok c1 ∧
      HmacCtx.feed (a.impl 0) c1 parts = .ok c2 ∧
      HmacCtx.digest (a.impl 0) a.blockSize a.digestSize mid g c2 out = .ok (c3, d) ∧
      c3.kOPad.map (· ^^^ 0x5c#8)
        = key.take (blockBytes a) ++ List.replicate (blockBytes a - key.length) 0#8 := by
  obtain ⟨K, cf⟩ := exists_ok0 a
  have hd := cf.ds
  obtain ⟨h1, h2, h3⟩ := hmac_sizes a ha
  rw [blockSize_eq, digestSize_eq a ha]
  obtain ⟨c1, e1, i1⟩ := Pgfe.Proofs.Hmac.setKey_ok K (blockBytes a) c ⟨cf.wf _ hc.1, hc.2⟩ (cf.u _ h1)
    (K.tot_mono _ _ (by omega) (cf.t _ h3)) key key.length (Nat.le_refl _)
  obtain ⟨c2, e2, i2⟩ := Pgfe.Proofs.Hmac.feed_ok K (blockBytes a) parts _ _ c1 i1 (fun p hp' => cf.u _ (hp p hp'))
    (by simpa using cf.t _ ht)
  obtain ⟨c3, e3, _⟩ := Pgfe.Proofs.Hmac.digest_ok K (blockBytes a) _ _ c2 i2 mid g (cf.wf _ hg) (by rw [hd]; omega) out
    (by rw [hd]; exact ho) (by simpa using cf.t _ ht) (by rw [hd]; exact cf.t _ h3) (cf.u _ h1) (by rw [hd]; exact cf.u _ h2)
  have hk := residueHmac K (blockBytes a) _ _ c2 i2 mid g out c3 _ e3
  rw [hd] at e3
  refine ⟨c1, c2, c3, _, e1, e2, e3, ?_⟩
  rw [hk, List.take_length, xorPad, List.map_map, List.length_take]
  have : ((fun x : Byte => x ^^^ 0x5c#8) ∘ fun x : Byte => x ^^^ 0x5c#8) = id := by
    funext x
    simp [BitVec.xor_assoc]
  rw [this, List.map_id, show blockBytes a - min (blockBytes a) key.length = blockBytes a - key.length by omega]

/-! ## Concrete cases -/

/-- SHA-1 of a password in two updates: the context holds the digest and zeros. -/
theorem C85_sha1_example : ∃ ws : List W32,
    (sha1Impl.init ⟨List.replicate 5 7#32, 1#32, 2#32, 3, List.replicate 64 0xaa#8⟩ >>= fun c =>
        sha1Impl.calls c [.update (str "my pass"), .update (str "word"), .digest (List.replicate 20 0#8)])
      = .ok ((⟨ws, 0#32, 0#32, 0, List.replicate 64 0#8⟩ : ShaCtx 32), [libHash .SHA1 0 (str "my password")]) := by
  obtain ⟨ws, _, h⟩ := C85_sha1 ⟨List.replicate 5 7#32, 1#32, 2#32, 3, List.replicate 64 0xaa#8⟩ ⟨rfl, rfl⟩
    [str "my pass", str "word"] (by decide) (by decide) (List.replicate 20 0#8) (by decide)
  refine ⟨ws, h.trans ?_⟩
  rw [show (List.replicate 20 (0#8 : Byte)).drop 20 = [] from rfl, List.append_nil]
  rfl

/-- SHA-256 of the same: the password is the beginning of the block buffer. -/
theorem C85_sha256_example : ∃ (c : ShaCtx 32) (d : List Byte),
    (sha256Impl.init ⟨List.replicate 8 7#32, 1#32, 2#32, 3, List.replicate 64 0xaa#8⟩ >>= fun c =>
        sha256Impl.calls c [.update (str "my pass"), .update (str "word"), .digest (List.replicate 32 0#8)]) = .ok (c, [d]) ∧
      c.block.take 11 = str "my password" := by
  obtain ⟨c, d, h1, h2⟩ := C85_sha2_violation .SHA256 rfl
    (⟨List.replicate 8 7#32, 1#32, 2#32, 3, List.replicate 64 0xaa#8⟩ : ShaCtx 32) ⟨rfl, rfl⟩
    [str "my pass", str "word"] (by show ∀ p ∈ [str "my pass", str "word"], p.length < 2 ^ 31; decide)
    (by show 8 * _ < 2 ^ 64; decide) (List.replicate 32 0#8) (by decide)
  exact ⟨c, d, h1, h2⟩

/-- MD5 of a message of more than a block: its last 6 bytes. -/
theorem C85_md5_example : ∃ (c : Md5Ctx) (d : List Byte),
    (md5Impl.init ⟨List.replicate 4 7#32, 1#64, List.replicate 64 0xaa#8⟩ >>= fun c =>
        md5Impl.calls c [.update (List.replicate 64 1#8), .update (str "secret"), .digest (List.replicate 16 0#8)]) = .ok (c, [d]) ∧
      c.block.take 6 = str "secret" := by
  obtain ⟨c, d, h1, h2⟩ := C85_md5_violation ⟨List.replicate 4 7#32, 1#64, List.replicate 64 0xaa#8⟩ ⟨rfl, rfl⟩
    [List.replicate 64 1#8, str "secret"] (by decide) (by decide) (List.replicate 16 0#8) (by decide)
  exact ⟨c, d, h1, h2⟩

/-- SHA3-256 of two passwords: the contexts after the digest differ. -/
theorem C85_keccak_example : ∃ c₁ d₁ c₂ d₂,
    ((Alg.impl .SHA3_256 0).init kGarbage >>= fun c => (Alg.impl .SHA3_256 0).calls c [.update (str "tiger"), .digest (List.replicate 32 0#8)])
      = .ok (c₁, [d₁]) ∧
    ((Alg.impl .SHA3_256 0).init kGarbage >>= fun c => (Alg.impl .SHA3_256 0).calls c [.update (str "horse"), .digest (List.replicate 32 0#8)])
      = .ok (c₂, [d₂]) ∧ c₁ ≠ c₂ := by
  obtain ⟨c₁, d₁, c₂, d₂, e₁, e₂, _, h⟩ := C85_keccak_violation .SHA3_256 rfl 0 (by decide) (fun h => absurd h (by decide)) kGarbage kGarbage
    [str "tiger"] [str "horse"] (by decide) (by decide) (List.replicate 32 0#8) (List.replicate 32 0#8) (by decide) (by decide)
  exact ⟨c₁, d₁, c₂, d₂, e₁, e₂, fun e => absurd (h (by decide) (by decide) e) (by decide)⟩

/-- HMAC-SHA-1 with the key "Jefe": the key is in the context after the digest. -/
theorem C85_hmac_example : ∃ c1 c2 c3 d, HmacCtx.setKey (Alg.impl .SHA1 0) (Alg.blockSize .SHA1) sha1Mem.ctx (str "Jefe") 4 = .ok c1 ∧
    HmacCtx.feed (Alg.impl .SHA1 0) c1 [str "what do ya want ", str "for nothing?"] = .ok c2 ∧
    HmacCtx.digest (Alg.impl .SHA1 0) (Alg.blockSize .SHA1) (Alg.digestSize .SHA1) sha1Mem.mid sha1Mem.inner c2 (List.replicate 20 0#8)
      = .ok (c3, d) ∧
    (c3.kOPad.map (· ^^^ 0x5c#8)).take 4 = str "Jefe" := by
  obtain ⟨c1, c2, c3, d, e1, e2, e3, h⟩ := C85_hmac_violation .SHA1 rfl sha1Mem.ctx sha1Mem_ok.1 sha1Mem.mid sha1Mem_ok.2.1
    sha1Mem.inner sha1Mem_ok.2.2 (str "Jefe") [str "what do ya want ", str "for nothing?"]
    (by show ∀ p ∈ [str "what do ya want ", str "for nothing?"], p.length < 2 ^ 31; decide) (by show 8 * _ < 2 ^ 64; decide)
    (List.replicate 20 0#8) (by decide)
  exact ⟨c1, c2, c3, d, e1, e2, e3, by rw [h]; decide⟩

end Pgfe.Props
