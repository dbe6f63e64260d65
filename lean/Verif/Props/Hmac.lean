import Verif.Props.Names
import Verif.Proofs.Hmac
/-!
# C33 - C36: HMAC

`hmac H B` is RFC 2104 for a hash function `H` with blocks of `B` bytes (Verif/Spec/Hmac.lean).
`macSession` is set_key, any number of updates, digest.  The contents of all memory the functions do
not initialise (context, local arrays) are arbitrary.
-/
namespace Pgfe.Spec
open Pgfe.Model

/-- The arrays of an HMAC context have their declared sizes; their contents are arbitrary. -/
def hmacCtxOK (a : Alg) (c : HmacCtx (a.impl 0)) : Prop :=
  memOK a 0 c.hash ∧ c.kIPad.length = blockBytes a ∧ c.kOPad.length = blockBytes a

/-- The same for the local variables of the one-shot function. -/
def hmacMemOK (a : Alg) (g : HmacCtx.Mem (a.impl 0)) : Prop :=
  hmacCtxOK a g.ctx ∧ g.mid.length = outSize a 0 + 1 ∧ memOK a 0 g.inner

/-- The calls of a history are well defined: update lengths as in `okUpd`, output buffers large
enough. -/
def hcallOK (a : Alg) : HmacCtx.Call (a.impl 0) → Prop
  | .init => True
  | .setKey _ => True
  | .update x => okUpd a x.length
  | .digest mid inner out => mid.length = outSize a 0 + 1 ∧ memOK a 0 inner ∧ outSize a 0 ≤ out.length

/-- Bytes passed to update in a history. -/
def hInput {I : HashImpl} (l : List (HmacCtx.Call I)) : Nat :=
  (l.map (fun | .update x => x.length | _ => 0)).sum

end Pgfe.Spec

namespace Pgfe.Props
open Pgfe.Model Pgfe.Spec Pgfe.Proofs Pgfe.Proofs.Hash Pgfe.Proofs.Hmac

theorem blockSize_eq (a : Alg) : a.blockSize = blockBytes a := by cases a <;> rfl
theorem digestSize_eq (a : Alg) (h : isShake a = false) : a.digestSize = outSize a 0 := by
  cases a <;> first | rfl | exact absurd h (by decide)

/-- Everything needed about the sizes. -/
theorem hmac_sizes (a : Alg) (h : isShake a = false) :
    okUpd a (blockBytes a) ∧ okUpd a (outSize a 0) ∧ okTot a (blockBytes a + outSize a 0) := by
  cases a <;> first
    | exact absurd h (by decide)
    | (refine ⟨?_, ?_, ?_⟩ <;> (first | exact trivial | (simp only [okUpd, okTot, blockBytes, outSize]; decide)))

theorem exists_ok0 (a : Alg) : ∃ K : HashOK (a.impl 0) (libHash a 0),
    Conf K (memOK a 0) (outSize a 0) (okUpd a) (okTot a) := exists_ok a 0 (by decide)

/-- **C33, exact.** For every algorithm, key, message and chunking: HMAC with the key cut to the block
size, over the function the library computes. -/
theorem C33_exact (a : Alg) (ha : isShake a = false) (c : HmacCtx (a.impl 0)) (hc : hmacCtxOK a c)
    (mid : List Byte) (hm : mid.length = outSize a 0 + 1) (g : (a.impl 0).Ctx) (hg : memOK a 0 g)
    (key : List Byte) (parts : List (List Byte)) (hp : ∀ p ∈ parts, okUpd a p.length)
    (ht : okTot a (blockBytes a + parts.flatten.length)) (out : List Byte) (ho : outSize a 0 ≤ out.length) :
    HmacCtx.macSession (a.impl 0) a.blockSize a.digestSize mid g c key parts out
      = .ok (hmacShort (libHash a 0) (blockBytes a) (key.take (blockBytes a)) parts.flatten
          ++ out.drop (outSize a 0)) := by
  obtain ⟨K, cf⟩ := exists_ok0 a
  have hd := cf.ds
  obtain ⟨h1, h2, h3⟩ := hmac_sizes a ha
  rw [blockSize_eq, digestSize_eq a ha]
  obtain ⟨c1, e1, i1⟩ := setKey_ok K (blockBytes a) c ⟨cf.wf _ hc.1, hc.2⟩ (cf.u _ h1)
    (K.tot_mono _ _ (by omega) (cf.t _ h3)) key key.length (Nat.le_refl _)
  rw [List.take_length] at i1
  obtain ⟨c2, e2, i2⟩ := feed_ok K (blockBytes a) parts _ _ c1 i1 (fun p h => cf.u _ (hp p h))
    (by simpa using cf.t _ ht)
  rw [List.nil_append] at i2
  obtain ⟨c3, e3, _⟩ := digest_ok K (blockBytes a) _ _ c2 i2 mid g (cf.wf _ hg) (by omega) out (by omega)
    (cf.t _ ht) (by rw [hd]; exact cf.t _ h3) (cf.u _ h1) (by rw [hd]; exact cf.u _ h2)
  rw [hd] at e3
  rw [HmacCtx.macSession, e1, bind_ok, e2, bind_ok, e3, bind_ok]

/-- **C33** (partial: keys up to the block size; longer ones: `C33_exact`, `C33_violation`). The MAC is
RFC 2104 over the library's own hash function. -/
theorem C33_partial (a : Alg) (ha : isShake a = false) (c : HmacCtx (a.impl 0)) (hc : hmacCtxOK a c)
    (mid : List Byte) (hm : mid.length = outSize a 0 + 1) (g : (a.impl 0).Ctx) (hg : memOK a 0 g)
    (key : List Byte) (hk : key.length ≤ blockBytes a) (parts : List (List Byte))
    (hp : ∀ p ∈ parts, okUpd a p.length)
    (ht : okTot a (blockBytes a + parts.flatten.length)) (out : List Byte) (ho : outSize a 0 ≤ out.length) :
    HmacCtx.macSession (a.impl 0) a.blockSize a.digestSize mid g c key parts out
      = .ok (hmac (libHash a 0) (blockBytes a) key parts.flatten ++ out.drop (outSize a 0)) := by
  rw [C33_exact a ha c hc mid hm g hg key parts hp ht out ho, List.take_of_length_le hk, hmac,
    if_neg (by omega)]

theorem onePad_add (a : Alg) (n : Nat) (h : onePadBlock a n) : onePadBlock a (blockBytes a + n) := by
  cases a <;> simp only [onePadBlock, blockBytes] at h ⊢ <;> try omega

theorem onePad_outer (a : Alg) (ha : isShake a = false) : onePadBlock a (blockBytes a + outSize a 0) := by
  cases a <;> first | exact absurd ha (by decide) | exact trivial | (simp only [onePadBlock, blockBytes, outSize]; decide)

/-- The standard's hash and the library's give the same HMAC when the message needs no second padding
block. -/
theorem hmac_std (a : Alg) (ha : isShake a = false) (k m : List Byte) (hk : k.length ≤ blockBytes a)
    (h : onePadBlock a m.length) :
    hmacShort (libHash a 0) (blockBytes a) k m = hmacShort (stdHash a 0) (blockBytes a) k m := by
  obtain ⟨K, cf⟩ := exists_ok0 a
  have hd := cf.ds
  rw [hmacShort, hmacShort, libHash_std a 0 (xorPad (blockBytes a) k 0x36#8 ++ m)
    (by rw [List.length_append, xorPad_length _ _ _ hk]; exact onePad_add a _ h),
    libHash_std a 0 _ (by
      rw [← libHash_std a 0 (xorPad (blockBytes a) k 0x36#8 ++ m)
        (by rw [List.length_append, xorPad_length _ _ _ hk]; exact onePad_add a _ h),
        List.length_append, xorPad_length _ _ _ hk, K.len, hd]
      exact onePad_outer a ha)]

/-- **C33.** ... and it is RFC 2104 over the standard's hash function, for messages that need no second
padding block (C18-C20), for example all messages of up to 55 bytes. -/
theorem C33_standard_partial (a : Alg) (ha : isShake a = false) (c : HmacCtx (a.impl 0)) (hc : hmacCtxOK a c)
    (mid : List Byte) (hm : mid.length = outSize a 0 + 1) (g : (a.impl 0).Ctx) (hg : memOK a 0 g)
    (key : List Byte) (hk : key.length ≤ blockBytes a) (parts : List (List Byte))
    (hp : ∀ p ∈ parts, okUpd a p.length)
    (ht : okTot a (blockBytes a + parts.flatten.length)) (h1 : onePadBlock a parts.flatten.length)
    (out : List Byte) (ho : outSize a 0 ≤ out.length) :
    HmacCtx.macSession (a.impl 0) a.blockSize a.digestSize mid g c key parts out
      = .ok (hmac (stdHash a 0) (blockBytes a) key parts.flatten ++ out.drop (outSize a 0)) := by
  rw [C33_exact a ha c hc mid hm g hg key parts hp ht out ho, List.take_of_length_le hk, hmac,
    if_neg (by omega), hmac_std a ha _ _ hk h1]

/-- **C33**, the one-shot functions: the same value, for every key. -/
theorem C33_oneShot_exact (a : Alg) (ha : isShake a = false) (g : HmacCtx.Mem (a.impl 0)) (hg : hmacMemOK a g)
    (key : List Byte) (n : Nat) (hn : n ≤ key.length) (data : List Byte) (l : Nat) (hl : l ≤ data.length)
    (hu : okUpd a l) (ht : okTot a (blockBytes a + l)) (out : List Byte) (ho : outSize a 0 ≤ out.length) :
    HmacCtx.oneShot (a.impl 0) a.blockSize a.digestSize g key n data l out
      = .ok (hmacShort (libHash a 0) (blockBytes a) ((key.take n).take (blockBytes a)) (data.take l)
          ++ out.drop (outSize a 0)) := by
  obtain ⟨K, cf⟩ := exists_ok0 a
  have hd := cf.ds
  obtain ⟨h1, h2, h3⟩ := hmac_sizes a ha
  obtain ⟨hc, hm, hi⟩ := hg
  have htb := K.tot_mono (blockBytes a) _ (by omega) (cf.t _ h3)
  rw [blockSize_eq, digestSize_eq a ha]
  obtain ⟨c0, e0, i0⟩ := init_ok K (blockBytes a) g.ctx ⟨cf.wf _ hc.1, hc.2⟩ (cf.u _ h1) htb
  obtain ⟨c1, e1, i1⟩ := setKey_ok K (blockBytes a) c0
    ⟨K.wf _ _ (K.safe _ _ i0.inv), i0.il, by rw [i0.op, xorPad_length _ _ _ i0.kl]⟩ (cf.u _ h1) htb key n hn
  obtain ⟨c2, e2, i2⟩ := update_ok K (blockBytes a) _ _ c1 i1 data l (cf.u _ hu) hl
    (by simpa using cf.t _ ht)
  rw [List.nil_append] at i2
  obtain ⟨c3, e3, _⟩ := digest_ok K (blockBytes a) _ _ c2 i2 g.mid g.inner (cf.wf _ hi) (by omega) out (by omega)
    (by rw [List.length_take, Nat.min_eq_left hl]; exact cf.t _ ht) (by rw [hd]; exact cf.t _ h3) (cf.u _ h1)
    (by rw [hd]; exact cf.u _ h2)
  rw [hd] at e3
  rw [HmacCtx.oneShot, e0, bind_ok, e1, bind_ok, e2, bind_ok, e3, bind_ok]

/-- Arbitrary memory for the examples. -/
def sha1Mem : HmacCtx.Mem (Alg.impl .SHA1 0) :=
  ⟨⟨(⟨List.replicate 5 1#32, 2#32, 3#32, 99, List.replicate 64 4#8⟩ : ShaCtx 32), List.replicate 64 5#8,
    List.replicate 64 6#8⟩, List.replicate 21 7#8,
    (⟨List.replicate 5 8#32, 9#32, 10#32, 11, List.replicate 64 12#8⟩ : ShaCtx 32)⟩

theorem sha1Mem_ok : hmacMemOK .SHA1 sha1Mem := ⟨⟨⟨rfl, rfl⟩, rfl, rfl⟩, rfl, ⟨rfl, rfl⟩⟩

/-- RFC 2202 test case 6: a key of 80 bytes. -/
def longKey : List Byte := List.replicate 80 0xaa#8
def longMsg : List Byte := str "Test Using Larger Than Block-Size Key - Hash Key First"

/-- The RFC 2104 value (it is the one RFC 2202 prints). -/
def longMac : List Byte := [0xaa#8, 0x4a#8, 0xe5#8, 0xe1#8, 0x52#8, 0x72#8, 0xd0#8, 0x0e#8, 0x95#8, 0x70#8, 0x56#8, 0x37#8, 0xce#8, 0x8a#8, 0x3b#8, 0x55#8, 0xed#8, 0x40#8, 0x21#8, 0x12#8]

theorem longMac_eq : hmac Sha.sha1 64 longKey longMsg = longMac := by
  have h0 : Sha.sha1 longKey = [0x4c#8, 0xa0#8, 0xef#8, 0x38#8, 0xf1#8, 0x79#8, 0x4b#8, 0x28#8, 0xa8#8, 0xf8#8, 0xee#8, 0x11#8, 0x0e#8, 0xe7#8, 0x9d#8, 0x48#8, 0xce#8, 0x13#8, 0xbe#8, 0x25#8] := by
    rw [sha1_eval]; decide +kernel
  have h1 : Sha.sha1 (xorPad 64 [0x4c#8, 0xa0#8, 0xef#8, 0x38#8, 0xf1#8, 0x79#8, 0x4b#8, 0x28#8, 0xa8#8, 0xf8#8, 0xee#8, 0x11#8, 0x0e#8, 0xe7#8, 0x9d#8, 0x48#8, 0xce#8, 0x13#8, 0xbe#8, 0x25#8] 0x36#8 ++ longMsg) = [0x80#8, 0xfe#8, 0x60#8, 0xe0#8, 0xe4#8, 0xb4#8, 0xd3#8, 0x58#8, 0xbf#8, 0xda#8, 0xae#8, 0x8d#8, 0x4c#8, 0x9b#8, 0x5d#8, 0xab#8, 0x46#8, 0xff#8, 0xa0#8, 0xef#8] := by
    rw [sha1_eval]; decide +kernel
  have h2 : Sha.sha1 (xorPad 64 [0x4c#8, 0xa0#8, 0xef#8, 0x38#8, 0xf1#8, 0x79#8, 0x4b#8, 0x28#8, 0xa8#8, 0xf8#8, 0xee#8, 0x11#8, 0x0e#8, 0xe7#8, 0x9d#8, 0x48#8, 0xce#8, 0x13#8, 0xbe#8, 0x25#8] 0x5c#8 ++ [0x80#8, 0xfe#8, 0x60#8, 0xe0#8, 0xe4#8, 0xb4#8, 0xd3#8, 0x58#8, 0xbf#8, 0xda#8, 0xae#8, 0x8d#8, 0x4c#8, 0x9b#8, 0x5d#8, 0xab#8, 0x46#8, 0xff#8, 0xa0#8, 0xef#8]) = longMac := by
    rw [sha1_eval]; decide +kernel
  rw [hmac, if_pos (by decide), h0, hmacShort, h1, h2]

theorem truncMac_eq : hmacShort Sha.sha1 64 (longKey.take 64) longMsg
    = [0x07#8, 0x0a#8, 0x98#8, 0x99#8, 0x2c#8, 0x4c#8, 0x1a#8, 0x83#8, 0x47#8, 0x4c#8, 0xb7#8, 0x80#8, 0xfc#8, 0x56#8, 0x46#8, 0x08#8, 0xdf#8, 0x3c#8, 0xf5#8, 0x03#8] := by
  have h1 : Sha.sha1 (xorPad 64 (longKey.take 64) 0x36#8 ++ longMsg) = [0x29#8, 0xef#8, 0x93#8, 0xd9#8, 0xe8#8, 0xe2#8, 0x4a#8, 0xdf#8, 0x07#8, 0x5b#8, 0x0f#8, 0x40#8, 0x49#8, 0xd6#8, 0xf4#8, 0xa6#8, 0x15#8, 0x9e#8, 0xac#8, 0x3a#8] := by
    rw [sha1_eval]; decide +kernel
  have h2 : Sha.sha1 (xorPad 64 (longKey.take 64) 0x5c#8 ++ [0x29#8, 0xef#8, 0x93#8, 0xd9#8, 0xe8#8, 0xe2#8, 0x4a#8, 0xdf#8, 0x07#8, 0x5b#8, 0x0f#8, 0x40#8, 0x49#8, 0xd6#8, 0xf4#8, 0xa6#8, 0x15#8, 0x9e#8, 0xac#8, 0x3a#8])
      = [0x07#8, 0x0a#8, 0x98#8, 0x99#8, 0x2c#8, 0x4c#8, 0x1a#8, 0x83#8, 0x47#8, 0x4c#8, 0xb7#8, 0x80#8, 0xfc#8, 0x56#8, 0x46#8, 0x08#8, 0xdf#8, 0x3c#8, 0xf5#8, 0x03#8] := by
    rw [sha1_eval]; decide +kernel
  rw [hmacShort, h1, h2]

/-- **C33, violation.** For a key longer than the block the one-shot function does not compute the RFC 2104
value, neither over the standard's hash function nor over the library's: RFC 2202 test case 6 for
HMAC-SHA-1. -/
theorem C33_violation : ∃ d,
    HmacCtx.oneShot (Alg.impl .SHA1 0) (Alg.blockSize .SHA1) (Alg.digestSize .SHA1) sha1Mem longKey 80 longMsg 54
      (List.replicate 20 0#8) = .ok d ∧
    hmac (stdHash .SHA1 0) (blockBytes .SHA1) longKey longMsg = longMac ∧
    d ≠ hmac (stdHash .SHA1 0) (blockBytes .SHA1) longKey longMsg ∧
    d ≠ hmac (libHash .SHA1 0) (blockBytes .SHA1) longKey longMsg := by
  have hb : blockBytes .SHA1 = 64 := rfl
  have hs : stdHash .SHA1 0 = Sha.sha1 := rfl
  have e := C33_oneShot_exact .SHA1 rfl sha1Mem sha1Mem_ok longKey 80 (by decide) longMsg 54 (by decide)
    (by show 54 < 2 ^ 31; decide) (by show 8 * _ < 2 ^ 64; decide) (List.replicate 20 0#8) (by decide)
  have k0 : longKey.take 80 = longKey := by decide
  have m0 : longMsg.take 54 = longMsg := by decide
  rw [k0, m0, hb, ← hb, hmac_std .SHA1 rfl (longKey.take (blockBytes .SHA1)) longMsg (by decide) (by show _ % 64 < 56; decide),
    hb, hs, truncMac_eq] at e
  have l0 : libHash .SHA1 0 longKey = stdHash .SHA1 0 longKey := libHash_std .SHA1 0 longKey (by show _ % 64 < 56; decide)
  have l1 : hmac (libHash .SHA1 0) (blockBytes .SHA1) longKey longMsg = hmac (stdHash .SHA1 0) (blockBytes .SHA1) longKey longMsg := by
    rw [hmac, hmac, if_pos (by decide), l0]
    refine hmac_std .SHA1 rfl _ longMsg ?_ (by show _ % 64 < 56; decide)
    rw [show stdHash .SHA1 0 = Sha.sha1 from rfl, sha1_length]; decide
  refine ⟨_, e, longMac_eq, ?_, ?_⟩
  · rw [hb, hs, longMac_eq]; decide
  · rw [l1, hb, hs, longMac_eq]; decide

/-- RFC 2202 test case 2. -/
def jefeMac : List Byte := [0xef#8, 0xfc#8, 0xdf#8, 0x6a#8, 0xe5#8, 0xeb#8, 0x2f#8, 0xa2#8, 0xd2#8, 0x74#8, 0x16#8, 0xd5#8, 0xf1#8, 0x84#8, 0xdf#8, 0x9c#8, 0x25#8, 0x9a#8, 0x7c#8, 0x79#8]
def jefeMsg : List Byte := str "what do ya want for nothing?"

theorem jefeMac_eq : hmac (stdHash .SHA1 0) (blockBytes .SHA1) (str "Jefe") jefeMsg = jefeMac := by
  have h1 : Sha.sha1 (xorPad 64 (str "Jefe") 0x36#8 ++ jefeMsg) = [0x98#8, 0x85#8, 0x12#8, 0x44#8, 0x3a#8, 0xf9#8, 0x1c#8, 0x57#8, 0xa3#8, 0x8c#8, 0xe2#8, 0xdc#8, 0x8e#8, 0xc3#8, 0x87#8, 0x96#8, 0x6c#8, 0x08#8, 0xde#8, 0xc4#8] := by
    rw [sha1_eval]; decide +kernel
  have h2 : Sha.sha1 (xorPad 64 (str "Jefe") 0x5c#8 ++ [0x98#8, 0x85#8, 0x12#8, 0x44#8, 0x3a#8, 0xf9#8, 0x1c#8, 0x57#8, 0xa3#8, 0x8c#8, 0xe2#8, 0xdc#8, 0x8e#8, 0xc3#8, 0x87#8, 0x96#8, 0x6c#8, 0x08#8, 0xde#8, 0xc4#8]) = jefeMac := by
    rw [sha1_eval]; decide +kernel
  have hb : blockBytes .SHA1 = 64 := rfl
  have hs : stdHash .SHA1 0 = Sha.sha1 := rfl
  rw [hmac, if_neg (by decide), hb, hs, hmacShort, h1, h2]

/-- A concrete case of `C33_partial`, and the value: RFC 2202 test case 2. -/
theorem C33_example :
    HmacCtx.macSession (Alg.impl .SHA1 0) (Alg.blockSize .SHA1) (Alg.digestSize .SHA1) sha1Mem.mid sha1Mem.inner
      sha1Mem.ctx (str "Jefe") [str "what do ya want ", [], str "for nothing?"] (List.replicate 21 0xee#8)
    = .ok (jefeMac ++ [0xee#8]) := by
  rw [C33_standard_partial .SHA1 rfl _ sha1Mem_ok.1 _ sha1Mem_ok.2.1 _ sha1Mem_ok.2.2 _ (by decide) _
    (by show ∀ p ∈ _, List.length p < 2 ^ 31; decide) (by show 8 * _ < 2 ^ 64; decide)
    (by show _ % 64 < 56; decide) _ (by decide),
    show [str "what do ya want ", [], str "for nothing?"].flatten = jefeMsg by decide, jefeMac_eq]
  rfl

/-- **C33, violation.** HMAC-MD5 of an empty message is undefined behaviour, for every key (C17). -/
theorem C33_md5_empty (g : HmacCtx.Mem md5Impl) (hg : hmacMemOK .MD5 g) (key : List Byte) (n : Nat)
    (hn : n ≤ key.length) (data out : List Byte) :
    HmacCtx.oneShot md5Impl (Alg.blockSize .MD5) (Alg.digestSize .MD5) g key n data 0 out = .error .uninit := by
  let K := Pgfe.Proofs.Md5.hashOK
  obtain ⟨hc, hm, hi⟩ := hg
  obtain ⟨c0, e0, i0⟩ := init_ok K 64 g.ctx hc (by decide : 0 < 64) trivial
  obtain ⟨c1, e1, i1⟩ := setKey_ok K 64 c0
    ⟨K.wf _ _ (K.safe _ _ i0.inv), i0.il, by rw [i0.op, xorPad_length _ _ _ i0.kl]⟩
    (by decide : 0 < 64) trivial key n hn
  rw [HmacCtx.oneShot, show Alg.blockSize .MD5 = 64 from rfl, e0, bind_ok, e1, bind_ok, HmacCtx.update,
    C17_violation]
  rfl

/-! ## C34 -/

/-- **C34.** Two keys of at least the block size which agree on their first block give the same MAC of every
message. -/
theorem C34_truncated (a : Alg) (ha : isShake a = false) (c₁ c₂ : HmacCtx (a.impl 0)) (hc₁ : hmacCtxOK a c₁)
    (hc₂ : hmacCtxOK a c₂) (mid : List Byte) (hm : mid.length = outSize a 0 + 1) (g : (a.impl 0).Ctx)
    (hg : memOK a 0 g) (k₁ k₂ : List Byte)
    (hk : k₁.take (blockBytes a) = k₂.take (blockBytes a))
    (parts : List (List Byte)) (hp : ∀ p ∈ parts, okUpd a p.length)
    (ht : okTot a (blockBytes a + parts.flatten.length)) (out : List Byte) (ho : outSize a 0 ≤ out.length) :
    ∃ d, HmacCtx.macSession (a.impl 0) a.blockSize a.digestSize mid g c₁ k₁ parts out = .ok d ∧
      HmacCtx.macSession (a.impl 0) a.blockSize a.digestSize mid g c₂ k₂ parts out = .ok d := by
  refine ⟨_, C33_exact a ha c₁ hc₁ mid hm g hg k₁ parts hp ht out ho, ?_⟩
  rw [C33_exact a ha c₂ hc₂ mid hm g hg k₂ parts hp ht out ho, hk]

/-- **C34.** A key and the same key with zero bytes appended (up to the block size) give the same MAC of
every message. -/
theorem C34_zeros (a : Alg) (ha : isShake a = false) (c₁ c₂ : HmacCtx (a.impl 0)) (hc₁ : hmacCtxOK a c₁)
    (hc₂ : hmacCtxOK a c₂) (mid : List Byte) (hm : mid.length = outSize a 0 + 1) (g : (a.impl 0).Ctx)
    (hg : memOK a 0 g) (k : List Byte) (z : Nat) (hk : k.length + z ≤ blockBytes a)
    (parts : List (List Byte)) (hp : ∀ p ∈ parts, okUpd a p.length)
    (ht : okTot a (blockBytes a + parts.flatten.length)) (out : List Byte) (ho : outSize a 0 ≤ out.length) :
    ∃ d, HmacCtx.macSession (a.impl 0) a.blockSize a.digestSize mid g c₁ k parts out = .ok d ∧
      HmacCtx.macSession (a.impl 0) a.blockSize a.digestSize mid g c₂ (k ++ List.replicate z 0#8) parts out
        = .ok d := by
  refine ⟨_, C33_exact a ha c₁ hc₁ mid hm g hg k parts hp ht out ho, ?_⟩
  have e : ∀ u, xorPad (blockBytes a) (k ++ List.replicate z 0#8) u = xorPad (blockBytes a) k u := by
    intro u
    rw [xorPad, xorPad, List.length_append, List.length_replicate, List.append_assoc, List.replicate_append_replicate,
      show z + (blockBytes a - (k.length + z)) = blockBytes a - k.length by omega]
  rw [C33_exact a ha c₂ hc₂ mid hm g hg _ parts hp ht out ho, List.take_of_length_le (by simpa using hk),
    List.take_of_length_le (by omega), hmacShort, hmacShort, e, e]

/-- Concrete keys: 70 and 80 bytes with a common first block, SHA-1. -/
theorem C34_example : ∃ d,
    HmacCtx.macSession (Alg.impl .SHA1 0) (Alg.blockSize .SHA1) (Alg.digestSize .SHA1) sha1Mem.mid sha1Mem.inner
      sha1Mem.ctx longKey [str "m"] (List.replicate 20 0#8) = .ok d ∧
    HmacCtx.macSession (Alg.impl .SHA1 0) (Alg.blockSize .SHA1) (Alg.digestSize .SHA1) sha1Mem.mid sha1Mem.inner
      sha1Mem.ctx (List.replicate 64 0xaa#8 ++ str "other") [str "m"] (List.replicate 20 0#8) = .ok d :=
  C34_truncated .SHA1 rfl _ _ sha1Mem_ok.1 sha1Mem_ok.1 _ sha1Mem_ok.2.1 _ sha1Mem_ok.2.2 _ _ (by decide) _
    (by show ∀ p ∈ _, List.length p < 2 ^ 31; decide) (by show 8 * _ < 2 ^ 64; decide) _ (by decide)

/-! ## C35 -/

theorem hcalls_ok (a : Alg) (ha : isShake a = false) (K : HashOK (a.impl 0) (libHash a 0))
    (cf : Conf K (memOK a 0) (outSize a 0) (okUpd a) (okTot a)) (l : List (HmacCtx.Call (a.impl 0))) :
    ∀ n c, (K.Safe n c.hash ∧ c.kIPad.length = blockBytes a ∧ c.kOPad.length = blockBytes a) → blockBytes a ≤ n →
    (∀ x ∈ l, hcallOK a x) → okTot a (n + hInput l) →
    ∃ c', HmacCtx.calls (a.impl 0) (blockBytes a) (outSize a 0) c l = .ok c' ∧ CtxOK K (blockBytes a) c' := by
  obtain ⟨h1, h2, h3⟩ := hmac_sizes a ha
  induction l with
  | nil => intro n c h _ _ _; exact ⟨c, rfl, K.wf _ _ h.1, h.2⟩
  | cons x l ih =>
    intro n c h hn hx ht
    have e : hInput (x :: l) = updLen x + hInput l := by
      cases x <;> simp [hInput, updLen]
    rw [e] at ht
    have hx1 := hx x (List.mem_cons_self ..)
    obtain ⟨c1, n', h4, h5, h6, h7⟩ := call_ok K (blockBytes a) n c x h hn (cf.u _ h1) (by rw [cf.ds]; exact cf.u _ h2)
      (by rw [cf.ds]; exact cf.t _ h3) (by
        have hds := cf.ds
        cases x with
        | init => trivial
        | setKey k => trivial
        | update y => exact ⟨cf.u _ hx1, K.tot_mono _ _ (by simp only [updLen]; omega) (cf.t _ ht)⟩
        | digest mid g out =>
          exact ⟨cf.wf _ hx1.2.1, by rw [hds, hx1.1]; omega, by rw [hds]; exact hx1.2.2,
            K.tot_mono _ _ (by simp only [updLen]; omega) (cf.t _ ht)⟩)
    have hmono : ∀ p q, p ≤ q → okTot a q → okTot a p := by
      intro p q hpq hq
      cases a <;> simp only [okTot] at hq ⊢ <;> omega
    obtain ⟨c2, h8, h9⟩ := ih n' c1 h7 h5 (fun y hy => hx y (List.mem_cons_of_mem _ hy)) (hmono _ _ (by omega) ht)
    rw [cf.ds] at h4
    exact ⟨c2, by rw [HmacCtx.calls, h4, bind_ok, h8], h9⟩

/-- **C35.** Take a context in arbitrary memory, initialise it (with init or with set_key), make any further
calls in any order, then set a key, add the message in any pieces and ask for the digest: the result is the
MAC of the message under that key (the value of `C33_exact`). -/
theorem C35 (a : Alg) (ha : isShake a = false) (c : HmacCtx (a.impl 0)) (hc : hmacCtxOK a c)
    (first : HmacCtx.Call (a.impl 0)) (hf : first = .init ∨ ∃ k, first = .setKey k)
    (l : List (HmacCtx.Call (a.impl 0))) (hl : ∀ x ∈ l, hcallOK a x) (hlt : okTot a (blockBytes a + hInput l))
    (mid : List Byte) (hm : mid.length = outSize a 0 + 1) (g : (a.impl 0).Ctx) (hg : memOK a 0 g)
    (key : List Byte) (parts : List (List Byte)) (hp : ∀ p ∈ parts, okUpd a p.length)
    (ht : okTot a (blockBytes a + parts.flatten.length)) (out : List Byte) (ho : outSize a 0 ≤ out.length) :
    (do let c ← HmacCtx.call (a.impl 0) a.blockSize a.digestSize c first
        let c ← HmacCtx.calls (a.impl 0) a.blockSize a.digestSize c l
        HmacCtx.macSession (a.impl 0) a.blockSize a.digestSize mid g c key parts out)
      = .ok (hmacShort (libHash a 0) (blockBytes a) (key.take (blockBytes a)) parts.flatten
          ++ out.drop (outSize a 0)) := by
  obtain ⟨K, cf⟩ := exists_ok0 a
  have hd := cf.ds
  obtain ⟨h1, h2, h3⟩ := hmac_sizes a ha
  have htb := K.tot_mono (blockBytes a) _ (by omega) (cf.t _ h3)
  have e0 : ∃ c1 k, HmacCtx.call (a.impl 0) (blockBytes a) (outSize a 0) c first = .ok c1 ∧
      HInv K (blockBytes a) k [] c1 := by
    rcases hf with rfl | ⟨k, rfl⟩
    · obtain ⟨c1, e1, i1⟩ := init_ok K (blockBytes a) c ⟨cf.wf _ hc.1, hc.2⟩ (cf.u _ h1) htb
      exact ⟨c1, _, e1, i1⟩
    · obtain ⟨c1, e1, i1⟩ := setKey_ok K (blockBytes a) c ⟨cf.wf _ hc.1, hc.2⟩ (cf.u _ h1) htb k k.length
        (Nat.le_refl _)
      exact ⟨c1, _, e1, i1⟩
  obtain ⟨c1, k, e1, i1⟩ := e0
  have hs := K.safe _ _ i1.inv
  rw [List.append_nil, xorPad_length _ _ _ i1.kl] at hs
  obtain ⟨c2, e2, w2⟩ := hcalls_ok a ha K cf l (blockBytes a) c1
    ⟨hs, i1.il, by rw [i1.op, xorPad_length _ _ _ i1.kl]⟩ (Nat.le_refl _) hl hlt
  obtain ⟨c3, e3, i3⟩ := setKey_ok K (blockBytes a) c2 w2 (cf.u _ h1)
    (K.tot_mono _ _ (by omega) (cf.t _ h3)) key key.length (Nat.le_refl _)
  rw [List.take_length] at i3
  obtain ⟨c4, e4, i4⟩ := feed_ok K (blockBytes a) parts _ _ c3 i3 (fun p h => cf.u _ (hp p h))
    (by simpa using cf.t _ ht)
  rw [List.nil_append] at i4
  obtain ⟨c5, e5, _⟩ := digest_ok K (blockBytes a) _ _ c4 i4 mid g (cf.wf _ hg) (by omega) out (by omega)
    (cf.t _ ht) (by rw [hd]; exact cf.t _ h3) (cf.u _ h1) (by rw [hd]; exact cf.u _ h2)
  rw [hd] at e5
  rw [blockSize_eq, digestSize_eq a ha, e1, bind_ok, e2, bind_ok, HmacCtx.macSession, e3, bind_ok, e4, bind_ok,
    e5, bind_ok]

/-- A concrete history: another key, an update, two digests, a re-initialisation. -/
theorem C35_example :
    (do let c ← HmacCtx.call (Alg.impl .SHA1 0) (Alg.blockSize .SHA1) (Alg.digestSize .SHA1) sha1Mem.ctx
          (.setKey (str "old"))
        let c ← HmacCtx.calls (Alg.impl .SHA1 0) (Alg.blockSize .SHA1) (Alg.digestSize .SHA1) c
          [.update (str "abc"), .digest sha1Mem.mid sha1Mem.inner (List.replicate 20 0#8),
           .digest sha1Mem.mid sha1Mem.inner (List.replicate 20 0#8), .init, .update (str "x")]
        HmacCtx.macSession (Alg.impl .SHA1 0) (Alg.blockSize .SHA1) (Alg.digestSize .SHA1) sha1Mem.mid sha1Mem.inner c
          (str "Jefe") [jefeMsg] (List.replicate 20 0#8))
    = .ok jefeMac := by
  rw [C35 .SHA1 rfl sha1Mem.ctx sha1Mem_ok.1 _ (.inr ⟨_, rfl⟩) _ (by
      intro x hx
      simp only [List.mem_cons, List.not_mem_nil, or_false] at hx
      rcases hx with rfl | rfl | rfl | rfl | rfl
      · show List.length _ < 2 ^ 31; decide
      · exact ⟨rfl, ⟨rfl, rfl⟩, by decide⟩
      · exact ⟨rfl, ⟨rfl, rfl⟩, by decide⟩
      · trivial
      · show List.length _ < 2 ^ 31; decide) (by show 8 * _ < 2 ^ 64; decide) _ sha1Mem_ok.2.1 _ sha1Mem_ok.2.2 _ _
    (by show ∀ p ∈ _, List.length p < 2 ^ 31; decide) (by show 8 * _ < 2 ^ 64; decide) _ (by decide),
    show (str "Jefe").take (blockBytes .SHA1) = str "Jefe" by decide, show [jefeMsg].flatten = jefeMsg by decide,
    hmac_std .SHA1 rfl _ _ (by decide) (by show _ % 64 < 56; decide)]
  exact congrArg (fun x => Except.ok (x ++ [])) jefeMac_eq

/-- A context that was initialised but given no key computes the MAC under the empty key. -/
theorem C55 (a : Alg) (ha : isShake a = false) (c : HmacCtx (a.impl 0)) (hc : hmacCtxOK a c)
    (mid : List Byte) (hm : mid.length = outSize a 0 + 1) (g : (a.impl 0).Ctx) (hg : memOK a 0 g)
    (parts : List (List Byte)) (hp : ∀ p ∈ parts, okUpd a p.length)
    (ht : okTot a (blockBytes a + parts.flatten.length)) (out : List Byte) (ho : outSize a 0 ≤ out.length) :
    HmacCtx.noKeySession (a.impl 0) a.blockSize a.digestSize mid g c parts out
      = .ok (hmac (libHash a 0) (blockBytes a) [] parts.flatten ++ out.drop (outSize a 0)) := by
  obtain ⟨K, cf⟩ := exists_ok0 a
  have hd := cf.ds
  obtain ⟨h1, h2, h3⟩ := hmac_sizes a ha
  rw [blockSize_eq, digestSize_eq a ha]
  obtain ⟨c1, e1, i1⟩ := init_ok K (blockBytes a) c ⟨cf.wf _ hc.1, hc.2⟩ (cf.u _ h1)
    (K.tot_mono _ _ (by omega) (cf.t _ h3))
  obtain ⟨c2, e2, i2⟩ := feed_ok K (blockBytes a) parts _ _ c1 i1 (fun p h => cf.u _ (hp p h))
    (by simpa using cf.t _ ht)
  rw [List.nil_append] at i2
  obtain ⟨c3, e3, _⟩ := digest_ok K (blockBytes a) _ _ c2 i2 mid g (cf.wf _ hg) (by omega) out (by omega)
    (cf.t _ ht) (by rw [hd]; exact cf.t _ h3) (cf.u _ h1) (by rw [hd]; exact cf.u _ h2)
  rw [hd] at e3
  rw [HmacCtx.noKeySession, e1, bind_ok, e2, bind_ok, e3, bind_ok, hmac, if_neg (by simp)]

/-! ## C36 -/

/-- **C36.** The dispatcher computes the MAC of the chosen algorithm. -/
theorem C36 (a : Alg) (ha : isShake a = false) (g : HmacCtx.Mem (a.impl 0)) (hg : hmacMemOK a g)
    (key : List Byte) (n : Nat) (hn : n ≤ key.length) (data : List Byte) (l : Nat) (hl : l ≤ data.length)
    (hu : okUpd a l) (ht : okTot a (blockBytes a + l)) (out : List Byte) (ho : outSize a 0 ≤ out.length) :
    pgfeHmac a g key n data l out
      = .ok (hmacShort (libHash a 0) (blockBytes a) ((key.take n).take (blockBytes a)) (data.take l)
          ++ out.drop (outSize a 0)) := by
  have h := C33_oneShot_exact a ha g hg key n hn data l hl hu ht out ho
  cases a <;> first | exact absurd ha (by decide) | exact h

/-- **C36.** For the four SHAKE variants it leaves the output untouched. -/
theorem C36_shake (a : Alg) (ha : isShake a = true) (g : HmacCtx.Mem (a.impl 0)) (key : List Byte) (n : Nat)
    (data : List Byte) (l : Nat) (out : List Byte) : pgfeHmac a g key n data l out = .ok out := by
  cases a <;> first | exact absurd ha (by decide) | rfl

/-- A concrete case: RFC 2202 test case 2. -/
theorem C36_example : pgfeHmac .SHA1 sha1Mem (str "Jefe") 4 jefeMsg 28
      (List.replicate 20 0#8)
    = .ok jefeMac := by
  rw [C36 .SHA1 rfl sha1Mem sha1Mem_ok _ 4 (by decide) _ 28 (by decide) (by show 28 < 2 ^ 31; decide)
    (by show 8 * _ < 2 ^ 64; decide) _ (by decide),
    show ((str "Jefe").take 4).take (blockBytes .SHA1) = str "Jefe" by decide, show jefeMsg.take 28 = jefeMsg by decide,
    hmac_std .SHA1 rfl _ _ (by decide) (by show _ % 64 < 56; decide)]
  exact congrArg (fun x => Except.ok (x ++ [])) jefeMac_eq

end Pgfe.Props
