import Verif.Proofs.TraceHotp
import Verif.Proofs.TraceBlocks
import Verif.Props.Blowfish
/-!
# C95: where the accesses of Blowfish and HOTP depend on secrets
-/
namespace Pgfe.Props
open Pgfe.Model Pgfe.Spec
open Pgfe.Proofs.Trace

/-- **C95 (Blowfish), the part that holds.**  Two clients initialise a context with keys of the same length and make
calls of the same kinds with arrays of the same sizes, with any contents.  Then the two runs make the same decisions
and the same accesses in the same order, except that the position inside an S-box may differ (the number of the
box does not); and what the traced functions compute is what the functions of the model compute. -/
theorem C95_partial (mem mem' : BfCtx) (hm : bfCtxOK mem) (hm' : bfCtxOK mem') (key key' : List Byte)
    (hk : key.length = key'.length) (l l' : List Tr.Bf.Op) (hl : l.map opShape = l'.map opShape) :
    (do let c ← Tr.Bf.init mem key key.length
        Tr.Bf.ops c l).tr.map coarse =
    (do let c ← Tr.Bf.init mem' key' key'.length
        Tr.Bf.ops c l').tr.map coarse ∧
    (do let c ← Tr.Bf.init mem key key.length
        Tr.Bf.ops c l).res =
    (do let c ← Bf.init mem key key.length
        Bf.crypts c l) := by
  refine ⟨?_, ?_⟩
  · rw [← hk]
    exact (SameM.seq (bfInit_same ⟨hm, hm'⟩ hk key.length) (fun c c' h => ops_same h l l' hl)).tr
  · rw [res_bind, bfInit_res]
    exact congrArg (fun f => Bf.init mem key key.length >>= f) (funext fun c => ops_res c l)

/-- **C95 (Blowfish), violation.**  The positions in the S-boxes reveal the key: if initialising with two keys of
the same length makes the same accesses, then the first 64 bytes of the keys are the same (the standard allows
keys of at most 56 bytes). -/
theorem C95_violation_key (mem mem' : BfCtx) (hm : bfCtxOK mem) (hm' : bfCtxOK mem') (key key' : List Byte)
    (h0 : key ≠ []) (hk : key.length = key'.length)
    (h : (Tr.Bf.init mem key key.length).tr = (Tr.Bf.init mem' key' key'.length).tr) : key.take 64 = key'.take 64 :=
  key_leak ⟨hm, hm'⟩ h0 hk h

/-- **C95 (Blowfish), violation.**  They also reveal the data: under any one context, if encrypting (or decrypting)
two blocks makes the same accesses, then the blocks are the same. -/
theorem C95_violation_data (ctx : BfCtx) (hc : bfCtxOK ctx) (u v : BfUnit) :
    ((Tr.Bf.encryptUnit ctx u).tr = (Tr.Bf.encryptUnit ctx v).tr → u = v) ∧
    ((Tr.Bf.decryptUnit ctx u).tr = (Tr.Bf.decryptUnit ctx v).tr → u = v) :=
  ⟨fun h => unit_inj hc (fun i => i) (fun t ht => by omega) u v (encryptUnit_first ⟨hc, hc⟩ u v h),
   fun h => unit_inj hc (fun i => 17 - i) (fun t ht => by omega) u v (decryptUnit_first ⟨hc, hc⟩ u v h)⟩

/-- **C95 (Blowfish), violation.**  They reveal whole messages: under any one context, if two calls of
`pgfe_blowfish_encrypt` (or two of `pgfe_blowfish_decrypt`), on inputs of the same length with room for the padded
result, make the same accesses, then the inputs are the same, whatever their length. -/
theorem C95_violation_message (ctx : BfCtx) (hc : bfCtxOK ctx) (o o' : Tr.Bf.Op) (hs : opShape o = opShape o')
    (hu : o.unp.length = 8) (ho : 8 * Blowfish.blocks o.input.length ≤ o.output.length)
    (h : (Tr.Bf.op ctx o).tr = (Tr.Bf.op ctx o').tr) : o.input = o'.input := by
  obtain ⟨e, u, x, y⟩ := o
  obtain ⟨e', u', x', y'⟩ := o'
  unfold opShape at hs
  dsimp only at hs hu ho ⊢
  rw [Prod.mk.injEq, Prod.mk.injEq, Prod.mk.injEq] at hs
  obtain ⟨rfl, h1, h2, h3⟩ := hs
  have hok : ∃ r, (Tr.Bf.op ctx ⟨e, u, x, y⟩).res = .ok r := by
    rw [op_res]
    unfold Bf.crypt
    dsimp only
    cases e
    · exact ⟨_, Proofs.Bf.generic_eq _ _ (Proofs.Bf.decryptUnit_eq hc) (some x) u y x.length hu (Nat.le_refl _) ho⟩
    · exact ⟨_, Proofs.Bf.generic_eq _ _ (Proofs.Bf.encryptUnit_eq hc) (some x) u y x.length hu (Nat.le_refl _) ho⟩
  unfold Tr.Bf.op at h hok
  dsimp only at h hok
  cases e
  · exact generic_inj (f := Tr.Bf.decryptUnit ctx) (fun u v => decryptUnit_same ⟨hc, hc⟩ u v)
      (fun u v h => (C95_violation_data ctx hc u v).2 h)
      (fun u => (decryptUnit_res ctx u).trans (Proofs.Bf.decryptUnit_eq hc u)) h2 hu (h1.symm.trans hu) h3 hok h
  · exact generic_inj (f := Tr.Bf.encryptUnit ctx) (fun u v => encryptUnit_same ⟨hc, hc⟩ u v)
      (fun u v h => (C95_violation_data ctx hc u v).1 h)
      (fun u => (encryptUnit_res ctx u).trans (Proofs.Bf.encryptUnit_eq hc u)) h2 hu (h1.symm.trans hu) h3 hok h

/-- Two messages of fourteen bytes that differ in the last one only are told apart. -/
theorem C95_violation_message_example :
    (Tr.Bf.op bfMem ⟨true, List.replicate 8 0#8, str "attack at dawn", List.replicate 16 0#8⟩).tr ≠
    (Tr.Bf.op bfMem ⟨true, List.replicate 8 7#8, str "attack at dawm", List.replicate 16 1#8⟩).tr := by
  intro h
  have := C95_violation_message bfMem bfMem_ok ⟨true, List.replicate 8 0#8, str "attack at dawn", List.replicate 16 0#8⟩
    ⟨true, List.replicate 8 7#8, str "attack at dawm", List.replicate 16 1#8⟩ (by decide) (by decide) (by decide) h
  revert this
  decide

/-- Two keys and two messages. -/
theorem C95_partial_example :
    (do let c ← Tr.Bf.init bfMem (str "key one") 7
        Tr.Bf.ops c [⟨true, List.replicate 8 0#8, str "attack at dawn", List.replicate 16 0#8⟩]).tr.map coarse =
    (do let c ← Tr.Bf.init bfMem (str "key two") 7
        Tr.Bf.ops c [⟨true, List.replicate 8 7#8, str "stay at home!!", List.replicate 16 1#8⟩]).tr.map coarse :=
  (C95_partial bfMem bfMem bfMem_ok bfMem_ok (str "key one") (str "key two") (by decide)
    [⟨true, List.replicate 8 0#8, str "attack at dawn", List.replicate 16 0#8⟩]
    [⟨true, List.replicate 8 7#8, str "stay at home!!", List.replicate 16 1#8⟩] (by decide)).1

/-- The same two keys are told apart by the whole trace. -/
theorem C95_violation_example :
    (Tr.Bf.init bfMem (str "key one") 7).tr ≠ (Tr.Bf.init bfMem (str "key two") 7).tr := by
  intro h
  have := C95_violation_key bfMem bfMem bfMem_ok bfMem_ok (str "key one") (str "key two") (by decide) (by decide) h
  revert this
  decide

/-- **C95 (one-time passwords), the part that holds.**  For every algorithm but MD5 (C39) and secrets of the same
length, two computations with any counters make the same decisions and accesses, except that the position of the
four bytes taken from the MAC may differ; and the traced function computes what the model computes. -/
theorem C95_hotp_partial (a : Alg) (ha : isShake a = false) (h5 : a ≠ .MD5) (m m' : Totp.Stack a) (hm : otpStackOK a m)
    (hm' : otpStackOK a m') (secret secret' : List Byte) (hs : secret.length = secret'.length) (c c' : W64) (d : Nat) :
    (Tr.hotpGeneric a m.hmac m.counterH m.outHash secret secret.length c d).tr.map coarse =
      (Tr.hotpGeneric a m'.hmac m'.counterH m'.outHash secret' secret'.length c' d).tr.map coarse ∧
    (Tr.hotpGeneric a m.hmac m.counterH m.outHash secret secret.length c d).res =
      hotpGeneric a m.hmac m.counterH m.outHash secret secret.length c d := by
  refine ⟨?_, hotpGeneric_res _ _ _ _ _ _ _ _⟩
  rw [← hs]
  exact hotp_coarse a ha m m' hm hm' secret secret' hs _ (Nat.le_refl _) c c' d
    (offset_ok a ha h5 _ _) (offset_ok a ha h5 _ _)

/-- **C95 (one-time passwords), exact.**  For secrets of the same length, the two computations make the same decisions
and accesses if and only if the two MACs end with the same four bits. -/
theorem C95_hotp_iff (a : Alg) (ha : isShake a = false) (m m' : Totp.Stack a) (hm : otpStackOK a m)
    (hm' : otpStackOK a m') (secret secret' : List Byte) (hs : secret.length = secret'.length) (c c' : W64) (d : Nat) :
    (Tr.hotpGeneric a m.hmac m.counterH m.outHash secret secret.length c d).tr =
      (Tr.hotpGeneric a m'.hmac m'.counterH m'.outHash secret' secret'.length c' d).tr ↔
    hotpOffset a (secret.take (blockBytes a)) c.toNat = hotpOffset a (secret'.take (blockBytes a)) c'.toNat := by
  have e : ∀ (s : List Byte) (c : W64), off (hotpMac a s s.length c) = hotpOffset a (s.take (blockBytes a)) c.toNat := by
    intro s c
    rw [hotpMac, List.take_length]; rfl
  rw [← e, ← e, ← hs]
  exact ⟨hotp_leak a ha m m' hm hm' secret secret' hs _ (Nat.le_refl _) c c' d,
    hotp_same a ha m m' hm hm' secret secret' hs _ (Nat.le_refl _) c c' d⟩

/-- The first two passwords of RFC 4226, appendix D, are told apart. -/
theorem C95_hotp_example :
    (Tr.hotpGeneric .SHA1 sha1Stack.hmac sha1Stack.counterH sha1Stack.outHash rfcSecret rfcSecret.length 0#64 6).tr ≠
      (Tr.hotpGeneric .SHA1 sha1Stack.hmac sha1Stack.counterH sha1Stack.outHash rfcSecret rfcSecret.length 1#64 6).tr := by
  intro h
  have := (C95_hotp_iff .SHA1 rfl sha1Stack sha1Stack sha1Stack_ok sha1Stack_ok rfcSecret rfcSecret rfl 0#64 1#64 6).1 h
  rw [List.take_of_length_le (by decide), show (0#64).toNat = 0 from rfl, show (1#64).toNat = 1 from rfl, hotpOffset,
    hotpOffset, rfcMac0, rfcMac1] at this
  revert this
  decide

end Pgfe.Props
