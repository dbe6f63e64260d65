import Verif.Proofs.WorkOther
import Verif.Props.Trace
import Verif.Props.TraceOther
/-!
# C96: the work of a call is linear in its input
-/
namespace Pgfe.Props
open Pgfe.Model Pgfe.Spec
open Pgfe.Proofs.Work
open Pgfe.Proofs.Trace (res_bind erases calls_res macCalls_res macOneShot_res bfInit_res ops_res hotpGeneric_res)

/-- **C96 (hashes).**  Initialising a context and making any calls takes at most `perByte` steps for each byte fed,
`perDigest` steps for each digest and `perCall` steps for each call, whatever the contents of the arrays and of the
memory and whatever the history; and what the traced functions compute is what the functions of the model compute.
For a run that fails the bound counts the steps up to the failure; the failure `diverge` (C26: KECCAK updates from
2^29 - 192 bytes) is an endless loop. -/
theorem C96 (a : Alg) (bits : Nat) (g : (a.impl bits).Ctx) (hg : memOK a bits g) (l : List HashImpl.Call) :
    work (do let c ← (a.traced bits).init g
             (a.traced bits).calls c l).tr ≤
      perByte a * fed l + perDigest a bits * digests l + perCall * (l.length + 1) ∧
    (do let c ← (a.traced bits).init g
        (a.traced bits).calls c l).res =
    (do let c ← (a.impl bits).init g
        (a.impl bits).calls c l) := by
  obtain ⟨mem, inv, φ, L, hm⟩ := exists_linear a bits
  exact ⟨session_bd L g (hm g hg) l, (C94 a bits g g hg hg l l rfl).2⟩

/-- **C96 (HMAC contexts).**  The same for the calls on an HMAC context: `perByte` steps for each byte of message, and
`perMac` for each call.  Keys do not count, however long they are. -/
theorem C96_hmac (a : Alg) (c : HmacCtx (a.impl 0)) (hc : hmacCtxOK a c)
    (first : HmacCtx.Call (a.impl 0)) (hf : first = .init ∨ ∃ k, first = .setKey k)
    (l : List (HmacCtx.Call (a.impl 0))) (hm : macLocals a l) :
    work ((a.traced 0).macCalls a.blockSize a.digestSize c (first :: l)).tr ≤
      perByte a * macFed l + perMac a * (l.length + 1) ∧
    ((a.traced 0).macCalls a.blockSize a.digestSize c (first :: l)).res =
      HmacCtx.calls (a.impl 0) a.blockSize a.digestSize c (first :: l) := by
  refine ⟨?_, macCalls_res (erases a 0) _ _ _ c⟩
  obtain ⟨mem, inv, φ, L, hmem⟩ := exists_linear a 0
  obtain ⟨s1, s2⟩ := sizes_le a
  have e1 := Nat.mul_le_mul_left (perByte a) s1
  have e2 := Nat.mul_le_mul_left (perByte a) s2
  refine macFirst_bd L _ _ (perMac a) ?_ ?_ first hf l (fun mid g o h => hmem g (hm mid g o h).2) c (hmem _ hc.1)
  · rw [Nat.add_mul]
    unfold perMac
    omega
  · unfold perMac
    omega

/-- **C96 (one-shot HMAC).**  The one-shot function: linear in the message, constant in the key. -/
theorem C96_oneshot (a : Alg) (g : HmacCtx.Mem (a.impl 0)) (hg : hmacMemOK a g) (k x o : List Byte) :
    work ((a.traced 0).macOneShot a.blockSize a.digestSize g k k.length x x.length o).tr ≤
      perByte a * x.length + 3 * perMac a ∧
    ((a.traced 0).macOneShot a.blockSize a.digestSize g k k.length x x.length o).res =
      HmacCtx.oneShot (a.impl 0) a.blockSize a.digestSize g k k.length x x.length o :=
  ⟨oneShot_bd a g hg.1.1 hg.2.2 k k.length x x.length o, macOneShot_res (erases a 0) _ _ _ _ _ _ _ _⟩

/-- **C96 (Blowfish).**  Initialising a context takes a fixed number of steps, however long the key is, and encrypting or
decrypting takes at most 20 steps for each byte and 134 for each call. -/
theorem C96_blowfish (mem : BfCtx) (key : List Byte) (l : List Tr.Bf.Op) :
    work (do let c ← Tr.Bf.init mem key key.length
             Tr.Bf.ops c l).tr ≤ 54393 + 20 * (l.map (·.input.length)).sum + 134 * l.length ∧
    (do let c ← Tr.Bf.init mem key key.length
        Tr.Bf.ops c l).res =
    (do let c ← Bf.init mem key key.length
        Bf.crypts c l) := by
  refine ⟨?_, ?_⟩
  · have h : ∀ (l : List Tr.Bf.Op) (c : BfCtx), Bd (Tr.Bf.ops c l) (20 * (l.map (·.input.length)).sum + 134 * l.length) := by
      intro l
      induction l with
      | nil => intro c; exact Bd.done _ _
      | cons o l ih =>
        intro c
        rw [Tr.Bf.ops, List.map_cons, List.sum_cons, List.length_cons]
        refine Bd.next (bfOp_bd c o) (by omega) (fun _ => ?_)
        exact Bd.next (ih c) (by omega) (fun _ => Bd.done _ _)
    exact Bd.mono (Bd.seq (bfInit_bd mem key key.length) (fun c => h l c)) (by omega)
  · rw [res_bind, bfInit_res]
    exact congrArg (fun f => Bf.init mem key key.length >>= f) (funext fun c => ops_res c l)

/-- **C96 (one-time passwords).**  Generating a one-time password takes at most a number of steps that depends on the
algorithm alone: not on the secret or its length, the counter, or the number of digits. -/
theorem C96_hotp (a : Alg) (m : Totp.Stack a) (hm : otpStackOK a m) (secret : List Byte) (c : W64) (d : Nat) :
    work (Tr.hotpGeneric a m.hmac m.counterH m.outHash secret secret.length c d).tr ≤
      perByte a * 8 + 3 * perMac a + 56 ∧
    (Tr.hotpGeneric a m.hmac m.counterH m.outHash secret secret.length c d).res =
      hotpGeneric a m.hmac m.counterH m.outHash secret secret.length c d :=
  ⟨hotp_bd a m.hmac hm.1.1.1 hm.1.2.2 m.counterH m.outHash secret secret.length c d, hotpGeneric_res _ _ _ _ _ _ _ _⟩

/-- A thousand bytes in one call. -/
theorem C96_example (x : List Byte) (hx : x.length = 1000) :
    work (do let c ← (Alg.traced .SHA1 0).init (freshMem .SHA1)
             (Alg.traced .SHA1 0).calls c [.update x, .digest (List.replicate 20 0#8)]).tr ≤ 20332 := by
  have h := (C96 .SHA1 0 (freshMem .SHA1) (freshMem_ok .SHA1) [.update x, .digest (List.replicate 20 0#8)]).1
  rw [fed, hx] at h
  exact h

/-- The steps are really counted: hashing three bytes takes 954 steps. -/
theorem C96_counted :
    work (do let c ← (Alg.traced .SHA1 0).init (⟨List.replicate 5 0#32, 0#32, 0#32, 0, List.replicate 64 0#8⟩ : ShaCtx 32)
             (Alg.traced .SHA1 0).calls c [.update (str "abc"), .digest (List.replicate 20 0#8)]).tr = 954 := by decide +kernel

/-- A key of a thousand bytes costs no more than any other. -/
theorem C96_hmac_example :
    work ((Alg.traced .SHA1 0).macCalls (Alg.blockSize .SHA1) (Alg.digestSize .SHA1) sha1Mem.ctx
      [.setKey (List.replicate 1000 7#8), .update (str "m"), .digest sha1Mem.mid sha1Mem.inner (List.replicate 20 0#8)]).tr ≤
      18 * 1 + perMac .SHA1 * 3 :=
  (C96_hmac .SHA1 sha1Mem.ctx sha1Mem_ok.1 (.setKey (List.replicate 1000 7#8)) (.inr ⟨_, rfl⟩)
    [.update (str "m"), .digest sha1Mem.mid sha1Mem.inner (List.replicate 20 0#8)] (by
      intro mid g out h
      rcases List.mem_cons.1 h with h | h
      · cases h
      · rcases List.mem_cons.1 h with h | h
        · injection h with h1 h2 h3
          subst h1 h2
          exact ⟨sha1Mem_ok.2.1, sha1Mem_ok.2.2⟩
        · cases h)).1

/-- The one-time passwords of RFC 4226, appendix D, with any counter. -/
theorem C96_hotp_example (c : W64) :
    work (Tr.hotpGeneric .SHA1 sha1Stack.hmac sha1Stack.counterH sha1Stack.outHash rfcSecret rfcSecret.length c 6).tr ≤ 30314 :=
  (C96_hotp .SHA1 sha1Stack sha1Stack_ok rfcSecret c 6).1

/-- A message of fourteen bytes. -/
theorem C96_blowfish_example :
    work (do let c ← Tr.Bf.init bfMem (str "key") 3
             Tr.Bf.ops c [⟨true, List.replicate 8 0#8, str "attack at dawn", List.replicate 16 0#8⟩]).tr ≤ 54807 :=
  (C96_blowfish bfMem (str "key") [⟨true, List.replicate 8 0#8, str "attack at dawn", List.replicate 16 0#8⟩]).1

end Pgfe.Props
