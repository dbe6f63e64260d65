import Verif.Proofs.TraceAll
import Verif.Props.AgainViolation
import Verif.Props.HmacAgainViolation
/-!
# C94: what a hash or a MAC computation does is decided by lengths alone
-/
namespace Pgfe.Props
open Pgfe.Model Pgfe.Spec
open Pgfe.Proofs.Trace

/-- **C94 (hashes).**  Two clients initialise a context, each in its own memory with its own left-over contents,
and make calls of the same kinds with arrays of the same sizes, but with any contents.  Then the two runs make the
same decisions and the same accesses to the same elements of the arrays, in the same order, and end in the same
way; and (so that this says something about the library) what these traced functions compute is what the functions
of the model compute. -/
theorem C94 (a : Alg) (bits : Nat) (g g' : (a.impl bits).Ctx) (hg : memOK a bits g) (hg' : memOK a bits g')
    (l l' : List HashImpl.Call) (hl : l.map callShape = l'.map callShape) :
    (do let c ← (a.traced bits).init g
        (a.traced bits).calls c l).tr =
    (do let c ← (a.traced bits).init g'
        (a.traced bits).calls c l').tr ∧
    (do let c ← (a.traced bits).init g
        (a.traced bits).calls c l).res =
    (do let c ← (a.impl bits).init g
        (a.impl bits).calls c l) := by
  refine ⟨?_, ?_⟩
  · obtain ⟨M, R, B, hM⟩ := exists_blind a bits
    exact (Same.seq (B.init g g' (hM g g' hg hg')) (fun c c' h => calls_same B l l' hl c c' h)).tr
  · have E := erases a bits
    rw [res_bind, E.init]
    exact congrArg (fun f => (a.impl bits).init g >>= f) (funext fun c => calls_res E l c)

/-- The two runs also end in the same way: both succeed, with answers of the same sizes, or both fail with the same
kind of failure. -/
theorem C94_outcome (a : Alg) (bits : Nat) (g g' : (a.impl bits).Ctx) (hg : memOK a bits g) (hg' : memOK a bits g')
    (l l' : List HashImpl.Call) (hl : l.map callShape = l'.map callShape) :
    (do let c ← (a.impl bits).init g
        (a.impl bits).calls c l).map (fun (r : (a.impl bits).Ctx × List (List Byte)) => r.2.map List.length) =
    (do let c ← (a.impl bits).init g'
        (a.impl bits).calls c l').map (fun (r : (a.impl bits).Ctx × List (List Byte)) => r.2.map List.length) := by
  rw [← (C94 a bits g g' hg hg' l l' hl).2, ← (C94 a bits g' g hg' hg l' l hl.symm).2]
  obtain ⟨M, R, B, hM⟩ := exists_blind a bits
  have h := (Same.seq (B.init g g' (hM g g' hg hg')) (fun c c' h => calls_same B l l' hl c c' h)).res
  revert h
  generalize (do let c ← (a.traced bits).init g
                 (a.traced bits).calls c l).res = m
  generalize (do let c ← (a.traced bits).init g'
                 (a.traced bits).calls c l').res = m'
  intro h
  cases m <;> cases m'
  · exact congrArg Except.error h
  · exact absurd h id
  · exact absurd h id
  · exact congrArg Except.ok h.2

/-- The local variables of the digest calls in a history have their declared sizes. -/
def macLocals (a : Alg) (l : List (HmacCtx.Call (a.impl 0))) : Prop :=
  ∀ mid g out, HmacCtx.Call.digest mid g out ∈ l → mid.length = outSize a 0 + 1 ∧ memOK a 0 g

theorem macLocals_like (a : Alg) (M : (a.impl 0).Ctx → (a.impl 0).Ctx → Prop)
    (hM : ∀ g g', memOK a 0 g → memOK a 0 g' → M g g') (l l' : List (HmacCtx.Call (a.impl 0))) (h : macLocals a l)
    (h' : macLocals a l') : ∀ x ∈ l, ∀ y ∈ l', LocalsLike M x y := by
  intro x hx y hy
  cases x with
  | digest mid g o =>
    cases y with
    | digest mid' g' o' =>
      exact ⟨(h _ _ _ hx).1.trans (h' _ _ _ hy).1.symm, hM _ _ (h _ _ _ hx).2 (h' _ _ _ hy).2⟩
    | _ => trivial
  | _ => cases y <;> trivial

/-- **C94 (HMAC contexts).**  The same for HMAC contexts: any two histories that begin with init or set_key and make
the same calls with keys, messages and output buffers of the same sizes. -/
theorem C94_hmac (a : Alg) (c c' : HmacCtx (a.impl 0)) (hc : hmacCtxOK a c) (hc' : hmacCtxOK a c')
    (first first' : HmacCtx.Call (a.impl 0)) (hf : first = .init ∨ ∃ k, first = .setKey k)
    (l l' : List (HmacCtx.Call (a.impl 0))) (hm : macLocals a l) (hm' : macLocals a l')
    (hl : (first :: l).map macShape = (first' :: l').map macShape) :
    ((a.traced 0).macCalls a.blockSize a.digestSize c (first :: l)).tr =
      ((a.traced 0).macCalls a.blockSize a.digestSize c' (first' :: l')).tr ∧
    ((a.traced 0).macCalls a.blockSize a.digestSize c (first :: l)).res =
      HmacCtx.calls (a.impl 0) a.blockSize a.digestSize c (first :: l) := by
  refine ⟨?_, macCalls_res (erases a 0) _ _ _ c⟩
  obtain ⟨M, R, B, hM⟩ := exists_blind a 0
  rw [List.map_cons, List.map_cons, List.cons.injEq] at hl
  obtain ⟨h1, h2⟩ := hl
  have hcc : MacMem M c c' := ⟨hM _ _ hc.1 hc'.1, hc.2.1.trans hc'.2.1.symm, hc.2.2.trans hc'.2.2.symm⟩
  have rest := macCalls_same B a.blockSize a.digestSize l l' h2 (macLocals_like a M hM l l' hm hm')
  rcases hf with rfl | ⟨k, rfl⟩
  · cases first' <;> simp [macShape] at h1
    rw [Traced.macCalls, Traced.macCalls]
    exact (Same.seq (macInit_same B _ hcc) rest).tr
  · cases first' <;> simp [macShape] at h1
    rw [Traced.macCalls, Traced.macCalls, h1]
    exact (Same.seq (macSetKey_same B _ hcc h1 _) rest).tr

/-- **C94 (one-shot HMAC).**  The one-shot function, for keys, messages and output buffers of the same sizes. -/
theorem C94_oneshot (a : Alg) (g g' : HmacCtx.Mem (a.impl 0)) (hg : hmacMemOK a g) (hg' : hmacMemOK a g')
    (k k' x x' o o' : List Byte) (hk : k.length = k'.length) (hx : x.length = x'.length) (ho : o.length = o'.length) :
    ((a.traced 0).macOneShot a.blockSize a.digestSize g k k.length x x.length o).tr =
      ((a.traced 0).macOneShot a.blockSize a.digestSize g' k' k'.length x' x'.length o').tr ∧
    ((a.traced 0).macOneShot a.blockSize a.digestSize g k k.length x x.length o).res =
      HmacCtx.oneShot (a.impl 0) a.blockSize a.digestSize g k k.length x x.length o := by
  refine ⟨?_, macOneShot_res (erases a 0) _ _ _ _ _ _ _ _⟩
  obtain ⟨M, R, B, hM⟩ := exists_blind a 0
  rw [hk, hx]
  exact (macOneShot_same B a.blockSize a.digestSize
    ⟨hM _ _ hg.1.1 hg'.1.1, hg.1.2.1.trans hg'.1.2.1.symm, hg.1.2.2.trans hg'.1.2.2.symm⟩
    (hg.2.1.trans hg'.2.1.symm) (hM _ _ hg.2.2 hg'.2.2) hk _ hx _ ho).tr

/-- Two different messages. -/
theorem C94_example :
    (do let c ← (Alg.traced .SHA256 256).init (freshMem .SHA256)
        (Alg.traced .SHA256 256).calls c [.update (str "secret"), .digest (List.replicate 32 1#8)]).tr =
    (do let c ← (Alg.traced .SHA256 256).init (⟨List.replicate 8 0#32, 0#32, 0#32, 0, List.replicate 64 0#8⟩ : ShaCtx 32)
        (Alg.traced .SHA256 256).calls c [.update (str "public"), .digest (List.replicate 32 0#8)]).tr :=
  (C94 .SHA256 256 (freshMem .SHA256) (⟨List.replicate 8 0#32, 0#32, 0#32, 0, List.replicate 64 0#8⟩ : ShaCtx 32)
    (freshMem_ok .SHA256) ⟨List.length_replicate, List.length_replicate⟩
    [.update (str "secret"), .digest (List.replicate 32 1#8)]
    [.update (str "public"), .digest (List.replicate 32 0#8)] (by decide)).1

/-- The trace is not empty talk: it tells a message of one byte from the empty message. -/
theorem C94_lengths :
    (do let c ← (Alg.traced .SHA1 0).init (⟨List.replicate 5 0#32, 0#32, 0#32, 0, List.replicate 64 0#8⟩ : ShaCtx 32)
        (Alg.traced .SHA1 0).calls c [.update []]).tr ≠
    (do let c ← (Alg.traced .SHA1 0).init (⟨List.replicate 5 0#32, 0#32, 0#32, 0, List.replicate 64 0#8⟩ : ShaCtx 32)
        (Alg.traced .SHA1 0).calls c [.update [7#8]]).tr := by decide +kernel

/-- Two different keys of the same length. -/
theorem C94_oneshot_example :
    ((Alg.traced .SHA1 0).macOneShot (Alg.blockSize .SHA1) (Alg.digestSize .SHA1) sha1Mem (str "key") 3 (str "m") 1
      (List.replicate 20 0#8)).tr =
    ((Alg.traced .SHA1 0).macOneShot (Alg.blockSize .SHA1) (Alg.digestSize .SHA1) sha1Mem (str "KEY") 3 (str "n") 1
      (List.replicate 20 0#8)).tr :=
  (C94_oneshot .SHA1 _ _ sha1Mem_ok sha1Mem_ok (str "key") (str "KEY") (str "m") (str "n")
    (List.replicate 20 0#8) (List.replicate 20 0#8) rfl rfl rfl).1

end Pgfe.Props
