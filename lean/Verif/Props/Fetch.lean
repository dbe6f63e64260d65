import Verif.Proofs.FetchAll
import Verif.Model.HmacTorn
import Verif.Props.Work
/-!
# C97: every byte of the input is read once

A function that reads a byte of a caller's array twice can see two different values when the memory is shared.
-/
namespace Pgfe.Props
open Pgfe.Model Pgfe.Spec
open Pgfe.Proofs.Work
open Pgfe.Proofs.Fetch
open Pgfe.Proofs.Hmac (arrcpy_ok xorPads_ok xorPad_length)
open Pgfe.Proofs.Trace (res_bind erases calls_res macCalls_res op_res macUpdate_res macSetKey_res bfInit_res)

/-- **C97 (hashes; partial: the HMAC key is read twice, `C97_key`).**  An update, after whatever calls, reads the bytes of its
input one after the other from the first, each at most once, and writes none; and while there has been no digest and fewer than
2^61 bytes in all it reads every one of them.  What the traced functions compute is what the functions of the model compute. -/
theorem C97_partial (a : Alg) (bits : Nat) (g : (a.impl bits).Ctx) (hg : memOK a bits g) (l : List HashImpl.Call)
    (r : (a.impl bits).Ctx × List (List Byte))
    (h : (do let c ← (a.impl bits).init g
             (a.impl bits).calls c l) = .ok r) (x : List Byte) :
    (∃ k ≤ x.length, fetched .input ((a.traced bits).update r.1 (some x) x.length).tr = List.range k ∧
      ((∃ c', (a.impl bits).update r.1 (some x) x.length = .ok c') → digests l = 0 → fed l + x.length < 2 ^ 61 → k = x.length)) ∧
    stored .input ((a.traced bits).update r.1 (some x) x.length).tr = [] ∧
    ((a.traced bits).update r.1 (some x) x.length).res = (a.impl bits).update r.1 (some x) x.length := by
  obtain ⟨mem, inv, φ, K, D, cnt, L, hm, F⟩ := exists_fetches a bits
  have E := erases a bits
  have ht : (do let c ← (a.traced bits).init g
                (a.traced bits).calls c l).res = .ok r := by
    rw [← h, res_bind, E.init]
    exact congrArg (fun f => (a.impl bits).init g >>= f) (funext fun c => calls_res E l c)
  obtain ⟨c, h1, h2⟩ := res_last ht
  have hc : inv c := ((L.init g (hm g hg)).2 c h1).1
  obtain ⟨u1, e, u2, u3, u4, u5⟩ := F.update r.1 x (calls_inv L l c r hc h2)
  refine ⟨⟨e, u3, by rw [u4, List.range_eq_range', Nat.sub_zero], fun ⟨c', hc'⟩ hd hl => ?_⟩, u1, E.update _ _ _⟩
  have hn := calls_cnt L F l c r 0 hc (F.init g c h1) hd (by omega) h2
  rw [Nat.zero_add] at hn
  exact (u5 c' (by rw [E.update]; exact hc') _ hn (by omega)).1

/-- **C97 (HMAC messages).**  The same for the message of an HMAC: `l` are any calls after the first init or set_key; all of it is
read when they are updates. -/
theorem C97_hmac (a : Alg) (c : HmacCtx (a.impl 0)) (hc : hmacCtxOK a c)
    (first : HmacCtx.Call (a.impl 0)) (hf : first = .init ∨ ∃ k, first = .setKey k)
    (l : List (HmacCtx.Call (a.impl 0))) (hm : macLocals a l) (r : HmacCtx (a.impl 0))
    (h : HmacCtx.calls (a.impl 0) a.blockSize a.digestSize c (first :: l) = .ok r) (x : List Byte) :
    (∃ k ≤ x.length, fetched .input ((a.traced 0).macUpdate r (some x) x.length).tr = List.range k ∧
      ((∃ c', HmacCtx.update (a.impl 0) r (some x) x.length = .ok c') → (∀ y ∈ l, ∃ u, y = .update u) →
        a.blockSize + macFed l + x.length < 2 ^ 61 → k = x.length)) ∧
    stored .input ((a.traced 0).macUpdate r (some x) x.length).tr = [] ∧
    ((a.traced 0).macUpdate r (some x) x.length).res = HmacCtx.update (a.impl 0) r (some x) x.length := by
  obtain ⟨mem, inv, φ, K, D, cnt, L, hmem, F⟩ := exists_fetches a 0
  have E := erases a 0
  have ht : ((a.traced 0).macCalls a.blockSize a.digestSize c (first :: l)).res = .ok r := by
    rw [← h]; exact macCalls_res E _ _ _ c
  have hr := macFirst_inv L a.blockSize a.digestSize first hf l (fun mid g o h => hmem g (hm mid g o h).2) c r (hmem _ hc.1) ht
  obtain ⟨u1, e, u2, u3, u4, u5⟩ := macUpdate_adv F r hr x
  refine ⟨⟨e, u3, by rw [u4, List.range_eq_range', Nat.sub_zero], fun ⟨c', hc'⟩ hl hlt => ?_⟩, u1, macUpdate_res E _ _ _⟩
  have hn := macFirst_cnt L F a.blockSize a.digestSize (by omega) first hf l hl c r (hmem _ hc.1) (by rw [blockSize_eq]; exact hc.2.1) (by omega) ht
  exact (u5 c' (by rw [macUpdate_res E]; exact hc') _ hn (by omega)).1

/-- **C97 (Blowfish).**  Encrypting and decrypting read the input once, in order, and do not write to it (input and output are
different arrays; for one array see C46). -/
theorem C97_blowfish (c : BfCtx) (o : Tr.Bf.Op) :
    (∃ k ≤ o.input.length, fetched .input (Tr.Bf.op c o).tr = List.range k ∧
      ((∃ r, (Tr.Bf.op c o).res = .ok r) → k = o.input.length)) ∧
    stored .input (Tr.Bf.op c o).tr = [] := by
  obtain ⟨u1, e, u2, u3, u4, u5⟩ := bfOp_adv c o
  exact ⟨⟨e, u3, by rw [u4, List.range_eq_range', Nat.sub_zero], fun ⟨r, hr⟩ => u5 r hr⟩, u1⟩

/-- **C97 (Blowfish keys).**  Setting a key of `n` bytes reads the bytes 0, 1, …, 71 modulo `n`: the first 72 once each if
there are so many, and otherwise all of them in turn, again and again, as the cipher demands. -/
theorem C97_blowfish_key (mem : BfCtx) (key : List Byte) (hk : 0 < key.length) (c : BfCtx) (h : Bf.init mem key key.length = .ok c) :
    fetched .key (Tr.Bf.init mem key key.length).tr = (List.range 72).map (· % key.length) :=
  (bfInit_takes mem key key.length hk c (by rw [bfInit_res]; exact h)).1

/-- **C97, the violation.**  Setting an HMAC key reads every byte of it (up to the block size) twice. -/
theorem C97_key (a : Alg) (c : HmacCtx (a.impl 0)) (k : List Byte) (r : HmacCtx (a.impl 0))
    (h : HmacCtx.setKey (a.impl 0) a.blockSize c k k.length = .ok r) :
    fetched .key ((a.traced 0).macSetKey a.blockSize c k k.length).tr =
      List.range (min a.blockSize k.length) ++ List.range (min a.blockSize k.length) := by
  obtain ⟨mem, inv, φ, K, D, cnt, L, hmem, F⟩ := exists_fetches a 0
  exact setKey_key F _ _ _ _ r (by rw [macSetKey_res (erases a 0)]; exact h)

theorem setKeyTorn_ok (a : Alg) (ha : isShake a = false) (c : HmacCtx (a.impl 0)) (hc : hmacCtxOK a c) (k k' : List Byte)
    (hk : k'.length = k.length) :
    ∃ r, HmacCtx.setKeyTorn (a.impl 0) a.blockSize c k k' k.length = .ok r ∧
      r.kIPad = xorPad (blockBytes a) (k.take (blockBytes a)) 0x36#8 ∧ r.kOPad = xorPad (blockBytes a) (k'.take (blockBytes a)) 0x5c#8 := by
  obtain ⟨K, cf⟩ := exists_ok0 a
  obtain ⟨h1, h2, h3⟩ := hmac_sizes a ha
  rw [blockSize_eq]
  obtain ⟨hw, hi, ho⟩ := hc
  generalize blockBytes a = bs at *
  obtain ⟨c1, e1, i1⟩ := K.init_ok c.hash (cf.wf _ hw)
  have e : ∀ (k : List Byte) (u : Byte), (k.take bs ++ List.replicate (bs - k.length) 0#8).map (· ^^^ u) = xorPad bs (k.take bs) u := by
    intro k u
    rw [xorPad, List.length_take, show bs - min bs k.length = bs - k.length by omega]
  have hkl : ∀ k : List Byte, (k.take bs ++ List.replicate (bs - k.length) 0#8).length = bs := by
    intro k
    rw [List.length_append, List.length_take, List.length_replicate]; omega
  have hl : ∀ (k : List Byte) u, (xorPad bs (k.take bs) u).length = bs := fun k u =>
    xorPad_length bs _ u (by rw [List.length_take]; omega)
  obtain ⟨c2, e2, i2⟩ := K.update_ok [] c1 (xorPad bs (k.take bs) 0x36#8) bs i1 (cf.u _ h1)
    (by rw [hl]) (K.tot_mono _ _ (by rw [List.length_nil]; omega) (cf.t _ h3))
  refine ⟨⟨c2, xorPad bs (k.take bs) 0x36#8, xorPad bs (k'.take bs) 0x5c#8⟩, ?_, rfl, rfl⟩
  rw [HmacCtx.setKeyTorn, arrcpy_ok _ _ _ _ hi (Nat.le_refl _), bind_ok, ← hk, arrcpy_ok _ _ _ _ ho (Nat.le_refl _), bind_ok,
    List.take_length, hk, List.take_length, xorPads_ok bs _ _ (hkl k) (by rw [← hk]; exact hkl k'), bind_ok, e1, bind_ok]
  dsimp only
  rw [show iUnit = 0x36#8 from rfl, show oUnit = 0x5c#8 from rfl, e, ← hk, e]
  exact (congrArg (fun x : C (a.impl 0).Ctx => x >>= _) e2)

/-- **C97, what comes of it.**  When the key changes between the two reads, from `k` to a `k'` that differs from it within the
block, the call reports nothing and leaves a context of no key: setting any key, on any context, gives another pair of pads. -/
theorem C97_key_violation (a : Alg) (ha : isShake a = false) (c : HmacCtx (a.impl 0)) (hc : hmacCtxOK a c) (k k' : List Byte)
    (hl : k'.length = k.length) (hne : k'.take (blockBytes a) ≠ k.take (blockBytes a)) :
    ∃ r, HmacCtx.setKeyTorn (a.impl 0) a.blockSize c k k' k.length = .ok r ∧
      ∀ (m : HmacCtx (a.impl 0)) (key : List Byte) (s : HmacCtx (a.impl 0)), hmacCtxOK a m →
        HmacCtx.setKey (a.impl 0) a.blockSize m key key.length = .ok s → ¬ (s.kIPad = r.kIPad ∧ s.kOPad = r.kOPad) := by
  obtain ⟨r, hr, r1, r2⟩ := setKeyTorn_ok a ha c hc k k' hl
  refine ⟨r, hr, fun m key s hm hs ⟨p1, p2⟩ => hne ?_⟩
  obtain ⟨s', hs', s1, s2⟩ := setKeyTorn_ok a ha m hm key key rfl
  have : s = s' := by
    have hs : HmacCtx.setKeyTorn (a.impl 0) a.blockSize m key key key.length = .ok s := hs
    rw [hs'] at hs
    exact (Except.ok.inj hs).symm
  subst this
  rw [r1, s1, xorPad, xorPad] at p1
  rw [r2, s2, xorPad, xorPad] at p2
  have inj : ∀ (u : Byte) (x y : List Byte), x.map (· ^^^ u) = y.map (· ^^^ u) → x = y := by
    intro u x y h
    have h := congrArg (List.map (· ^^^ u)) h
    simp only [List.map_map, Function.comp_def, BitVec.xor_assoc, BitVec.xor_self, BitVec.xor_zero, List.map_id'] at h
    exact h
  have q := (inj _ _ _ p2).symm.trans (inj _ _ _ p1)
  have q := congrArg (List.take (min (blockBytes a) k.length)) q
  rw [List.take_left' (by rw [List.length_take, hl]), List.take_left' (by rw [List.length_take])] at q
  exact q

/-- Without a change it is the function itself. -/
theorem C97_torn_same (a : Alg) (c : HmacCtx (a.impl 0)) (k : List Byte) (n : Nat) :
    HmacCtx.setKeyTorn (a.impl 0) a.blockSize c k k n = HmacCtx.setKey (a.impl 0) a.blockSize c k n := rfl

/-- Three bytes after three bytes: read 0, 1, 2. -/
theorem C97_example :
    ∃ r, (do let c ← (Alg.impl .SHA1 0).init (freshMem .SHA1)
             (Alg.impl .SHA1 0).calls c [.update (str "abc")]) = .ok r ∧
      fetched .input ((Alg.traced .SHA1 0).update r.1 (some (str "def")) 3).tr = [0, 1, 2] := by
  exact ⟨((⟨sha1H0, 24#32, 0#32, 3, str "abc" ++ List.replicate 61 4#8⟩ : ShaCtx 32), []), rfl, rfl⟩

/-- Two keys that differ in one byte. -/
theorem C97_key_violation_example :
    ∃ r, HmacCtx.setKeyTorn (Alg.impl .SHA1 0) 64 sha1Mem.ctx (str "key") (str "kez") 3 = .ok r ∧
      ∀ (m : HmacCtx (Alg.impl .SHA1 0)) (key : List Byte) (s : HmacCtx (Alg.impl .SHA1 0)), hmacCtxOK .SHA1 m →
        HmacCtx.setKey (Alg.impl .SHA1 0) 64 m key key.length = .ok s → ¬ (s.kIPad = r.kIPad ∧ s.kOPad = r.kOPad) :=
  C97_key_violation .SHA1 rfl sha1Mem.ctx sha1Mem_ok.1 (str "key") (str "kez") rfl (by decide)

/-- A key of three bytes is read as 0, 1, 2, 0, 1, 2. -/
theorem C97_key_example :
    fetched .key ((Alg.traced .SHA1 0).macSetKey 64 sha1Mem.ctx (str "key") 3).tr = [0, 1, 2, 0, 1, 2] := by
  obtain ⟨r, h, _⟩ := setKeyTorn_ok .SHA1 rfl sha1Mem.ctx sha1Mem_ok.1 (str "key") (str "key") rfl
  exact C97_key .SHA1 sha1Mem.ctx (str "key") r h

/-- Fourteen bytes are read from 0 to 13. -/
theorem C97_blowfish_example :
    ∃ k ≤ 14, fetched .input (Tr.Bf.op bfMem ⟨true, List.replicate 8 0#8, str "attack at dawn", List.replicate 16 0#8⟩).tr = List.range k :=
  let ⟨⟨k, h1, h2, _⟩, _⟩ := C97_blowfish bfMem ⟨true, List.replicate 8 0#8, str "attack at dawn", List.replicate 16 0#8⟩
  ⟨k, h1, h2⟩

end Pgfe.Props
