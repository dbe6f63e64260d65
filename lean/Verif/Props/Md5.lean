import Verif.Proofs.Md5Hash
/-!
# C16, C17: MD5
-/
namespace Pgfe.Props
open Pgfe.Model Pgfe.Proofs Pgfe.Proofs.Hash

/-- **C16.** For every content `g` of the context memory, every message and every way of cutting it
into non-empty updates, init, the updates and digest write the RFC 1321 MD5 of the message and
nothing else. -/
theorem C16 (g : Md5Ctx) (hs : g.state.length = 4) (hb : g.block.length = 64)
    (parts : List (List Byte)) (hp : ∀ p ∈ parts, p ≠ []) (out : List Byte) (ho : 16 ≤ out.length) :
    md5Impl.session g parts out = .ok (Pgfe.Spec.Md5.md5 parts.flatten ++ out.drop 16) :=
  Pgfe.Proofs.Md5.hashOK.session_ok g ⟨hs, hb⟩ parts out
    (fun p h => List.length_pos_iff.2 (hp p h)) trivial ho

/-- A concrete case: "ab", "c" in a context full of garbage. -/
theorem C16_example : md5Impl.session
    ⟨List.replicate 4 0xdeadbeef#32, 77#64, List.replicate 64 0xff#8⟩ [str "ab", str "c"]
    (List.replicate 17 0xee#8) = .ok [0x90#8, 0x01#8, 0x50#8, 0x98#8, 0x3c#8, 0xd2#8, 0x4f#8, 0xb0#8,
      0xd6#8, 0x96#8, 0x3f#8, 0x7d#8, 0x28#8, 0xe1#8, 0x7f#8, 0x72#8, 0xee#8] := by decide +kernel

/-- A message over several blocks, cut across block boundaries. -/
theorem C16_example2 : md5Impl.session
    ⟨List.replicate 4 0xdeadbeef#32, 77#64, List.replicate 64 0xff#8⟩
    [List.replicate 5 0x61#8, List.replicate 59 0x61#8, List.replicate 55 0x61#8]
    (List.replicate 16 0xee#8) = .ok [0x8a#8, 0x7b#8, 0xd0#8, 0x73#8, 0x2e#8, 0xd6#8, 0xa2#8, 0x8c#8,
      0xe7#8, 0x5f#8, 0x6d#8, 0xab#8, 0xc9#8, 0x0e#8, 0x16#8, 0x13#8] := by decide +kernel

/-- **C17, violation.** In every context, an update of length zero with a non-NULL pointer uses
uninitialised variables. -/
theorem C17_violation (c : Md5Ctx) (input : List Byte) :
    md5Impl.update c (some input) 0 = .error .uninit := Pgfe.Proofs.Md5.update_zero c input

/-- **C17, violation.** Hence the one-shot MD5 of an empty message is undefined. -/
theorem C17_encode_empty (g : Md5Ctx) (hs : g.state.length = 4) (hb : g.block.length = 64)
    (data out : List Byte) : md5Impl.encode g (some data) 0 out = .error .uninit := by
  obtain ⟨c, h1, _⟩ := Pgfe.Proofs.Md5.hashOK.init_ok g ⟨hs, hb⟩
  have h1 : md5Impl.init g = .ok c := h1
  rw [HashImpl.encode, h1, bind_ok, C17_violation]
  rfl

/-- **C17, violation.** ... and of an empty C string. -/
theorem C17_encode_default_empty (g : Md5Ctx) (hs : g.state.length = 4) (hb : g.block.length = 64)
    (rest out : List Byte) : md5Impl.encodeDefault g (0#8 :: rest) out = .error .uninit := by
  have h := strlen_cstr [] rest (by simp)
  rw [List.nil_append] at h
  rw [HashImpl.encodeDefault, h, bind_ok]
  exact C17_encode_empty g hs hb _ out

theorem md5_fLoop_uninit (file : List Byte) (hf : file.length % 1024 = 0) :
    ∀ (c : Md5Ctx) (buf : List Byte), c.state.length = 4 → c.block.length = 64 → buf.length = 1024 →
    md5Impl.encodeFLoop c buf file = .error .uninit := by
  induction hn : file.length using Nat.strongRecOn generalizing file with
  | _ n ih =>
    intro c buf hs hb hbuf
    subst hn
    rw [HashImpl.encodeFLoop]
    have hsz : (file.take (min file.length 1024)).length = min file.length 1024 := by
      rw [List.length_take]; omega
    rw [wrs_ok (by rw [hsz]; omega)]
    dsimp only
    have hbl : (splice buf 0 (file.take (min file.length 1024))).length = 1024 := by
      rw [splice_length (by rw [hsz]; omega), hbuf]
    by_cases h0 : file.length = 0
    · have : min file.length 1024 = 0 := by omega
      rw [this]
      have hv := C17_violation c (splice buf 0 (file.take 0))
      have hv : md5Update c (some (splice buf 0 (file.take 0))) 0 = .error .uninit := hv
      rw [hv]
    · have hm : min file.length 1024 = 1024 := by omega
      rw [hm] at hbl ⊢
      obtain ⟨c1, h1, h2⟩ := Pgfe.Proofs.Md5.hashOK.safe_update 0 c (splice buf 0 (file.take 1024)) 1024
        ⟨hs, hb⟩ (by decide : 0 < 1024) (by omega) trivial
      have h1 : md5Update c (some (splice buf 0 (file.take 1024))) 1024 = .ok c1 := h1
      rw [h1]
      dsimp only
      exact ih (file.drop 1024).length (by rw [List.length_drop]; omega) (file.drop 1024)
        (by rw [List.length_drop]; omega) rfl c1 _ h2.1 h2.2 hbl

/-- **C17, violation.** ... and of every file whose size is a multiple of the read buffer's. -/
theorem C17_encode_f (g : Md5Ctx) (hs : g.state.length = 4) (hb : g.block.length = 64)
    (buf file out : List Byte) (hbuf : buf.length = 1024) (hf : file.length % 1024 = 0) :
    md5Impl.encodeF g buf file out = .error .uninit := by
  obtain ⟨c, h1, h2⟩ := Pgfe.Proofs.Md5.hashOK.init_ok g ⟨hs, hb⟩
  have h1 : md5Impl.init g = .ok c := h1
  have hw := Pgfe.Proofs.Md5.hashOK.wf _ _ (Pgfe.Proofs.Md5.hashOK.safe _ _ h2)
  rw [HashImpl.encodeF, h1, bind_ok, md5_fLoop_uninit file hf c buf hw.1 hw.2 hbuf]
  rfl

/-- **C17 (partial).** What holds of the claim: without any update, or with a NULL pointer of length
zero, the MD5 of the empty message is well defined and correct. -/
theorem C17_partial (g : Md5Ctx) (hs : g.state.length = 4) (hb : g.block.length = 64)
    (out : List Byte) (ho : 16 ≤ out.length) :
    md5Impl.session g [] out = .ok (Pgfe.Spec.Md5.md5 [] ++ out.drop 16) ∧
    md5Impl.encode g none 0 out = .ok (Pgfe.Spec.Md5.md5 [] ++ out.drop 16) := by
  have h := C16 g hs hb [] (by simp) out ho
  refine ⟨h, ?_⟩
  have e : md5Impl.encode g none 0 out = md5Impl.session g [] out := by
    rw [HashImpl.session, HashImpl.encode]
    cases md5Impl.init g <;> rfl
  rw [e]; exact h

end Pgfe.Props
