import Verif.Proofs.BlowfishEval
import Verif.Props.Blowfish
/-!
# Blowfish

tests/cmake/blowfish_tests.cmake: the key "TESTKEY".  The key schedule is evaluated by the kernel (521 encryptions);
as for the other files here, these are tests of the model, not claims of their own.
-/
namespace Pgfe.Tests
open Pgfe.Model Pgfe.Spec Pgfe.Proofs.BfEval Pgfe.Props

set_option maxRecDepth 100000

/-- The table for the key "TESTKEY". -/
noncomputable def testTable : List W32 := Blowfish.expand Blowfish.piTable (str "TESTKEY")

/-- The four blocks of the tests. -/
def testBlocks (N : Nat) : Bool :=
  (cipherN N (fun i => i) 1 2 fun a b => a == 0xDF333FD2 && b == 0x30A71BB4) &&
  (cipherN N (fun i => i) 0x48656c6c 0x6f000000 fun a b => a == 0x9fba2e50 && b == 0x9bd3230c) &&
  (cipherN N (fun i => i) 0x686f7720 0x61726520 fun a b => a == 0xf31bc2f9 && b == 0x12c7a2e2) &&
  (cipherN N (fun i => i) 0x796f753f 0 fun a b => a == 0x7b67105e && b == 0x57d58c86)

theorem testBlocks_run :
    (force (pack (mixed Proofs.Bf.tab (str "TESTKEY"))) fun N => expandN 521 0 N 0 0 testBlocks) = true := by
  decide +kernel

theorem enc_of (T : List W32) (x : W32 × W32) (a b : W32)
    (h : (cipherN (pack T) (fun i => i) x.1.toNat x.2.toNat fun u v => u == a.toNat && v == b.toNat) = true) :
    Blowfish.enc T x = (a, b) := by
  rw [cipherN_eq, Bool.and_eq_true, beq_iff_eq, beq_iff_eq] at h
  exact Prod.ext (BitVec.eq_of_toNat_eq h.1) (BitVec.eq_of_toNat_eq h.2)

theorem test_blocks :
    Blowfish.enc testTable (1#32, 2#32) = (0xDF333FD2#32, 0x30A71BB4#32) ∧
    Blowfish.enc testTable (0x48656c6c#32, 0x6f000000#32) = (0x9fba2e50#32, 0x9bd3230c#32) ∧
    Blowfish.enc testTable (0x686f7720#32, 0x61726520#32) = (0xf31bc2f9#32, 0x12c7a2e2#32) ∧
    Blowfish.enc testTable (0x796f753f#32, 0#32) = (0x7b67105e#32, 0x57d58c86#32) := by
  have h := expand_eval Proofs.Bf.tab Proofs.Bf.tab_length (str "TESTKEY") testBlocks
  rw [testBlocks_run, Proofs.Bf.tab_pi] at h
  change testBlocks (pack testTable) = true at h
  rw [testBlocks, Bool.and_eq_true, Bool.and_eq_true, Bool.and_eq_true] at h
  obtain ⟨⟨⟨h1, h2⟩, h3⟩, h4⟩ := h
  exact ⟨enc_of _ _ _ _ h1, enc_of _ _ _ _ h2, enc_of _ _ _ _ h3, enc_of _ _ _ _ h4⟩

/-- `main` of tests/c/blowfish_test.h:14-24: the argument 4294967298 is 2^32 + 2. tests/cmake/blowfish_tests.cmake:2-3. -/
theorem blowfish_encrypt_unit1 (mem : BfCtx) (hm : bfCtxOK mem) :
    (do let ctx ← Bf.init mem (str "TESTKEY") 7
        Bf.encryptUnit ctx ⟨1#32, 2#32⟩) = .ok ⟨0xDF333FD2#32, 0x30A71BB4#32⟩ := by
  have h := C47 mem hm (str "TESTKEY") (by decide) 1#32 2#32
  change _ = Except.ok (⟨(Blowfish.enc testTable (1#32, 2#32)).1, (Blowfish.enc testTable (1#32, 2#32)).2⟩ : BfUnit) at h
  rw [test_blocks.1] at h
  exact h

/-- tests/c/blowfish_test.h:26-36. -/
theorem blowfish_decrypt_unit1 (mem : BfCtx) (hm : bfCtxOK mem) :
    (do let ctx ← Bf.init mem (str "TESTKEY") 7
        Bf.decryptUnit ctx ⟨0xDF333FD2#32, 0x30A71BB4#32⟩) = .ok ⟨1#32, 2#32⟩ := by
  obtain ⟨ctx, h1, h2, h3⟩ := C47_init mem hm (str "TESTKEY") (by decide)
  have e := blowfish_encrypt_unit1 mem hm
  have h1' : Bf.init mem (str "TESTKEY") 7 = .ok ctx := h1
  rw [h1', bind_ok] at e ⊢
  have := (C43_units ctx h2 ⟨1#32, 2#32⟩).1
  rw [e, bind_ok] at this
  exact this

/-- The program of tests/c/blowfish_test.h:38-50 up to the output buffer. -/
def bfEncMain (mem : BfCtx) (junk out key arg : List Byte) : C (Nat × List Byte) := do
  let ctx ← Bf.init mem (key ++ [0#8]) key.length
  Bf.encrypt ctx junk (some (arg ++ [0#8])) arg.length out

theorem bfEnc_run (mem : BfCtx) (hm : bfCtxOK mem) (junk out arg : List Byte) (hj : junk.length = 8)
    (ho : 8 * ((arg.length + 7) / 8) ≤ out.length) :
    bfEncMain mem junk out (str "TESTKEY") arg =
      .ok (8 * ((arg.length + 7) / 8), Blowfish.ecb (Blowfish.enc testTable) arg ++ out.drop (8 * ((arg.length + 7) / 8))) := by
  obtain ⟨ctx, h1, h2, h3⟩ := Proofs.Bf.init_eq mem hm (str "TESTKEY" ++ [0#8]) 7 (by decide) (by decide)
  have h1' : Bf.init mem (str "TESTKEY" ++ [0#8]) (str "TESTKEY").length = .ok ctx := h1
  have h3' : bfWords ctx = testTable := by
    rw [show (str "TESTKEY" ++ [0#8]).take 7 = str "TESTKEY" by decide] at h3
    rw [testTable, ← Proofs.Bf.tab_pi]
    exact h3
  rw [bfEncMain, h1', bind_ok, C44_encrypt ctx h2 junk hj arg [0#8] out ho, h3']

/-- tests/cmake/blowfish_tests.cmake:6-7, first. -/
theorem blowfish_encrypt_str1 (mem : BfCtx) (hm : bfCtxOK mem) (junk out : List Byte) (hj : junk.length = 8)
    (ho : out.length = 400) :
    bfEncMain mem junk out (str "TESTKEY") (str "Hello") =
      .ok (8, [0x9f#8, 0xba#8, 0x2e#8, 0x50#8, 0x9b#8, 0xd3#8, 0x23#8, 0x0c#8] ++ out.drop 8) := by
  have h := bfEnc_run mem hm junk out (str "Hello") hj (by rw [ho]; decide)
  have e : Blowfish.ecb (Blowfish.enc testTable) (str "Hello") =
      Blowfish.onBlock (Blowfish.enc testTable) (str "Hello" ++ [0#8, 0#8, 0#8]) := by
    change _ ++ [] = _
    rw [List.append_nil]
    rfl
  have e2 : Blowfish.onBlock (Blowfish.enc testTable) (str "Hello" ++ [0#8, 0#8, 0#8]) =
      [0x9f#8, 0xba#8, 0x2e#8, 0x50#8, 0x9b#8, 0xd3#8, 0x23#8, 0x0c#8] := by
    rw [Blowfish.onBlock, show (Blowfish.word ((str "Hello" ++ [0#8, 0#8, 0#8]).take 4),
      Blowfish.word (((str "Hello" ++ [0#8, 0#8, 0#8]).drop 4).take 4)) = (0x48656c6c#32, 0x6f000000#32) by decide,
      test_blocks.2.1]
    decide
  rw [e, e2] at h
  exact h

/-- tests/cmake/blowfish_tests.cmake:6-7, second. -/
theorem blowfish_encrypt_str2 (mem : BfCtx) (hm : bfCtxOK mem) (junk out : List Byte) (hj : junk.length = 8)
    (ho : out.length = 400) :
    bfEncMain mem junk out (str "TESTKEY") (str "how are you?") =
      .ok (16, [0xf3#8, 0x1b#8, 0xc2#8, 0xf9#8, 0x12#8, 0xc7#8, 0xa2#8, 0xe2#8,
        0x7b#8, 0x67#8, 0x10#8, 0x5e#8, 0x57#8, 0xd5#8, 0x8c#8, 0x86#8] ++ out.drop 16) := by
  have h := bfEnc_run mem hm junk out (str "how are you?") hj (by rw [ho]; decide)
  have e : Blowfish.ecb (Blowfish.enc testTable) (str "how are you?") =
      Blowfish.onBlock (Blowfish.enc testTable) (str "how are ") ++
      Blowfish.onBlock (Blowfish.enc testTable) (str "you?" ++ [0#8, 0#8, 0#8, 0#8]) := by
    change _ ++ (_ ++ []) = _
    rw [List.append_nil]
    rfl
  have e1 : Blowfish.onBlock (Blowfish.enc testTable) (str "how are ") =
      [0xf3#8, 0x1b#8, 0xc2#8, 0xf9#8, 0x12#8, 0xc7#8, 0xa2#8, 0xe2#8] := by
    rw [Blowfish.onBlock, show (Blowfish.word ((str "how are ").take 4),
      Blowfish.word (((str "how are ").drop 4).take 4)) = (0x686f7720#32, 0x61726520#32) by decide, test_blocks.2.2.1]
    decide
  have e2 : Blowfish.onBlock (Blowfish.enc testTable) (str "you?" ++ [0#8, 0#8, 0#8, 0#8]) =
      [0x7b#8, 0x67#8, 0x10#8, 0x5e#8, 0x57#8, 0xd5#8, 0x8c#8, 0x86#8] := by
    rw [Blowfish.onBlock, show (Blowfish.word ((str "you?" ++ [0#8, 0#8, 0#8, 0#8]).take 4),
      Blowfish.word (((str "you?" ++ [0#8, 0#8, 0#8, 0#8]).drop 4).take 4)) = (0x796f753f#32, 0#32) by decide,
      test_blocks.2.2.2]
    decide
  rw [e, e1, e2] at h
  exact h

end Pgfe.Tests
