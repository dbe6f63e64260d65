import Verif.Proofs.TextClean
import Verif.Proofs.TextOutWork
import Verif.Props.TextWork
/-!
# C102: what writing a result as text shows; C99 and C100 for the remaining text functions

`(Tr.Text.f x).tr` are the decisions and the accesses to arrays of the call, in order (Model/TraceOut).
-/
namespace Pgfe.Props
open Pgfe.Model Pgfe.Spec Pgfe.Proofs
open Pgfe.Spec.TextClass

/-- **C102, the model.**  What the traced functions compute is what the functions of the model compute. -/
theorem C102_model :
    (∀ (x : List Byte) (n : Nat) (out : List Byte), (Tr.Text.hashToHexString x n out).res = hashToHexString x n out) ∧
    (∀ (x : List Byte) (n : Nat), (Tr.Text.printHash x n).res = printHash x n) ∧
    (∀ (code : W32) (out : List Byte) (d : Nat), (Tr.Text.otpToString code out d).res = otpToString code out d) ∧
    (∀ code d : Nat, (Tr.Text.generateStr code d).res = .ok (generateStr code d)) ∧
    (∀ t out : List Byte, (Tr.Text.hashStringClean t out).res = hashStringClean t out) ∧
    (∀ g t : List Byte, (Tr.Text.hashLength g t).res = hashLength g t) :=
  ⟨TextTrace.hashToHexString_res, TextTrace.printHash_res, TextTrace.otpToString_res,
    fun n d => by rw [TextTrace.generateStr_ok], TextTrace.clean_res, TextTrace.hashLength_res⟩

/-- **C102, the functions of the C library.**  Two calls of `pgfe_hash_to_hex_string`, of `pgfe_print_hash` or of
`otp_to_string` for the same length make the same decisions and accesses, whatever bytes, codes and contents of the output
arrays are (the arrays having the same size), and also if the output array is too small.  Missing: the class' `generate_str`
(`C102_violation`). -/
theorem C102_partial :
    (∀ (x x' out out' : List Byte) (n : Nat), x.length = x'.length → out.length = out'.length →
      (Tr.Text.hashToHexString x n out).tr = (Tr.Text.hashToHexString x' n out').tr) ∧
    (∀ (x x' : List Byte) (n : Nat), x.length = x'.length → (Tr.Text.printHash x n).tr = (Tr.Text.printHash x' n).tr) ∧
    (∀ (code code' : W32) (out out' : List Byte) (d : Nat), out.length = out'.length →
      (Tr.Text.otpToString code out d).tr = (Tr.Text.otpToString code' out' d).tr) :=
  ⟨TextTrace.hashToHexString_same, TextTrace.printHash_same, TextTrace.otpToString_same⟩

/-- **C102 (`generate_str`), exact.**  Two codes written with `d` digits make the same decisions if and only if the
same number of zeros is put in front of both: for every `1 ≤ k < d` the one is below `10 ^ k` exactly when the other one
is. -/
theorem C102_str (code code' d : Nat) : (Tr.Text.generateStr code d).tr = (Tr.Text.generateStr code' d).tr ↔
    ∀ k, 1 ≤ k → k < d → (code < 10 ^ k ↔ code' < 10 ^ k) :=
  TextTrace.generateStr_iff code code' d

/-- **C102 (`generate_str`), violation.**  A code that begins with a zero is told apart from one that does not, for every
number of digits from 2. -/
theorem C102_violation (code code' d : Nat) (hd : 2 ≤ d) (h : code < 10 ^ (d - 1)) (h' : 10 ^ (d - 1) ≤ code') :
    (Tr.Text.generateStr code d).tr ≠ (Tr.Text.generateStr code' d).tr := by
  intro e
  have := ((C102_str code code' d).1 e (d - 1) (by omega) (by omega)).1 h
  omega

/-- A case: the codes 755224 and 287082 are not told apart, 081804 and 969429 are. -/
theorem C102_example :
    (Tr.Text.generateStr 755224 6).tr = (Tr.Text.generateStr 287082 6).tr ∧
    (Tr.Text.generateStr 81804 6).tr ≠ (Tr.Text.generateStr 969429 6).tr ∧
    generateStr 81804 6 = str "081804" ∧
    (Tr.Text.hashToHexString [0x1A#8, 0xB2#8] 2 (List.replicate 5 0#8)).tr =
      (Tr.Text.hashToHexString [0xFF#8, 0x00#8] 2 (List.replicate 5 1#8)).tr ∧
    hashToHexString [0x1A#8, 0xB2#8] 2 (List.replicate 5 0#8) = .ok (4, str "1ab2" ++ [0#8]) ∧
    (Tr.Text.otpToString 81804#32 (List.replicate 7 0#8) 6).tr = (Tr.Text.otpToString 969429#32 (List.replicate 7 0#8) 6).tr ∧
    otpToString 81804#32 (List.replicate 7 0#8) 6 = .ok (str "081804" ++ [0#8]) := by
  refine ⟨?_, ?_, by decide +kernel, by decide +kernel, by decide +kernel, by decide +kernel, by decide +kernel⟩
  · rw [TextTrace.generateStr_ok, TextTrace.generateStr_ok]; decide +kernel
  · exact C102_violation 81804 969429 6 (by omega) (by decide) (by decide)

/-! ## C99 -/

/-- **C99 (`pgfe_hash_string_clean`), exact.**  Two calls that return make the same decisions and accesses if and only if the
texts have the same prefix letter (`x`, `X` or none) and the same classes of characters, place by place. -/
theorem C99_clean (t t' rest rest' out out' : List Byte) (h0 : ∀ c ∈ t, c ≠ 0#8) (h0' : ∀ c ∈ t', c ≠ 0#8) (r r' : Nat × List Byte)
    (h : hashStringClean (t ++ 0#8 :: rest) out = .ok r) (h' : hashStringClean (t' ++ 0#8 :: rest') out' = .ok r') :
    (Tr.Text.hashStringClean (t ++ 0#8 :: rest) out).tr = (Tr.Text.hashStringClean (t' ++ 0#8 :: rest') out').tr ↔
      hexPrefix t = hexPrefix t' ∧ t.map (seen .base16) = t'.map (seen .base16) :=
  TextTrace.clean_iff t t' rest rest' out out' h0 h0' r r' h h'

/-- **C99 (`pgfe_hash_length`), exact.**  The same (`garbage` is the memory of its local array; the call always returns). -/
theorem C99_length (t t' rest rest' garbage garbage' : List Byte) (h0 : ∀ c ∈ t, c ≠ 0#8) (h0' : ∀ c ∈ t', c ≠ 0#8)
    (hg : t.length < garbage.length) (hg' : t'.length < garbage'.length) :
    (Tr.Text.hashLength garbage (t ++ 0#8 :: rest)).tr = (Tr.Text.hashLength garbage' (t' ++ 0#8 :: rest')).tr ↔
      hexPrefix t = hexPrefix t' ∧ t.map (seen .base16) = t'.map (seen .base16) :=
  TextTrace.length_iff t t' rest rest' garbage garbage' h0 h0' hg hg'

/-- Cases of `C99_clean` and `C99_length`: texts with the same classes, and one with a small letter for a capital. -/
theorem C99_clean_example :
    hashStringClean (str "0x1A-2f" ++ [0#8]) (List.replicate 8 0#8) = .ok (4, str "1A2f" ++ [0#8, 0#8, 0#8, 0#8]) ∧
    (Tr.Text.hashStringClean (str "0x1A-2f" ++ [0#8]) (List.replicate 8 0#8)).tr =
      (Tr.Text.hashStringClean (str "9x0F.7c" ++ [0#8]) (List.replicate 9 0#8)).tr ∧
    (Tr.Text.hashStringClean (str "0x1A-2f" ++ [0#8]) (List.replicate 8 0#8)).tr ≠
      (Tr.Text.hashStringClean (str "0X1A-2f" ++ [0#8]) (List.replicate 8 0#8)).tr ∧
    (Tr.Text.hashLength (List.replicate 8 0#8) (str "0x1A-2f" ++ [0#8])).tr =
      (Tr.Text.hashLength (List.replicate 8 1#8) (str "9x0F.7c" ++ [0#8])).tr ∧
    (Tr.Text.hashLength (List.replicate 8 0#8) (str "0x1A-2f" ++ [0#8])).tr ≠
      (Tr.Text.hashLength (List.replicate 8 0#8) (str "0x1a-2f" ++ [0#8])).tr := by
  decide +kernel

/-! ## C100 -/

/-- **C100 (the other text functions).**  Writing `n` bytes as hexadecimal text takes at most `9 n + 2` steps, printing them
`2 n + 1`, writing a code with `d` digits `2 d + 2`, `generate_str` one step for each zero it puts in front and one besides;
`pgfe_hash_string_clean` takes at most 17 steps for each character before the first NUL and 3 besides, `pgfe_hash_length` 21
and 9. -/
theorem C100_write :
    (∀ (x : List Byte) (n : Nat) (out : List Byte), work (Tr.Text.hashToHexString x n out).tr ≤ 9 * n + 2) ∧
    (∀ (x : List Byte) (n : Nat), work (Tr.Text.printHash x n).tr ≤ 2 * n + 1) ∧
    (∀ (code : W32) (out : List Byte) (d : Nat), work (Tr.Text.otpToString code out d).tr ≤ 2 * d + 2) ∧
    (∀ code d : Nat, work (Tr.Text.generateStr code d).tr = d - (stdToString code).length + 1) ∧
    (∀ t out : List Byte, work (Tr.Text.hashStringClean t out).tr ≤ 17 * textLen t + 3) ∧
    (∀ g t : List Byte, work (Tr.Text.hashLength g t).tr ≤ 21 * textLen t + 9) :=
  ⟨Work.hashToHexString_bd, Work.printHash_bd, Work.otpToString_bd, Work.generateStr_work, Work.clean_bd, Work.hashLength_bd⟩

/-- The steps are really counted. -/
theorem C100_write_counted :
    work (Tr.Text.hashToHexString [0x1A#8, 0xB2#8] 2 (List.replicate 5 0#8)).tr = 20 ∧
    work (Tr.Text.printHash [0x1A#8, 0xB2#8] 2).tr = 5 ∧
    work (Tr.Text.otpToString 81804#32 (List.replicate 7 0#8) 6).tr = 14 ∧
    work (Tr.Text.hashStringClean (str "0x1A-2f" ++ [0#8]) (List.replicate 8 0#8)).tr = 70 ∧
    work (Tr.Text.hashLength (List.replicate 8 0#8) (str "0x1A-2f" ++ [0#8])).tr = 96 := by
  decide +kernel

end Pgfe.Props
