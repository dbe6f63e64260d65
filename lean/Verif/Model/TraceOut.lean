import Verif.Model.TraceText
import Verif.Model.Hex
import Verif.Model.Otp
/-!
# The traces of the functions that write results as text, and of the hexadecimal cleaner

As Model/TraceText.  `input` is the digest or the text, `output` the output array, `x` the local array `dual_hex`.
Of `sprintf`, `printf` and `std::to_string` only their arguments' accesses and their results are recorded: what the
C and C++ libraries do inside is not modelled.
-/
namespace Pgfe.Model
namespace Tr.Text

/-- `pgfe_hash_to_hex_string`, src/core/utils.c:15-27; `sprintf` writes three characters. -/
def hashToHexString (hash : List Byte) (hashLength : Nat) (out : List Byte) : T (Nat × List Byte) := do
  let s ← T.forN hashLength (fun i (s : Nat × List Byte) => do
    let b ← T.rd .input hash i
    let dual ← (⟨.ok [hexChar (b >>> 4), hexChar (b &&& 0xF#8), 0#8], [.wr .x 0 3]⟩ : T (List Byte))
    let c ← T.rd .x dual 0
    let out ← T.wr .output s.2 s.1 c
    let c ← T.rd .x dual 1
    let out ← T.wr .output out (s.1 + 1) c
    pure (s.1 + 2, out)) (0, out)
  let out ← T.wr .output s.2 s.1 0#8
  pure (s.1, out)

/-- `pgfe_print_hash`, src/core/utils.c:68-72. -/
def printHash (hash : List Byte) (length : Nat) : T (List Byte) :=
  T.forN length (fun i stdout => do
    let b ← T.rd .input hash i
    pure (stdout ++ [hexChar (b >>> 4), hexChar (b &&& 0xF#8)])) []

/-- The loop of `otp_to_string`, src/otp/otp-generic.c:28-31. -/
def otpToStringLoop : Nat → Nat → List Byte → T (List Byte)
  | 0, _, cs => do
    let _ ← T.br false
    pure cs
  | sp + 1, otp, cs => do
    let _ ← T.br true
    let cs ← T.wr .output cs sp (BitVec.ofNat 8 (otp % 10 + 0x30))
    otpToStringLoop sp (otp / 10) cs

/-- `otp_to_string`, src/otp/otp-generic.c:25-34. -/
def otpToString (otp : W32) (csOut : List Byte) (digitC : Nat) : T (List Byte) := do
  let cs ← otpToStringLoop digitC otp.toNat csOut
  T.wr .output cs digitC 0#8

/-- The loop of `AbstractOTP::generate_str`, src/otp/abstract_otp.cpp:29-31. -/
def zeroPadLoop (digitCount : Nat) (s : List Byte) : T (List Byte) :=
  if s.length < digitCount then do
    let _ ← T.br true
    zeroPadLoop digitCount (0x30#8 :: s)
  else do
    let _ ← T.br false
    pure s
termination_by digitCount - s.length

/-- `AbstractOTP::generate_str`, src/otp/abstract_otp.cpp:27-34, given what `generate` returned. -/
def generateStr (otp : Nat) (digitCount : Nat) : T (List Byte) := zeroPadLoop digitCount (stdToString otp)

/-- The loop of `pgfe_hash_string_clean`, src/core/utils.c:79-93; `rest` is the text from index `sp`. -/
def cleanLoop : List Byte → Nat → Int → Nat → List Byte → T (Nat × List Byte)
  | [], sp, _, _, _ => do
    let _ ← peek sp []
    T.fail .oobRead
  | c :: rest, sp, flag, op, out => do
    let c ← peek sp (c :: rest)
    let go ← T.br (decide (c ≠ 0#8))
    if go then do
      let early ← T.br (decide (flag < 2))
      let flag' := if early then flag + 1 else flag
      let second ← (if early then T.br (decide (flag' = 1)) else pure false)
      let pre ← (if second then do
          let c ← peek sp (c :: rest)
          eqOr c 0x78#8 0x58#8
        else pure false)
      if pre then cleanLoop rest (sp + 1) flag' 0 out
      else do
        let c ← peek sp (c :: rest)
        let h ← ch2hex c
        let unk ← T.br (decide (h = hexUnknown))
        if unk then cleanLoop rest (sp + 1) flag' op out
        else do
          let c ← peek sp (c :: rest)
          let out ← T.wr .output out op c
          cleanLoop rest (sp + 1) flag' (op + 1) out
    else pure (op, out)

/-- `pgfe_hash_string_clean`, src/core/utils.c:74-97, distinct arrays. -/
def hashStringClean (hashS out : List Byte) : T (Nat × List Byte) := do
  let r ← cleanLoop hashS 0 (-1) 0 out
  let out ← T.wr .output r.2 r.1 0#8
  pure (r.1, out)

/-- `pgfe_hash_length`, src/core/utils.c:103-111. -/
def hashLength (garbage hashS : List Byte) : T Nat := do
  let len ← strlen hashS 0
  let s := garbage.take (len + 1)
  let r ← hashStringClean hashS s
  let len ← strlen r.2 0
  pure (len / 2 + len % 2)

end Tr.Text
end Pgfe.Model
