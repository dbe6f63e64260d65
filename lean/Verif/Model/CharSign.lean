import Verif.Model.Base
/-!
# Plain `char`: signed or unsigned

C leaves it to the platform whether `char` is a signed type (Linux on x86) or an unsigned one
(Linux on ARM).  Every text the library is given is an array of `char`, and the parsers compare
characters with `>=` and `<=` and subtract letters from them, after promotion to `int`.
`Model/Hex.lean` and `Model/Base.lean` do this on bytes.  Here the same functions are written with
the promotion spelled out, for either kind of platform.  Functions that only move characters
(`pgfe_hash_to_hex_string`, `otp_to_string`, `strlen`) have no such comparison. -/
namespace Pgfe.Model

/-- The two kinds of platforms (C11 6.2.5p15). -/
inductive CharKind where
  | signed | unsigned
  deriving DecidableEq, Repr

/-- The `int` a character with the bits `b` is promoted to (C11 6.3.1.1p2). -/
def CharKind.int : CharKind → Byte → Int
  | .signed, b => b.toInt
  | .unsigned, b => (b.toNat : Int)

/-- Conversion of an `int` to `pgfe_encode_t` (C11 6.3.1.3p2; include/libpgfe/generic.h:35). -/
def toByte (x : Int) : Byte := BitVec.ofInt 8 x

namespace CharKind

/-- `ch2hex`, src/core/generic-internal.c:22-38. -/
def ch2hex (k : CharKind) (c : Byte) : Byte :=
  if k.int c ≥ 48 ∧ k.int c ≤ 57 then toByte (k.int c - 48)
  else if k.int c ≥ 65 ∧ k.int c ≤ 70 then toByte (k.int c - 65 + 10)
  else if k.int c ≥ 97 ∧ k.int c ≤ 102 then toByte (k.int c - 97 + 10)
  else hexUnknown

/-- `decode_base16_char`, src/base_encoding/base16.c:16-33. -/
def decode16 (k : CharKind) (c : Byte) : Byte :=
  if k.int c ≥ 48 ∧ k.int c ≤ 57 then toByte (k.int c - 48)
  else if k.int c ≥ 65 ∧ k.int c ≤ 70 then toByte (k.int c - 65 + 10)
  else if k.int c ≥ 97 ∧ k.int c ≤ 102 then toByte (k.int c - 97 + 10)
  else unknownCode

/-- `decode_base32_char`, src/base_encoding/base32.c:27-47. -/
def decode32 (k : CharKind) (c : Byte) : Byte :=
  if k.int c ≥ 50 ∧ k.int c ≤ 55 then toByte (k.int c - 50 + 26)
  else if k.int c ≥ 65 ∧ k.int c ≤ 90 then toByte (k.int c - 65)
  else if k.int c ≥ 97 ∧ k.int c ≤ 122 then toByte (k.int c - 97)
  else if k.int c = 61 then 0x00#8
  else unknownCode

/-- `decode_base32hex_char`, src/base_encoding/base32.c:49-69. -/
def decode32hex (k : CharKind) (c : Byte) : Byte :=
  if k.int c ≥ 48 ∧ k.int c ≤ 57 then toByte (k.int c - 48)
  else if k.int c ≥ 65 ∧ k.int c ≤ 86 then toByte (k.int c - 65 + 10)
  else if k.int c ≥ 97 ∧ k.int c ≤ 118 then toByte (k.int c - 97 + 10)
  else if k.int c = 61 then 0x00#8
  else unknownCode

/-- `decode_base64_char`, src/base_encoding/base64.c:30-56. -/
def decode64 (k : CharKind) (c : Byte) : Byte :=
  if k.int c ≥ 97 ∧ k.int c ≤ 122 then toByte (k.int c - 97 + 26)
  else if k.int c ≥ 48 ∧ k.int c ≤ 57 then toByte (k.int c - 48 + 52)
  else if k.int c ≥ 65 ∧ k.int c ≤ 90 then toByte (k.int c - 65)
  else if k.int c = 43 ∨ k.int c = 45 then 62#8
  else if k.int c = 47 ∨ k.int c = 95 then 63#8
  else if k.int c = 61 then 0x00#8
  else unknownCode

/-- The character functions of the decoders, as `BaseAlg.charFn`; src/base_encoding/base16.c:39-41,
base32.c:79-85, base64.c:66-68. -/
def charFn (k : CharKind) : BaseAlg → Byte → Byte
  | .base16 => k.decode16
  | .base32 => k.decode32
  | .base32hex => k.decode32hex
  | .base64 | .base64url => k.decode64

/-- Inner loop of `decode_base_generic`, src/base_encoding/base-encoding-internal.c:115-126. -/
def decGroup (k : CharKind) (P : BaseParams) (func : Byte → Byte) :
    List Byte → Nat → W64 → C (List Byte × Nat × W64)
  | [], _, _ => .error .oobRead
  | c :: rest, i, u =>
    if k.int c = 0 ∨ ¬ i < P.chunkCount then .ok (c :: rest, i, u)
    else
      let ch := func c
      if ch &&& 0xC0#8 = unknownCode then k.decGroup P func rest i u
      else k.decGroup P func rest (i + 1)
        ((u <<< P.bitSize) ||| (ch &&& mkmask P.bitSize).setWidth 64)

/-- Outer loop of `decode_base_generic`, src/base_encoding/base-encoding-internal.c:114-138. -/
def decLoop (k : CharKind) (P : BaseParams) (func : Byte → Byte) :
    Nat → List Byte → W64 → Nat → List Byte → Option (List Byte) →
      C (Nat × List Byte × Option (List Byte))
  | 0, _, _, _, _, _ => .error .diverge
  | _ + 1, [], _, _, _, _ => .error .oobRead
  | fuel + 1, c :: rest, u, op, out, oUnit =>
    if k.int c = 0 then .ok (op, out, oUnit)
    else do
      let (sp, i, u) ← k.decGroup P func (c :: rest) 0 u
      let c' ← rd sp 0
      let u := if k.int c' = 0 ∧ i < P.chunkCount then
        u <<< (P.bitSize * (P.chunkCount - i)) else u
      let unit := unitBytes P u
      let out ← wrs out op unit
      k.decLoop P func fuel sp u (op + P.unitSize) out (some unit)

/-- `pgfe_decode_base16` … `pgfe_decode_base64`; `decode_base_generic`,
src/base_encoding/base-encoding-internal.c:104-147. -/
def decode (k : CharKind) (a : BaseAlg) (cs out : List Byte) : C (Nat × List Byte) := do
  let (op, out, oUnit) ← k.decLoop a.params (k.charFn a) (cs.length + 1) cs 0#64 0 out none
  match oUnit with
  | none => .error .oobRead
  | some oUnit =>
    let op := op - a.params.unitSize
    let i ← countLoop out oUnit op a.params.unitSize 0
    let out ← wr out (op + i) 0#8
    .ok (op + i, out)

/-- The padding loop of `unittostr`, src/base_encoding/base-encoding-internal.c:64-70. -/
def padLoop (k : CharKind) (zero pad : Byte) : List Byte → List Byte
  | [] => []
  | c :: rev => if k.int c ≠ k.int zero then c :: rev else pad :: k.padLoop zero pad rev

/-- `unittostr`, src/base_encoding/base-encoding-internal.c:50-75. -/
def unittostr (k : CharKind) (S : Slack) (P : BaseParams) (garbage alphabet unit : List Byte)
    (padding : Bool) : C (List Byte) := do
  let (_, split) ← transform (unit ++ S.behindUnit) P.unitSize P.bitSize
    (garbage.take P.chunkCount ++ S.behindSplit)
  let unitS ← (split.take P.chunkCount).mapM (fun v => rd alphabet v.toNat)
  if padding then do
    let zero ← rd alphabet 0
    let pad ← rd alphabet P.alphabetSize
    .ok (k.padLoop zero pad unitS.reverse).reverse
  else .ok unitS

/-- `pgfe_encode_base16` … `pgfe_encode_base64_url`; `encode_base_generic`,
src/base_encoding/base-encoding-internal.c:77-102. -/
def encode (k : CharKind) (a : BaseAlg) (S : Slack) (garbage input : List Byte)
    (inputLength : Nat) (csOut : List Byte) : C (Nat × List Byte) := do
  let P := a.params
  let (sp, csOut) ← forN ((inputLength + P.unitSize - 1) / P.unitSize) (fun n (sp, csOut) => do
    let i := n * P.unitSize
    let remain := inputLength - i
    let (unit, remain) ← if remain < P.unitSize then do
        let b ← rds input i remain
        .ok (splice (List.replicate P.unitSize 0#8) 0 b, remain)
      else do
        let b ← rds input i P.unitSize
        .ok (b, P.unitSize)
    let s ← k.unittostr S P garbage a.alphabet unit (P.unitSize - remain != 0)
    let csOut ← wrs csOut sp s
    .ok (sp + P.chunkCount, csOut)) (0, csOut)
  let csOut ← wr csOut sp 0#8
  .ok (sp, csOut)

/-- The loop of `pgfe_hex_string_to_hash`, src/core/utils.c:46-63. -/
def hexLoop (k : CharKind) : List Byte → Bool → Byte → Nat → List Byte → C (Nat × List Byte)
  | [], _, _, _, _ => .error .oobRead
  | c :: rest, odd, hexu, op, out =>
    if k.int c = 0 then .ok (op, out)
    else
      let t := k.ch2hex c
      if t = hexUnknown then k.hexLoop rest odd hexu op out
      else
        let hexu := hexu ||| t
        if odd then do
          let out ← wr out op hexu
          k.hexLoop rest false 0 (op + 1) out
        else k.hexLoop rest true (hexu <<< 4) op out

/-- `pgfe_hex_string_to_hash`, src/core/utils.c:29-66. -/
def hexStringToHash (k : CharKind) (hashS out : List Byte) : C (Nat × List Byte) := do
  let len ← strlen hashS
  let tpc ← rd hashS 1
  let (off, len) := if 2 ≤ len ∧ (k.int tpc = 120 ∨ k.int tpc = 88) then (2, len - 2) else (0, len)
  let tpc ← rdBefore hashS (off + len)
  let len := if k.int tpc = 104 ∨ k.int tpc = 72 then len - 1 else len
  k.hexLoop (hashS.drop off) (len % 2 == 1) 0 0 out

/-- The loop of `pgfe_hash_string_clean`, src/core/utils.c:79-93. -/
def cleanLoop (k : CharKind) : List Byte → Int → Nat → List Byte → C (Nat × List Byte)
  | [], _, _, _ => .error .oobRead
  | c :: rest, flag, op, out =>
    if k.int c = 0 then .ok (op, out)
    else
      let flag' := if flag < 2 then flag + 1 else flag
      if flag < 2 ∧ flag' = 1 ∧ (k.int c = 120 ∨ k.int c = 88) then k.cleanLoop rest flag' 0 out
      else if k.ch2hex c = hexUnknown then k.cleanLoop rest flag' op out
      else do
        let out ← wr out op c
        k.cleanLoop rest flag' (op + 1) out

/-- `pgfe_hash_string_clean`, src/core/utils.c:74-97, distinct arrays. -/
def hashStringClean (k : CharKind) (hashS out : List Byte) : C (Nat × List Byte) := do
  let (op, out) ← k.cleanLoop hashS (-1) 0 out
  let out ← wr out op 0#8
  .ok (op, out)

/-- The same loop, src/core/utils.c:79-93, when input and output are one array. -/
def cleanLoopIn (k : CharKind) : Nat → Nat → Int → Nat → List Byte → C (Nat × List Byte)
  | 0, _, _, _, _ => .error .oobRead
  | fuel + 1, r, flag, op, buf => do
    let c ← rd buf r
    if k.int c = 0 then .ok (op, buf)
    else
      let flag' := if flag < 2 then flag + 1 else flag
      if flag < 2 ∧ flag' = 1 ∧ (k.int c = 120 ∨ k.int c = 88) then
        k.cleanLoopIn fuel (r + 1) flag' 0 buf
      else if k.ch2hex c = hexUnknown then k.cleanLoopIn fuel (r + 1) flag' op buf
      else do
        let buf ← wr buf op c
        k.cleanLoopIn fuel (r + 1) flag' (op + 1) buf

/-- `pgfe_hash_string_clean_`, src/core/utils.c:99-101. -/
def hashStringCleanInPlace (k : CharKind) (buf : List Byte) : C (Nat × List Byte) := do
  let (op, buf) ← k.cleanLoopIn (buf.length + 1) 0 (-1) 0 buf
  let buf ← wr buf op 0#8
  .ok (op, buf)

/-- `pgfe_hash_length`, src/core/utils.c:103-111. -/
def hashLength (k : CharKind) (garbage hashS : List Byte) : C Nat := do
  let len ← strlen hashS
  let s := garbage.take (len + 1)
  let (_, s) ← k.hashStringClean hashS s
  let len ← strlen s
  .ok (len / 2 + len % 2)

/-- `sequential_data::from_hex_string`, src/core/utils.cpp:29-37. -/
def fromHexString (k : CharKind) (garbage hexCs : List Byte) : C (List Byte) := do
  let sSz ← strlen hexCs
  let hOut := garbage.take (sSz / 2 + sSz % 2 + 1)
  let (sz, hOut) ← k.hexStringToHash hexCs hOut
  let hOut ← wr hOut sz 0#8
  rds hOut 0 sz

end CharKind

end Pgfe.Model
