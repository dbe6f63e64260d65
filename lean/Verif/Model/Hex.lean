import Verif.Basic
/-!
# Model of `src/core/utils.c`, `src/core/utils.cpp`, parts of `src/core/generic-internal.c`
-/
namespace Pgfe.Model

/-- `PGFE_HEX_UNKNOWN_CHAR`, src/core/generic-internal.h:19. -/
def hexUnknown : Byte := 0xF1#8

/-- `ch2hex`, src/core/generic-internal.c:22-38.  Simplification: the C parameter is a (signed)
`char`; characters above 127 are negative there and fail all three range tests, as they do here. -/
def ch2hex (ch : Byte) : Byte :=
  if 0x30#8 ≤ ch ∧ ch ≤ 0x39#8 then ch - 0x30#8
  else if 0x41#8 ≤ ch ∧ ch ≤ 0x46#8 then ch - 0x41#8 + 10
  else if 0x61#8 ≤ ch ∧ ch ≤ 0x66#8 then ch - 0x61#8 + 10
  else hexUnknown

/-- `strlen` of the C library (external): index of the first NUL; reading past the array is
undefined. -/
def strlen : List Byte → C Nat
  | [] => .error .oobRead
  | c :: r => if c = 0#8 then .ok 0 else do
      let n ← strlen r
      .ok (n + 1)

/-- One digit of `sprintf("%02x")`, src/core/utils.c:19 (C library, external): lower-case. -/
def hexChar (n : Byte) : Byte := if n < 10 then 0x30#8 + n else 0x61#8 + (n - 10)

/-- `pgfe_hash_to_hex_string`, src/core/utils.c:15-27.  `op` is kept as an index into `out`. -/
def hashToHexString (hash : List Byte) (hashLength : Nat) (out : List Byte) :
    C (Nat × List Byte) := do
  let (op, out) ← forN hashLength (fun i (op, out) => do
    let b ← rd hash i
    let out ← wr out op (hexChar (b >>> 4))
    let out ← wr out (op + 1) (hexChar (b &&& 0xF#8))
    .ok (op + 2, out)) (0, out)
  let out ← wr out op 0#8
  .ok (op, out)

/-- `pgfe_print_hash`, src/core/utils.c:68-72: the characters printed. -/
def printHash (hash : List Byte) (length : Nat) : C (List Byte) :=
  forN length (fun i stdout => do
    let b ← rd hash i
    .ok (stdout ++ [hexChar (b >>> 4), hexChar (b &&& 0xF#8)])) []

/-- The loop of `pgfe_hex_string_to_hash`, src/core/utils.c:46-63: `rest` is what `sp` points to,
`odd` is `pos != 0`, `hexu` the accumulator, `op` the write index. -/
def hexLoop : List Byte → Bool → Byte → Nat → List Byte → C (Nat × List Byte)
  | [], _, _, _, _ => .error .oobRead
  | c :: rest, odd, hexu, op, out =>
    if c = 0#8 then .ok (op, out)
    else
      let t := ch2hex c
      if t = hexUnknown then hexLoop rest odd hexu op out
      else
        let hexu := hexu ||| t
        if odd then do
          let out ← wr out op hexu
          hexLoop rest false 0 (op + 1) out
        else hexLoop rest true (hexu <<< 4) op out

/-- `p[-1]` for `p = b + i` (the access `sp[hash_str_len - 1]` of src/core/utils.c:41). -/
def rdBefore (b : List Byte) (i : Nat) : C Byte :=
  if i = 0 then .error .oobRead else rd b (i - 1)

/-- `pgfe_hex_string_to_hash`, src/core/utils.c:29-66.  `hashS` is the whole array holding the
NUL-terminated text.  The read `sp[hash_str_len - 1]` (line 41) is performed at
`off + len - 1`; for the texts consisting of a prefix only this is the byte before `sp`, as on a
flat address space, and for the empty text it is outside the array.  Returns the number of bytes
written and the new contents of the output array. -/
def hexStringToHash (hashS out : List Byte) : C (Nat × List Byte) := do
  let len ← strlen hashS
  let tpc ← rd hashS 1
  let (off, len) := if 2 ≤ len ∧ (tpc = 0x78#8 ∨ tpc = 0x58#8) then (2, len - 2) else (0, len)
  let tpc ← rdBefore hashS (off + len)
  let len := if tpc = 0x68#8 ∨ tpc = 0x48#8 then len - 1 else len
  hexLoop (hashS.drop off) (len % 2 == 1) 0 0 out

/-- The loop of `pgfe_hash_string_clean`, src/core/utils.c:79-93 (input and output arrays
distinct).  `flag` is `offset_flag`. -/
def cleanLoop : List Byte → Int → Nat → List Byte → C (Nat × List Byte)
  | [], _, _, _ => .error .oobRead
  | c :: rest, flag, op, out =>
    if c = 0#8 then .ok (op, out)
    else
      let flag' := if flag < 2 then flag + 1 else flag
      if flag < 2 ∧ flag' = 1 ∧ (c = 0x78#8 ∨ c = 0x58#8) then cleanLoop rest flag' 0 out
      else if ch2hex c = hexUnknown then cleanLoop rest flag' op out
      else do
        let out ← wr out op c
        cleanLoop rest flag' (op + 1) out

/-- `pgfe_hash_string_clean`, src/core/utils.c:74-97, distinct arrays. -/
def hashStringClean (hashS out : List Byte) : C (Nat × List Byte) := do
  let (op, out) ← cleanLoop hashS (-1) 0 out
  let out ← wr out op 0#8
  .ok (op, out)

/-- The same loop, src/core/utils.c:79-93, when input and output are one array (`sp` is the index
`r`).  The recursion argument bounds the number of iterations by the number of remaining array
elements; it runs out only after `r` left the array, where the read is undefined anyway. -/
def cleanLoopIn : Nat → Nat → Int → Nat → List Byte → C (Nat × List Byte)
  | 0, _, _, _, _ => .error .oobRead
  | fuel + 1, r, flag, op, buf => do
    let c ← rd buf r
    if c = 0#8 then .ok (op, buf)
    else
      let flag' := if flag < 2 then flag + 1 else flag
      if flag < 2 ∧ flag' = 1 ∧ (c = 0x78#8 ∨ c = 0x58#8) then cleanLoopIn fuel (r + 1) flag' 0 buf
      else if ch2hex c = hexUnknown then cleanLoopIn fuel (r + 1) flag' op buf
      else do
        let buf ← wr buf op c
        cleanLoopIn fuel (r + 1) flag' (op + 1) buf

/-- `pgfe_hash_string_clean_`, src/core/utils.c:99-101: cleaning an array in place. -/
def hashStringCleanInPlace (buf : List Byte) : C (Nat × List Byte) := do
  let (op, buf) ← cleanLoopIn (buf.length + 1) 0 (-1) 0 buf
  let buf ← wr buf op 0#8
  .ok (op, buf)

/-- `pgfe_hash_length`, src/core/utils.c:103-111.  `garbage` is the initial contents of the
variable-length array `s`, of which `len + 1` bytes exist. -/
def hashLength (garbage hashS : List Byte) : C Nat := do
  let len ← strlen hashS
  let s := garbage.take (len + 1)
  let (_, s) ← hashStringClean hashS s
  let len ← strlen s
  .ok (len / 2 + len % 2)

/-- `sequential_data::from_hex_string`, src/core/utils.cpp:29-37: result is the byte content of the
new `SequentialData`.  `garbage` supplies the initial contents of `h_out` (`sz + 1` bytes). -/
def fromHexString (garbage hexCs : List Byte) : C (List Byte) := do
  let sSz ← strlen hexCs
  let hOut := garbage.take (sSz / 2 + sSz % 2 + 1)
  let (sz, hOut) ← hexStringToHash hexCs hOut
  let hOut ← wr hOut sz 0#8
  rds hOut 0 sz

end Pgfe.Model
