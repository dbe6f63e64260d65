import Verif.Model.Hash
import Verif.Model.Sha
/-!
# Model of the MD5 code

`src/hashes/md5.c`, `src/hashes/md5-backend.c`.  Conventions as in `Model/Sha`: array accesses are
checked, a local array filled from index 0 upwards is the list of the elements written so far.
-/
namespace Pgfe.Model

/-- `struct pgfe_md5_ctx`, include/libpgfe/hashes/md5.h:22-27. -/
structure Md5Ctx where
  state : List W32
  blockLen : W64
  block : List Byte
  deriving DecidableEq, Repr

/-- `H0`, src/hashes/md5.c:18. -/
def md5H0 : List W32 := [0x67452301#32, 0xefcdab89#32, 0x98badcfe#32, 0x10325476#32]
/-- `PADDING`, src/hashes/md5.c:20-23. -/
def md5Padding : List Byte := [
  0x80#8, 0#8, 0#8, 0#8, 0#8, 0#8, 0#8, 0#8, 0#8, 0#8, 0#8, 0#8, 0#8, 0#8, 0#8, 0#8,
  0#8, 0#8, 0#8, 0#8, 0#8, 0#8, 0#8, 0#8, 0#8, 0#8, 0#8, 0#8, 0#8, 0#8, 0#8, 0#8,
  0#8, 0#8, 0#8, 0#8, 0#8, 0#8, 0#8, 0#8, 0#8, 0#8, 0#8, 0#8, 0#8, 0#8, 0#8, 0#8,
  0#8, 0#8, 0#8, 0#8, 0#8, 0#8, 0#8, 0#8, 0#8, 0#8, 0#8, 0#8, 0#8, 0#8, 0#8, 0#8]

/-- The macro `F(x, y, z)`, src/hashes/md5-backend.c:12. -/
def md5F (x y z : W32) : W32 := (x &&& y) ||| (~~~x &&& z)
/-- The macro `G(x, y, z)`, src/hashes/md5-backend.c:13. -/
def md5G (x y z : W32) : W32 := (x &&& z) ||| (y &&& ~~~z)
/-- The macro `H(x, y, z)`, src/hashes/md5-backend.c:14. -/
def md5H (x y z : W32) : W32 := x ^^^ y ^^^ z
/-- The macro `I(x, y, z)`, src/hashes/md5-backend.c:15. -/
def md5I (x y z : W32) : W32 := y ^^^ (x ||| ~~~z)

/-- The macro `_ROUND_TRAN`, src/hashes/md5-backend.c:17: the new value of `a`. -/
def md5RoundTran (a apl b x : W32) (s : Nat) (ac : W32) : W32 :=
  let a := a + (apl + x + ac)
  let a := clshift a s
  a + b

/-- `S`, src/hashes/md5-backend.c:21-26. -/
def md5S : List (List Nat) := [
  [7, 12, 17, 22],
  [5, 9,  14, 20],
  [4, 11, 16, 23],
  [6, 10, 15, 21]]

/-- `idx`, src/hashes/md5-backend.c:28-33. -/
def md5Idx : List (List Nat) := [
  [0, 1, 2,  3,  4,  5,  6,  7,  8,  9,  10, 11, 12, 13, 14, 15],
  [1, 6, 11, 0,  5,  10, 15, 4,  9,  14, 3,  8,  13, 2,  7,  12],
  [5, 8, 11, 14, 1,  4,  7,  10, 13, 0,  3,  6,  9,  12, 15, 2 ],
  [0, 7, 14, 5,  12, 3,  10, 1,  8,  15, 6,  13, 4,  11, 2,  9 ]]

/-- `ac`, src/hashes/md5-backend.c:35-44. -/
def md5Ac : List (List W32) := [
  [0xd76aa478#32, 0xe8c7b756#32, 0x242070db#32, 0xc1bdceee#32, 0xf57c0faf#32, 0x4787c62a#32,
   0xa8304613#32, 0xfd469501#32, 0x698098d8#32, 0x8b44f7af#32, 0xffff5bb1#32, 0x895cd7be#32,
   0x6b901122#32, 0xfd987193#32, 0xa679438e#32, 0x49b40821#32],
  [0xf61e2562#32, 0xc040b340#32, 0x265e5a51#32, 0xe9b6c7aa#32, 0xd62f105d#32, 0x2441453#32,
   0xd8a1e681#32, 0xe7d3fbc8#32, 0x21e1cde6#32, 0xc33707d6#32, 0xf4d50d87#32, 0x455a14ed#32,
   0xa9e3e905#32, 0xfcefa3f8#32, 0x676f02d9#32, 0x8d2a4c8a#32],
  [0xfffa3942#32, 0x8771f681#32, 0x6d9d6122#32, 0xfde5380c#32, 0xa4beea44#32, 0x4bdecfa9#32,
   0xf6bb4b60#32, 0xbebfbc70#32, 0x289b7ec6#32, 0xeaa127fa#32, 0xd4ef3085#32, 0x4881d05#32,
   0xd9d4d039#32, 0xe6db99e5#32, 0x1fa27cf8#32, 0xc4ac5665#32],
  [0xf4292244#32, 0x432aff97#32, 0xab9423a7#32, 0xfc93a039#32, 0x655b59c3#32, 0x8f0ccc92#32,
   0xffeff47d#32, 0x85845dd1#32, 0x6fa87e4f#32, 0xfe2ce6e0#32, 0xa3014314#32, 0x4e0811a1#32,
   0xf7537e82#32, 0xbd3af235#32, 0x2ad7d2bb#32, 0xeb86d391#32]]

/-- An element of a two-dimensional array. -/
def rd2 {α : Type} (t : List (List α)) (i j : Nat) : C α := do
  let row ← rd t i
  rd row j

/-- The choice among F, G, H, I in the macro `_F(r, ...)`, src/hashes/md5-backend.c:46-62; `none` for
the `default` case, which does nothing. -/
def md5Fun : Nat → Option (W32 → W32 → W32 → W32)
  | 0 => some md5F
  | 1 => some md5G
  | 2 => some md5H
  | 3 => some md5I
  | _ => none

/-- The statement `_F(r, buf[_O(i, 3, 4)], ...)`, src/hashes/md5-backend.c:101-102. -/
def md5Step (x : List W32) (r i : Nat) (buf : List W32) : C (List W32) := do
  let a ← rd buf ((i + 3) % 4)
  let b ← rd buf ((i + 2) % 4)
  let c ← rd buf ((i + 1) % 4)
  let d ← rd buf ((i + 0) % 4)
  let k ← rd2 md5Idx r i
  let xk ← rd x k
  let s ← rd2 md5S r (i % 4)
  let ac ← rd2 md5Ac r i
  match md5Fun r with
  | some f => wr buf ((i + 3) % 4) (md5RoundTran a (f b c d) b xk s ac)
  | none => .ok buf

/-- `md5_decode`, src/hashes/md5-backend.c:64-73, for a `length` that is a multiple of 4. -/
def md5Decode (input : List Byte) (length : Nat) : C (List W32) :=
  forN (length / 4) (fun i output => do
    let b0 ← rd input (4 * i)
    let b1 ← rd input (4 * i + 1)
    let b2 ← rd input (4 * i + 2)
    let b3 ← rd input (4 * i + 3)
    let w := b0.setWidth 32
    let w := w ||| (b1.setWidth 32) <<< 8
    let w := w ||| (b2.setWidth 32) <<< 16
    let w := w ||| (b3.setWidth 32) <<< 24
    .ok (output ++ [w])) []

/-- `md5_encode`, src/hashes/md5-backend.c:75-84, for a `length` that is a multiple of 4 (both calls
are). -/
def md5Encode (input : List W32) (length : Nat) (output : List Byte) : C (List Byte) :=
  forN (length / 4) (fun i output => do
    let w ← rd input i
    let output ← wr output (4 * i) ((w &&& 0xFF#32).setWidth 8)
    let output ← wr output (4 * i + 1) (((w >>> 8) &&& 0xFF#32).setWidth 8)
    let output ← wr output (4 * i + 2) (((w >>> 16) &&& 0xFF#32).setWidth 8)
    wr output (4 * i + 3) (((w >>> 24) &&& 0xFF#32).setWidth 8)) output

/-- `md5_transform`, src/hashes/md5-backend.c:86-111. -/
def md5Transform (state : List W32) (block : List Byte) : C (List W32) := do
  let a ← rd state 0
  let b ← rd state 1
  let c ← rd state 2
  let d ← rd state 3
  let buf := [d, c, b, a]
  let x ← md5Decode block 64
  let buf ← forN 4 (fun r buf => forN 16 (fun i buf => md5Step x r i buf) buf) buf
  let state ← addAt state 0 (← rd buf 3)
  let state ← addAt state 1 (← rd buf 2)
  let state ← addAt state 2 (← rd buf 1)
  addAt state 3 (← rd buf 0)

/-- `pgfe_md5_init`, src/hashes/md5.c:25-30. -/
def md5Init (ctx : Md5Ctx) : C Md5Ctx := do
  let ctx := { ctx with blockLen := 0#64 }
  let state ← wrs ctx.state 0 md5H0
  .ok { ctx with state := state }

/-- `offset = (uint8_t)(ctx->block_len & 0x3F)`, src/hashes/md5.c:39. -/
def md5Offset (ctx : Md5Ctx) : Nat := (ctx.blockLen &&& 0x3F#64).toNat % 256

theorem md5Offset_lt (ctx : Md5Ctx) : md5Offset ctx < 64 := by
  have h : (ctx.blockLen &&& 0x3F#64).toNat = ctx.blockLen.toNat % 64 := by
    rw [BitVec.toNat_and]; exact Nat.and_two_pow_sub_one_eq_mod _ 6
  rw [md5Offset, h]; omega

/-- The `for` loop of `pgfe_md5_update`, src/hashes/md5.c:38-50.  `readLen` is `p - input`; the locals
`offset` and `written_len` are `none` as long as they are uninitialised. -/
def md5Loop (input : List Byte) (length : Nat) (ctx : Md5Ctx) (readLen : Nat)
    (locals : Option (Nat × Nat)) : C (Md5Ctx × Nat × Option (Nat × Nat)) :=
  if _h : readLen < length then
    if length - readLen < 64 - md5Offset ctx then
      .ok (ctx, readLen, some (md5Offset ctx, 64 - md5Offset ctx))
    else do
      let src ← rds input readLen (64 - md5Offset ctx)
      let block ← wrs ctx.block (md5Offset ctx) src
      let state ← md5Transform ctx.state block
      md5Loop input length
        { state := state, blockLen := ctx.blockLen + BitVec.ofNat 64 (64 - md5Offset ctx), block := block }
        (readLen + (64 - md5Offset ctx)) (some (md5Offset ctx, 64 - md5Offset ctx))
  else .ok (ctx, readLen, locals)
termination_by length - readLen
decreasing_by
  have := md5Offset_lt ctx
  omega

/-- The rest of `pgfe_md5_update`, src/hashes/md5.c:52-63. -/
def md5Finish (input : List Byte) (length : Nat) (ctx : Md5Ctx) (readLen : Nat)
    (locals : Option (Nat × Nat)) : C Md5Ctx :=
  match locals with
  | none => .error .uninit
  | some (offset, remainder) => do
    let writtenLen := length - readLen
    let r ← (if writtenLen ≠ 0 then do
        let src ← rds input readLen writtenLen
        let block ← wrs ctx.block offset src
        .ok ({ ctx with block := block, blockLen := ctx.blockLen + BitVec.ofNat 64 writtenLen },
          (remainder + 2 ^ 64 - writtenLen) % 2 ^ 64)
      else .ok (ctx, remainder))
    if r.2 = 0 then do
      let state ← md5Transform r.1.state r.1.block
      .ok { r.1 with state := state }
    else .ok r.1

/-- `pgfe_md5_update`, src/hashes/md5.c:32-64. -/
def md5Update (ctx : Md5Ctx) (input : Option (List Byte)) (length : Nat) : C Md5Ctx :=
  match input with
  | none => .ok ctx
  | some input => do
    let r ← md5Loop input length ctx 0 none
    md5Finish input length r.1 r.2.1 r.2.2

/-- `pgfe_md5_digest`, src/hashes/md5.c:66-84.  The uninitialised local `chunk` is represented by
zeros; `md5_encode` writes all of it before it is read. -/
def md5Digest (ctx : Md5Ctx) (output : List Byte) : C (Md5Ctx × List Byte) := do
  let count : List W32 := [(ctx.blockLen <<< 3).setWidth 32, (ctx.blockLen >>> 29).setWidth 32]
  let chunk ← md5Encode count 8 (List.replicate 8 0#8)
  let i := (ctx.blockLen &&& 0x3F#64).toNat
  let ctx ← md5Update ctx (some md5Padding) (if i < 56 then 56 - i else 120 - i)
  let ctx ← md5Update ctx (some chunk) 8
  let output ← md5Encode ctx.state 16 output
  .ok (ctx, output)

/-- `pgfe_md5_*`, include/libpgfe/hashes/md5.h:39-43. -/
abbrev md5Impl : HashImpl := ⟨Md5Ctx, md5Init, md5Update, md5Digest⟩

end Pgfe.Model
