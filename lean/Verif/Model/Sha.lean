import Verif.Model.Hex
/-!
# Model of the SHA-1 and SHA-2 code

`src/hashes/templates.h` (macros `SHA_INIT`, `SHA_UPDATE`, `SHA_DIGEST`), `src/hashes/sha1.c`,
`src/hashes/sha-internal.h`, `src/hashes/sha2-backend.c/.h`, `src/hashes/sha224.c`, `sha256.c`,
`sha384.c`, `sha512.c`.

Conventions: a context is a value of `ShaCtx`; its arrays are lists, every access is checked (`rd`,
`wr`).  A local array that the function fills from index 0 upwards (`ws`) is the list of the elements
written so far, so that reading an element not yet written is an error.  A NULL `ctx` (the functions
then return at once) is in Model/Null; a NULL `input` is `none`.
-/
namespace Pgfe.Model

/-- `struct pgfe_sha1_ctx`, include/libpgfe/hashes/sha1.h:24-30, and `struct pgfe_sha256_ctx`,
include/libpgfe/hashes/sha2.h:44-50 (`w = 32`); `struct pgfe_sha512_ctx`,
include/libpgfe/hashes/sha2.h:52-58 (`w = 64`). -/
structure ShaCtx (w : Nat) where
  state : List (BitVec w)
  lenLow : BitVec w
  lenHigh : BitVec w
  index : Nat
  block : List Byte
  deriving DecidableEq, Repr

/-- The macro `clshift(n, c)`, src/core/generic-internal.h:34. -/
def clshift {w : Nat} (n : BitVec w) (c : Nat) : BitVec w := (n <<< c) ||| (n >>> (w - c))
/-- The macro `crshift(n, c)`, src/core/generic-internal.h:36. -/
def crshift {w : Nat} (n : BitVec w) (c : Nat) : BitVec w := (n >>> c) ||| (n <<< (w - c))
/-- The macro `sha_ch(x, y, z)`, src/hashes/sha-internal.h:19. -/
def shaCh {w : Nat} (x y z : BitVec w) : BitVec w := (x &&& (y ^^^ z)) ^^^ z
/-- The macro `sha_maj(x, y, z)`, src/hashes/sha-internal.h:20. -/
def shaMaj {w : Nat} (x y z : BitVec w) : BitVec w := (x &&& (y ||| z)) ||| (y &&& z)
/-- The macro `PADDING_HEADER`, src/hashes/sha-internal.h:24. -/
def PADDING_HEADER : Byte := 0x80#8
/-- `(uint8_t)(x >> s)`, as in src/hashes/sha1.c:104-112. -/
def byteAt {w : Nat} (x : BitVec w) (s : Nat) : Byte := (x >>> s).setWidth 8

/-! ## The macros of templates.h -/

/-- The macro `SHA_INIT(name)`, src/hashes/templates.h:125-133; also `pgfe_sha384_init`,
src/hashes/sha384.c:23-30, and `pgfe_sha512_generic_init`, src/hashes/sha512.c:30-37 (same
statements; `h0` are the words the copied bytes form in memory).  The block is left as it is. -/
def shaInit {w : Nat} (h0 : List (BitVec w)) (ctx : ShaCtx w) : C (ShaCtx w) := do
  let ctx := { ctx with lenLow := 0#w, lenHigh := 0#w }
  let ctx := { ctx with index := 0 }
  let state ← wrs ctx.state 0 h0
  .ok { ctx with state := state }

/-- The body of the loop of `SHA_UPDATE`, src/hashes/templates.h:143-153 and of
`sha384n512_update`, src/hashes/sha2-backend.c:199-213 (the two differ only in the width of the
length words and in spelling): `process` is the `process_block` function, `blockSize` the block size
macro.  The flag is `corrupt_flag`; once it is set the loop is left.  The loop variable is an `int`:
its increment from 2^31 - 1 is undefined. -/
def shaUpdateBody {w : Nat} (process : ShaCtx w → C (ShaCtx w)) (blockSize : Nat)
    (input : List Byte) (i : Nat) (s : ShaCtx w × Bool) : C (ShaCtx w × Bool) :=
  match s with
  | (ctx, true) => .ok (ctx, true)
  | (ctx, false) => do
    let b ← rd input i
    let block ← wr ctx.block ctx.index b
    let ctx := { ctx with block := block, index := ctx.index + 1 }
    let tmpLow := ctx.lenLow
    let ctx := { ctx with lenLow := ctx.lenLow + 8#w }
    let carry := decide (ctx.lenLow < tmpLow)
    let ctx := if carry then { ctx with lenHigh := ctx.lenHigh + 1#w } else ctx
    let corrupt := carry && ctx.lenHigh == 0#w
    let ctx ← (if !corrupt && ctx.index == blockSize then process ctx else .ok ctx)
    if i + 1 < 2 ^ 31 then .ok (ctx, corrupt) else .error .intOverflow

/-- The macro `SHA_UPDATE(name, upper)`, src/hashes/templates.h:135-155 and `sha384n512_update`,
src/hashes/sha2-backend.c:192-215.  `input` is the memory the pointer points at. -/
def shaUpdate {w : Nat} (process : ShaCtx w → C (ShaCtx w)) (blockSize : Nat) (ctx : ShaCtx w)
    (input : Option (List Byte)) (length : Nat) : C (ShaCtx w) :=
  match input with
  | none => .ok ctx
  | some input => do
    let s ← forN length (shaUpdateBody process blockSize input) (ctx, false)
    .ok s.1

/-- The output loop of the macro `SHA_DIGEST`, src/hashes/templates.h:170-172 (`digestSize` =
`PGFE_##upper##_DIGEST_SIZE`), and of `sha224n256_digest`, src/hashes/sha2-backend.c:112-114. -/
def shaOutput32 (digestSize : Nat) (state : List W32) (output : List Byte) : C (List Byte) :=
  forN digestSize (fun i output => do
    let s ← rd state (i >>> 2)
    wr output i (byteAt s (8 * (3 - (i &&& 3))))) output

/-! ## SHA-1 -/

/-- `H0`, src/hashes/sha1.c:16. -/
def sha1H0 : List W32 := [
   0x67452301#32, 0xefcdab89#32, 0x98badcfe#32, 0x10325476#32, 0xc3d2e1f0#32]
/-- `K` of `sha1_process_block`, src/hashes/sha1.c:23. -/
def sha1K : List W32 := [
   0x5a827999#32, 0x6ed9eba1#32, 0x8f1bbcdc#32, 0xca62c1d6#32]

/-- The locals `A` ... `E` of `sha1_process_block`, src/hashes/sha1.c:26. -/
structure Reg5 where
  A : W32
  B : W32
  C : W32
  D : W32
  E : W32
  deriving DecidableEq, Repr

/-- The word read from the block at `ix4`: src/hashes/sha1.c:29-32 and
src/hashes/sha2-backend.c:33-36. -/
def wordBE32 (block : List Byte) (ix4 : Nat) : C W32 := do
  let b0 ← rd block ix4
  let b1 ← rd block (ix4 + 1)
  let b2 ← rd block (ix4 + 2)
  let b3 ← rd block (ix4 + 3)
  let w := (b0.setWidth 32) <<< 24
  let w := w ||| (b1.setWidth 32) <<< 16
  let w := w ||| (b2.setWidth 32) <<< 8
  let w := w ||| b3.setWidth 32
  .ok w

/-- The body of the four round loops, src/hashes/sha1.c:45-79; `f` is the loop's expression in
`B, C, D`, `k` the index into `K`. -/
def sha1Step (f : W32 → W32 → W32 → W32) (k : Nat) (ws : List W32) (i : Nat) (r : Reg5) :
    C Reg5 := do
  let wi ← rd ws i
  let kk ← rd sha1K k
  let tmp := clshift r.A 5 + f r.B r.C r.D + r.E + wi + kk
  .ok ⟨tmp, r.A, clshift r.B 30, r.C, r.D⟩

/-- The `ws` array of `sha1_process_block`, src/hashes/sha1.c:28-37. -/
def sha1Ws (block : List Byte) : C (List W32) := do
  let ws ← forN 16 (fun i ws => do
    let w ← wordBE32 block (4 * i)
    .ok (ws ++ [w])) []
  forN 64 (fun j ws => do
    let i := 16 + j
    let a ← rd ws (i - 3)
    let b ← rd ws (i - 8)
    let c ← rd ws (i - 14)
    let d ← rd ws (i - 16)
    .ok (ws ++ [clshift (a ^^^ b ^^^ c ^^^ d) 1])) ws

/-- `state[j] += v`, src/hashes/sha1.c:81-85 and src/hashes/sha2-backend.c:65-72, 180-187. -/
def addAt {w : Nat} (s : List (BitVec w)) (j : Nat) (v : BitVec w) : C (List (BitVec w)) := do
  let x ← rd s j
  wr s j (x + v)

/-- The round loops of `sha1_process_block`, src/hashes/sha1.c:45-79. -/
def sha1Rounds (ws : List W32) (r : Reg5) : C Reg5 := do
  let r ← forN 20 (fun j => sha1Step (fun B C D => (B &&& C) ||| (~~~B &&& D)) 0 ws j) r
  let r ← forN 20 (fun j => sha1Step (fun B C D => B ^^^ C ^^^ D) 1 ws (20 + j)) r
  let r ← forN 20 (fun j =>
    sha1Step (fun B C D => (B &&& C) ||| (B &&& D) ||| (C &&& D)) 2 ws (40 + j)) r
  forN 20 (fun j => sha1Step (fun B C D => B ^^^ C ^^^ D) 3 ws (60 + j)) r

/-- `sha1_process_block`, src/hashes/sha1.c:21-88. -/
def sha1ProcessBlock (ctx : ShaCtx 32) : C (ShaCtx 32) := do
  let ws ← sha1Ws ctx.block
  let r : Reg5 := ⟨← rd ctx.state 0, ← rd ctx.state 1, ← rd ctx.state 2, ← rd ctx.state 3,
    ← rd ctx.state 4⟩
  let r ← sha1Rounds ws r
  let s ← addAt ctx.state 0 r.A
  let s ← addAt s 1 r.B
  let s ← addAt s 2 r.C
  let s ← addAt s 3 r.D
  let s ← addAt s 4 r.E
  .ok { ctx with state := s, index := 0 }

/-- `sha1_padding`, src/hashes/sha1.c:90-115, and `sha224n256_padding`,
src/hashes/sha2-backend.c:77-102: the two functions consist of the same statements, with their own
`process_block`. -/
def shaPadding32 (process : ShaCtx 32 → C (ShaCtx 32)) (ctx : ShaCtx 32) : C (ShaCtx 32) := do
  let block ← wr ctx.block ctx.index PADDING_HEADER
  let ctx := { ctx with block := block, index := ctx.index + 1 }
  let ctx ← (if ctx.index > 56 then do
      let block ← wrs ctx.block ctx.index (List.replicate (64 - ctx.index) 0#8)
      process { ctx with block := block, index := 64 }
    else if ctx.index < 56 then do
      let block ← wrs ctx.block ctx.index (List.replicate (56 - ctx.index) 0#8)
      .ok { ctx with block := block, index := 56 }
    else .ok ctx)
  let b ← wr ctx.block 56 (byteAt ctx.lenHigh 24)
  let b ← wr b 57 (byteAt ctx.lenHigh 16)
  let b ← wr b 58 (byteAt ctx.lenHigh 8)
  let b ← wr b 59 (byteAt ctx.lenHigh 0)
  let b ← wr b 60 (byteAt ctx.lenLow 24)
  let b ← wr b 61 (byteAt ctx.lenLow 16)
  let b ← wr b 62 (byteAt ctx.lenLow 8)
  let b ← wr b 63 (byteAt ctx.lenLow 0)
  process { ctx with block := b }

/-- `pgfe_sha1_init`, `SHA_INIT(sha1)`, src/hashes/sha1.c:117. -/
def sha1Init : ShaCtx 32 → C (ShaCtx 32) := shaInit sha1H0
/-- `pgfe_sha1_update`, `SHA_UPDATE(sha1, SHA1)`, src/hashes/sha1.c:118. -/
def sha1Update := shaUpdate sha1ProcessBlock 64
/-- `pgfe_sha1_digest`: the macro `SHA_DIGEST(name, upper)`, src/hashes/templates.h:157-173,
instantiated in src/hashes/sha1.c:119; the context is wiped after padding. -/
def sha1Digest (ctx : ShaCtx 32) (output : List Byte) : C (ShaCtx 32 × List Byte) := do
  let ctx ← shaPadding32 sha1ProcessBlock ctx
  let ctx := { ctx with block := List.replicate ctx.block.length 0#8 }
  let ctx := { ctx with lenLow := 0#32, lenHigh := 0#32 }
  let output ← shaOutput32 20 ctx.state output
  .ok (ctx, output)

/-! ## SHA-224 and SHA-256 -/

/-- The macro `sha256_SIGMA0`, src/hashes/sha2-backend.h:21. -/
def sha256SIGMA0 (x : W32) : W32 := crshift x 2 ^^^ crshift x 13 ^^^ crshift x 22
/-- The macro `sha256_SIGMA1`, src/hashes/sha2-backend.h:22. -/
def sha256SIGMA1 (x : W32) : W32 := crshift x 6 ^^^ crshift x 11 ^^^ crshift x 25
/-- The macro `sha256_sigma0`, src/hashes/sha2-backend.h:23. -/
def sha256sigma0 (x : W32) : W32 := crshift x 7 ^^^ crshift x 18 ^^^ (x >>> 3)
/-- The macro `sha256_sigma1`, src/hashes/sha2-backend.h:24. -/
def sha256sigma1 (x : W32) : W32 := crshift x 17 ^^^ crshift x 19 ^^^ (x >>> 10)

/-- `K` of `sha256_process_block`, src/hashes/sha2-backend.c:18-27. -/
def sha256K : List W32 := [
   0x428a2f98#32, 0x71374491#32, 0xb5c0fbcf#32, 0xe9b5dba5#32, 0x3956c25b#32, 0x59f111f1#32,
   0x923f82a4#32, 0xab1c5ed5#32, 0xd807aa98#32, 0x12835b01#32, 0x243185be#32, 0x550c7dc3#32,
   0x72be5d74#32, 0x80deb1fe#32, 0x9bdc06a7#32, 0xc19bf174#32, 0xe49b69c1#32, 0xefbe4786#32,
   0x0fc19dc6#32, 0x240ca1cc#32, 0x2de92c6f#32, 0x4a7484aa#32, 0x5cb0a9dc#32, 0x76f988da#32,
   0x983e5152#32, 0xa831c66d#32, 0xb00327c8#32, 0xbf597fc7#32, 0xc6e00bf3#32, 0xd5a79147#32,
   0x06ca6351#32, 0x14292967#32, 0x27b70a85#32, 0x2e1b2138#32, 0x4d2c6dfc#32, 0x53380d13#32,
   0x650a7354#32, 0x766a0abb#32, 0x81c2c92e#32, 0x92722c85#32, 0xa2bfe8a1#32, 0xa81a664b#32,
   0xc24b8b70#32, 0xc76c51a3#32, 0xd192e819#32, 0xd6990624#32, 0xf40e3585#32, 0x106aa070#32,
   0x19a4c116#32, 0x1e376c08#32, 0x2748774c#32, 0x34b0bcb5#32, 0x391c0cb3#32, 0x4ed8aa4a#32,
   0x5b9cca4f#32, 0x682e6ff3#32, 0x748f82ee#32, 0x78a5636f#32, 0x84c87814#32, 0x8cc70208#32,
   0x90befffa#32, 0xa4506ceb#32, 0xbef9a3f7#32, 0xc67178f2#32]

/-- `H0`, src/hashes/sha224.c:15-17. -/
def sha224H0 : List W32 := [
   0xc1059ed8#32, 0x367cd507#32, 0x3070dd17#32, 0xf70e5939#32,
   0xffc00b31#32, 0x68581511#32, 0x64f98fa7#32, 0xbefa4fa4#32]
/-- `H0`, src/hashes/sha256.c:15-17. -/
def sha256H0 : List W32 := [
   0x6a09e667#32, 0xbb67ae85#32, 0x3c6ef372#32, 0xa54ff53a#32,
   0x510e527f#32, 0x9b05688c#32, 0x1f83d9ab#32, 0x5be0cd19#32]

/-- The locals `A` ... `H` of `sha256_process_block`, src/hashes/sha2-backend.c:30, and
`sha384n512_process_block`, line 142. -/
structure Reg8 (w : Nat) where
  A : BitVec w
  B : BitVec w
  C : BitVec w
  D : BitVec w
  E : BitVec w
  F : BitVec w
  G : BitVec w
  H : BitVec w
  deriving DecidableEq, Repr

/-- The `ws` array, src/hashes/sha2-backend.c:32-41. -/
def sha256Ws (block : List Byte) : C (List W32) := do
  let ws ← forN 16 (fun i ws => do
    let w ← wordBE32 block (4 * i)
    .ok (ws ++ [w])) []
  forN 48 (fun j ws => do
    let i := 16 + j
    let a ← rd ws (i - 2)
    let b ← rd ws (i - 7)
    let c ← rd ws (i - 15)
    let d ← rd ws (i - 16)
    .ok (ws ++ [sha256sigma1 a + b + sha256sigma0 c + d])) ws

/-- The body of the round loop, src/hashes/sha2-backend.c:52-63. -/
def sha256Step (ws : List W32) (i : Nat) (r : Reg8 32) : C (Reg8 32) := do
  let k ← rd sha256K i
  let wi ← rd ws i
  let tmp1 := r.H + sha256SIGMA1 r.E + shaCh r.E r.F r.G + k + wi
  let tmp2 := sha256SIGMA0 r.A + shaMaj r.A r.B r.C
  .ok ⟨tmp1 + tmp2, r.A, r.B, r.C, r.D + tmp1, r.E, r.F, r.G⟩

/-- Loading `A` ... `H` from the state, src/hashes/sha2-backend.c:43-50 and 156-163. -/
def loadReg8 {w : Nat} (s : List (BitVec w)) : C (Reg8 w) := do
  .ok ⟨← rd s 0, ← rd s 1, ← rd s 2, ← rd s 3, ← rd s 4, ← rd s 5, ← rd s 6, ← rd s 7⟩

/-- src/hashes/sha2-backend.c:65-72 and 180-187. -/
def addReg8 {w : Nat} (s : List (BitVec w)) (r : Reg8 w) : C (List (BitVec w)) := do
  let s ← addAt s 0 r.A
  let s ← addAt s 1 r.B
  let s ← addAt s 2 r.C
  let s ← addAt s 3 r.D
  let s ← addAt s 4 r.E
  let s ← addAt s 5 r.F
  let s ← addAt s 6 r.G
  addAt s 7 r.H

/-- `sha256_process_block`, src/hashes/sha2-backend.c:17-75. -/
def sha256ProcessBlock (ctx : ShaCtx 32) : C (ShaCtx 32) := do
  let ws ← sha256Ws ctx.block
  let r ← loadReg8 ctx.state
  let r ← forN 64 (sha256Step ws) r
  let s ← addReg8 ctx.state r
  .ok { ctx with state := s, index := 0 }

/-- `sha224n256_digest`, src/hashes/sha2-backend.c:104-115. -/
def sha224n256Digest (digestSize : Nat) (ctx : ShaCtx 32) (output : List Byte) :
    C (ShaCtx 32 × List Byte) := do
  let ctx ← shaPadding32 sha256ProcessBlock ctx
  let output ← shaOutput32 digestSize ctx.state output
  .ok (ctx, output)

/-- `pgfe_sha224_init`, `SHA_INIT(sha224)`, src/hashes/sha224.c:22. -/
def sha224Init : ShaCtx 32 → C (ShaCtx 32) := shaInit sha224H0
/-- `pgfe_sha224_update`, `SHA_UPDATE(sha224, SHA224)`, src/hashes/sha224.c:23
(`sha224_process_block` is `sha256_process_block`, sha2-backend.h:35). -/
def sha224Update := shaUpdate sha256ProcessBlock 64
/-- `pgfe_sha224_digest`, src/hashes/sha224.c:25-27. -/
def sha224Digest := sha224n256Digest 28
/-- `pgfe_sha256_init`, `SHA_INIT(sha256)`, src/hashes/sha256.c:22. -/
def sha256Init : ShaCtx 32 → C (ShaCtx 32) := shaInit sha256H0
/-- `pgfe_sha256_update`, `SHA_UPDATE(sha256, SHA256)`, src/hashes/sha256.c:23. -/
def sha256Update := shaUpdate sha256ProcessBlock 64
/-- `pgfe_sha256_digest`, src/hashes/sha256.c:25-27. -/
def sha256Digest := sha224n256Digest 32

/-! ## SHA-384, SHA-512, SHA-512/224, SHA-512/256 -/

/-- The macro `sha512_SIGMA0`, src/hashes/sha2-backend.h:26. -/
def sha512SIGMA0 (x : W64) : W64 := crshift x 28 ^^^ crshift x 34 ^^^ crshift x 39
/-- The macro `sha512_SIGMA1`, src/hashes/sha2-backend.h:27. -/
def sha512SIGMA1 (x : W64) : W64 := crshift x 14 ^^^ crshift x 18 ^^^ crshift x 41
/-- The macro `sha512_sigma0`, src/hashes/sha2-backend.h:28. -/
def sha512sigma0 (x : W64) : W64 := crshift x 1 ^^^ crshift x 8 ^^^ (x >>> 7)
/-- The macro `sha512_sigma1`, src/hashes/sha2-backend.h:29. -/
def sha512sigma1 (x : W64) : W64 := crshift x 19 ^^^ crshift x 61 ^^^ (x >>> 6)

/-- `K` of `sha384n512_process_block`, src/hashes/sha2-backend.c:120-139. -/
def sha512K : List W32 := [
   0xd728ae22#32, 0x428a2f98#32, 0x23ef65cd#32, 0x71374491#32, 0xec4d3b2f#32, 0xb5c0fbcf#32,
   0x8189dbbc#32, 0xe9b5dba5#32, 0xf348b538#32, 0x3956c25b#32, 0xb605d019#32, 0x59f111f1#32,
   0xaf194f9b#32, 0x923f82a4#32, 0xda6d8118#32, 0xab1c5ed5#32, 0xa3030242#32, 0xd807aa98#32,
   0x45706fbe#32, 0x12835b01#32, 0x4ee4b28c#32, 0x243185be#32, 0xd5ffb4e2#32, 0x550c7dc3#32,
   0xf27b896f#32, 0x72be5d74#32, 0x3b1696b1#32, 0x80deb1fe#32, 0x25c71235#32, 0x9bdc06a7#32,
   0xcf692694#32, 0xc19bf174#32, 0x9ef14ad2#32, 0xe49b69c1#32, 0x384f25e3#32, 0xefbe4786#32,
   0x8b8cd5b5#32, 0x0fc19dc6#32, 0x77ac9c65#32, 0x240ca1cc#32, 0x592b0275#32, 0x2de92c6f#32,
   0x6ea6e483#32, 0x4a7484aa#32, 0xbd41fbd4#32, 0x5cb0a9dc#32, 0x831153b5#32, 0x76f988da#32,
   0xee66dfab#32, 0x983e5152#32, 0x2db43210#32, 0xa831c66d#32, 0x98fb213f#32, 0xb00327c8#32,
   0xbeef0ee4#32, 0xbf597fc7#32, 0x3da88fc2#32, 0xc6e00bf3#32, 0x930aa725#32, 0xd5a79147#32,
   0xe003826f#32, 0x06ca6351#32, 0x0a0e6e70#32, 0x14292967#32, 0x46d22ffc#32, 0x27b70a85#32,
   0x5c26c926#32, 0x2e1b2138#32, 0x5ac42aed#32, 0x4d2c6dfc#32, 0x9d95b3df#32, 0x53380d13#32,
   0x8baf63de#32, 0x650a7354#32, 0x3c77b2a8#32, 0x766a0abb#32, 0x47edaee6#32, 0x81c2c92e#32,
   0x1482353b#32, 0x92722c85#32, 0x4cf10364#32, 0xa2bfe8a1#32, 0xbc423001#32, 0xa81a664b#32,
   0xd0f89791#32, 0xc24b8b70#32, 0x0654be30#32, 0xc76c51a3#32, 0xd6ef5218#32, 0xd192e819#32,
   0x5565a910#32, 0xd6990624#32, 0x5771202a#32, 0xf40e3585#32, 0x32bbd1b8#32, 0x106aa070#32,
   0xb8d2d0c8#32, 0x19a4c116#32, 0x5141ab53#32, 0x1e376c08#32, 0xdf8eeb99#32, 0x2748774c#32,
   0xe19b48a8#32, 0x34b0bcb5#32, 0xc5c95a63#32, 0x391c0cb3#32, 0xe3418acb#32, 0x4ed8aa4a#32,
   0x7763e373#32, 0x5b9cca4f#32, 0xd6b2b8a3#32, 0x682e6ff3#32, 0x5defb2fc#32, 0x748f82ee#32,
   0x43172f60#32, 0x78a5636f#32, 0xa1f0ab72#32, 0x84c87814#32, 0x1a6439ec#32, 0x8cc70208#32,
   0x23631e28#32, 0x90befffa#32, 0xde82bde9#32, 0xa4506ceb#32, 0xb2c67915#32, 0xbef9a3f7#32,
   0xe372532b#32, 0xc67178f2#32, 0xea26619c#32, 0xca273ece#32, 0x21c0c207#32, 0xd186b8c7#32,
   0xcde0eb1e#32, 0xeada7dd6#32, 0xee6ed178#32, 0xf57d4f7f#32, 0x72176fba#32, 0x06f067aa#32,
   0xa2c898a6#32, 0x0a637dc5#32, 0xbef90dae#32, 0x113f9804#32, 0x131c471b#32, 0x1b710b35#32,
   0x23047d84#32, 0x28db77f5#32, 0x40c72493#32, 0x32caab7b#32, 0x15c9bebc#32, 0x3c9ebe0a#32,
   0x9c100d4c#32, 0x431d67c4#32, 0xcb3e42b6#32, 0x4cc5d4be#32, 0xfc657e2a#32, 0x597f299c#32,
   0x3ad6faec#32, 0x5fcb6fab#32, 0x4a475817#32, 0x6c44198c#32]

/-- `H0`, src/hashes/sha384.c:15-18. -/
def sha384H0 : List W32 := [
   0xc1059ed8#32, 0xcbbb9d5d#32, 0x367cd507#32, 0x629a292a#32,
   0x3070dd17#32, 0x9159015a#32, 0xf70e5939#32, 0x152fecd8#32,
   0xffc00b31#32, 0x67332667#32, 0x68581511#32, 0x8eb44a87#32,
   0x64f98fa7#32, 0xdb0c2e0d#32, 0xbefa4fa4#32, 0x47b5481d#32]
/-- `H0`, src/hashes/sha512.c:15-18. -/
def sha512H0 : List W32 := [
   0xf3bcc908#32, 0x6a09e667#32, 0x84caa73b#32, 0xbb67ae85#32,
   0xfe94f82b#32, 0x3c6ef372#32, 0x5f1d36f1#32, 0xa54ff53a#32,
   0xade682d1#32, 0x510e527f#32, 0x2b3e6c1f#32, 0x9b05688c#32,
   0xfb41bd6b#32, 0x1f83d9ab#32, 0x137e2179#32, 0x5be0cd19#32]
/-- `H0_224`, src/hashes/sha512.c:20-23. -/
def sha512H0_224 : List W32 := [
   0x19544da2#32, 0x8c3d37c8#32, 0x89dcd4d6#32, 0x73e19966#32,
   0x32ff9c82#32, 0x1dfab7ae#32, 0x582f9fcf#32, 0x679dd514#32,
   0x7bd44da8#32, 0x0f6d2b69#32, 0x04c48942#32, 0x77e36f73#32,
   0x6a1d36c8#32, 0x3f9d85a8#32, 0x91d692a1#32, 0x1112e6ad#32]
/-- `H0_256`, src/hashes/sha512.c:25-28. -/
def sha512H0_256 : List W32 := [
   0xfc2bf72c#32, 0x22312194#32, 0xc84c64c2#32, 0x9f555fa3#32,
   0x6f53b151#32, 0x2393b86b#32, 0x5940eabd#32, 0x96387719#32,
   0xa88effe3#32, 0x96283ee2#32, 0x53863992#32, 0xbe5e1e25#32,
   0x2c85b8aa#32, 0x2b0199fc#32, 0x81c52ca2#32, 0x0eb72ddc#32]

/-- The 64-bit value that two consecutive 32-bit words in memory form (`memcpy(&tmp, &K[i * 2], 8)`,
src/hashes/sha2-backend.c:166); the machine is little-endian, as README.md requires. -/
def word64 (lo hi : W32) : W64 := hi ++ lo

/-- The 64-bit values of an array of 32-bit words copied with `memcpy`, src/hashes/sha512.c:36 and
src/hashes/sha384.c:29. -/
def words64 : List W32 → List W64
  | lo :: hi :: r => word64 lo hi :: words64 r
  | _ => []

/-- The inner loop over `j`, src/hashes/sha2-backend.c:145-149. -/
def wordBE64 (block : List Byte) (ix8 : Nat) : C W64 :=
  forN 8 (fun j w => do
    let b ← rd block (ix8 + j)
    .ok (w ||| (b.setWidth 64) <<< (56 - j * 8))) 0#64

/-- The `ws` array, src/hashes/sha2-backend.c:144-154. -/
def sha512Ws (block : List Byte) : C (List W64) := do
  let ws ← forN 16 (fun i ws => do
    let w ← wordBE64 block (8 * i)
    .ok (ws ++ [w])) []
  forN 64 (fun j ws => do
    let i := 16 + j
    let a ← rd ws (i - 2)
    let b ← rd ws (i - 7)
    let c ← rd ws (i - 15)
    let d ← rd ws (i - 16)
    .ok (ws ++ [sha512sigma1 a + b + sha512sigma0 c + d])) ws

/-- The body of the round loop, src/hashes/sha2-backend.c:165-178. -/
def sha512Step (ws : List W64) (i : Nat) (r : Reg8 64) : C (Reg8 64) := do
  let lo ← rd sha512K (i * 2)
  let hi ← rd sha512K (i * 2 + 1)
  let tmp := word64 lo hi
  let wi ← rd ws i
  let tmp1 := r.H + sha512SIGMA1 r.E + shaCh r.E r.F r.G + wi + tmp
  let tmp2 := sha512SIGMA0 r.A + shaMaj r.A r.B r.C
  .ok ⟨tmp1 + tmp2, r.A, r.B, r.C, r.D + tmp1, r.E, r.F, r.G⟩

/-- `sha384n512_process_block`, src/hashes/sha2-backend.c:119-190. -/
def sha512ProcessBlock (ctx : ShaCtx 64) : C (ShaCtx 64) := do
  let ws ← sha512Ws ctx.block
  let r ← loadReg8 ctx.state
  let r ← forN 80 (sha512Step ws) r
  let s ← addReg8 ctx.state r
  .ok { ctx with state := s, index := 0 }

/-- `sha384n512_update`, src/hashes/sha2-backend.c:192-215; also `pgfe_sha384_update`
(src/hashes/sha384.c:32-34), `pgfe_sha512_update`, `pgfe_sha512_224_update` and
`pgfe_sha512_256_update` (src/hashes/sha512.c:46-48, 61-63, 76-78), which call it. -/
def sha512Update := shaUpdate sha512ProcessBlock 128

/-- `sha384n512_padding`, src/hashes/sha2-backend.c:217-249. -/
def sha512Padding (ctx : ShaCtx 64) (paddingByte : Byte) : C (ShaCtx 64) := do
  let block ← wr ctx.block ctx.index paddingByte
  let ctx := { ctx with block := block, index := ctx.index + 1 }
  let ctx ← (if ctx.index > 112 then do
      let block ← wrs ctx.block ctx.index (List.replicate (128 - ctx.index) 0#8)
      sha512ProcessBlock { ctx with block := block, index := 128 }
    else if ctx.index < 112 then do
      let block ← wrs ctx.block ctx.index (List.replicate (112 - ctx.index) 0#8)
      .ok { ctx with block := block, index := 112 }
    else .ok ctx)
  let b ← wr ctx.block 112 (byteAt ctx.lenHigh 56)
  let b ← wr b 113 (byteAt ctx.lenHigh 48)
  let b ← wr b 114 (byteAt ctx.lenHigh 40)
  let b ← wr b 115 (byteAt ctx.lenHigh 32)
  let b ← wr b 116 (byteAt ctx.lenHigh 24)
  let b ← wr b 117 (byteAt ctx.lenHigh 16)
  let b ← wr b 118 (byteAt ctx.lenHigh 8)
  let b ← wr b 119 (byteAt ctx.lenHigh 0)
  let b ← wr b 120 (byteAt ctx.lenLow 56)
  let b ← wr b 121 (byteAt ctx.lenLow 48)
  let b ← wr b 122 (byteAt ctx.lenLow 40)
  let b ← wr b 123 (byteAt ctx.lenLow 32)
  let b ← wr b 124 (byteAt ctx.lenLow 24)
  let b ← wr b 125 (byteAt ctx.lenLow 16)
  let b ← wr b 126 (byteAt ctx.lenLow 8)
  let b ← wr b 127 (byteAt ctx.lenLow 0)
  sha512ProcessBlock { ctx with block := b }

/-- The output loop of `sha384n512_digest`, src/hashes/sha2-backend.c:258-260. -/
def shaOutput64 (digestSize : Nat) (state : List W64) (output : List Byte) : C (List Byte) :=
  forN digestSize (fun i output => do
    let s ← rd state (i >>> 3)
    wr output i (byteAt s (8 * (7 - (i % 8))))) output

/-- `sha384n512_digest`, src/hashes/sha2-backend.c:251-261. -/
def sha384n512Digest (digestSize : Nat) (ctx : ShaCtx 64) (output : List Byte) :
    C (ShaCtx 64 × List Byte) := do
  let ctx ← sha512Padding ctx PADDING_HEADER
  let output ← shaOutput64 digestSize ctx.state output
  .ok (ctx, output)

/-- `pgfe_sha384_init`, src/hashes/sha384.c:23-30. -/
def sha384Init : ShaCtx 64 → C (ShaCtx 64) := shaInit (words64 sha384H0)
/-- `pgfe_sha512_init`, src/hashes/sha512.c:42-44. -/
def sha512Init : ShaCtx 64 → C (ShaCtx 64) := shaInit (words64 sha512H0)
/-- `pgfe_sha512_224_init`, src/hashes/sha512.c:57-59. -/
def sha512_224Init : ShaCtx 64 → C (ShaCtx 64) := shaInit (words64 sha512H0_224)
/-- `pgfe_sha512_256_init`, src/hashes/sha512.c:72-74. -/
def sha512_256Init : ShaCtx 64 → C (ShaCtx 64) := shaInit (words64 sha512H0_256)
/-- `pgfe_sha384_digest`, src/hashes/sha384.c:36-38. -/
def sha384Digest := sha384n512Digest 48
/-- `pgfe_sha512_digest`, src/hashes/sha512.c:50-52. -/
def sha512Digest := sha384n512Digest 64
/-- `pgfe_sha512_224_digest`, src/hashes/sha512.c:65-67. -/
def sha512_224Digest := sha384n512Digest 28
/-- `pgfe_sha512_256_digest`, src/hashes/sha512.c:80-82. -/
def sha512_256Digest := sha384n512Digest 32

end Pgfe.Model
