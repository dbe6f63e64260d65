import Verif.Model.Alg
import Verif.Model.Hmac
/-!
# What a call shows to an observer of its control flow and of the addresses it uses

The functions of Model/Md5, Sha, Keccak and Hmac once more, statement by statement, in a monad that also
records

* every decision: the outcome of an `if`, `?:`, `&&`, `||` or loop condition that does not only depend on
  constants of the source, and every iteration of a loop (also the outcome of a condition behind `&&` that C would
  not evaluate: the observer sees no less than a real one);
* every access to an element of an array (or to a range of elements, for `memcpy` and `memset`) with its index.

The addresses of scalar variables and of scalar members of the context are determined by the control flow, and
are not recorded.  An element that one statement accesses several times is recorded once for reading and once for
writing.  That the traced functions compute the same results as the functions of the model is proved
(Verif/Proofs/TraceErase.lean); that they make the decisions and accesses of the code is to be seen by reading,
as for the model itself.  Not modelled: what a compiler makes of the code, the time of a single machine
instruction (the code multiplies and divides only by constants and lengths).
-/
namespace Pgfe.Model

/-- The arrays of the functions: members of a context, arguments, local arrays, constant tables.  (One name
stands for the same object throughout a call; objects of different calls need not be told apart.) -/
inductive Arr where
  | state | block | queue | input | output | ws | x | buf | cs | chunk | count | ipad | opad | key
  | K | idx | S | ac | rc | piln | rot
  | bfP | bfP0 | bfS | unit | counter | mac | pow
  deriving DecidableEq, Repr

/-- What is observed. -/
inductive Event where
  | rd (a : Arr) (i n : Nat)
  | wr (a : Arr) (i n : Nat)
  | br (taken : Bool)
  | sw (case : Nat)
  deriving DecidableEq, Repr

/-- A computation with the trace of what it does, up to its end or to the point where it fails. -/
structure T (α : Type) where
  res : C α
  tr : List Event

namespace T

/-- First `m`, then `f` with its result. -/
def bind {α β : Type} (m : T α) (f : α → T β) : T β :=
  match m.res with
  | .ok a => ⟨(f a).res, m.tr ++ (f a).tr⟩
  | .error e => ⟨.error e, m.tr⟩

instance : Monad T where
  pure a := ⟨.ok a, []⟩
  bind := bind

/-- An array element read. -/
def rd {α : Type} (a : Arr) (b : List α) (i : Nat) : T α := ⟨Pgfe.rd b i, [.rd a i 1]⟩
/-- An array element write. -/
def wr {α : Type} (a : Arr) (b : List α) (i : Nat) (v : α) : T (List α) := ⟨Pgfe.wr b i v, [.wr a i 1]⟩
/-- A range read. -/
def rds {α : Type} (a : Arr) (b : List α) (i n : Nat) : T (List α) := ⟨Pgfe.rds b i n, [.rd a i n]⟩
/-- A range write. -/
def wrs {α : Type} (a : Arr) (b : List α) (i : Nat) (src : List α) : T (List α) :=
  ⟨Pgfe.wrs b i src, [.wr a i src.length]⟩
/-- The next element of a local array that is filled from index 0 upwards. -/
def push {α : Type} (a : Arr) (b : List α) (v : α) : T (List α) := ⟨.ok (b ++ [v]), [.wr a b.length 1]⟩
/-- A decision. -/
def br (c : Bool) : T Bool := ⟨.ok c, [.br c]⟩
/-- A `switch`. -/
def sw (n : Nat) : T Nat := ⟨.ok n, [.sw n]⟩
/-- A failure that the model reports. -/
def fail {α : Type} (e : UB) : T α := ⟨.error e, []⟩

/-- `n` iterations, without the loop's own decisions. -/
def iter {σ : Type} : Nat → (Nat → σ → T σ) → σ → T σ
  | 0, _, s => pure s
  | n + 1, f, s => do
    let s ← iter n f s
    f n s

/-- `for (i = 0; i < n; i++) s = f i s`. -/
def forN {σ : Type} (n : Nat) (f : Nat → σ → T σ) (s : σ) : T σ := do
  let s ← iter n (fun i s => do
    let _ ← br true
    f i s) s
  let _ ← br false
  pure s

end T

/-! ## SHA-1 and SHA-2 -/
namespace Tr

/-- `SHA_INIT`, src/hashes/templates.h:125-133; src/hashes/sha384.c:23-30, src/hashes/sha512.c:30-37. -/
def shaInit {w : Nat} (h0 : List (BitVec w)) (ctx : ShaCtx w) : T (ShaCtx w) := do
  let state ← T.wrs .state ctx.state 0 h0
  pure { ctx with state := state, lenLow := 0#w, lenHigh := 0#w, index := 0 }

/-- The loop body of `SHA_UPDATE`, src/hashes/templates.h:143-153, and of `sha384n512_update`,
src/hashes/sha2-backend.c:199-213, with the two conditions of the loop (`i < length` holds). -/
def shaUpdateBody {w : Nat} (process : ShaCtx w → T (ShaCtx w)) (blockSize : Nat)
    (input : List Byte) (i : Nat) (s : ShaCtx w × Bool) : T (ShaCtx w × Bool) :=
  match s with
  | (ctx, true) => pure (ctx, true)
  | (ctx, false) => do
    let _ ← T.br true
    let b ← T.rd .input input i
    let block ← T.wr .block ctx.block ctx.index b
    let ctx := { ctx with block := block, index := ctx.index + 1 }
    let tmpLow := ctx.lenLow
    let ctx := { ctx with lenLow := ctx.lenLow + 8#w }
    let carry ← T.br (decide (ctx.lenLow < tmpLow))
    let ctx := if carry then { ctx with lenHigh := ctx.lenHigh + 1#w } else ctx
    let corrupt ← T.br (carry && ctx.lenHigh == 0#w)
    let full ← T.br (!corrupt && ctx.index == blockSize)
    let ctx ← (if full then process ctx else pure ctx)
    if i + 1 < 2 ^ 31 then pure (ctx, corrupt) else T.fail .intOverflow

/-- `SHA_UPDATE`, src/hashes/templates.h:135-155, `sha384n512_update`, src/hashes/sha2-backend.c:192-215. -/
def shaUpdate {w : Nat} (process : ShaCtx w → T (ShaCtx w)) (blockSize : Nat) (ctx : ShaCtx w)
    (input : Option (List Byte)) (length : Nat) : T (ShaCtx w) :=
  match input with
  | none => do
    let _ ← T.br true
    pure ctx
  | some input => do
    let _ ← T.br false
    let s ← T.iter length (shaUpdateBody process blockSize input) (ctx, false)
    let _ ← T.br false
    pure s.1

/-- The output loop of `SHA_DIGEST`, src/hashes/templates.h:170-172, and src/hashes/sha2-backend.c:112-114. -/
def shaOutput32 (digestSize : Nat) (state : List W32) (output : List Byte) : T (List Byte) :=
  T.forN digestSize (fun i output => do
    let s ← T.rd .state state (i >>> 2)
    T.wr .output output i (byteAt s (8 * (3 - (i &&& 3))))) output

/-- src/hashes/sha1.c:29-32 and src/hashes/sha2-backend.c:33-36. -/
def wordBE32 (block : List Byte) (ix4 : Nat) : T W32 := do
  let b0 ← T.rd .block block ix4
  let b1 ← T.rd .block block (ix4 + 1)
  let b2 ← T.rd .block block (ix4 + 2)
  let b3 ← T.rd .block block (ix4 + 3)
  let w := (b0.setWidth 32) <<< 24
  let w := w ||| (b1.setWidth 32) <<< 16
  let w := w ||| (b2.setWidth 32) <<< 8
  let w := w ||| b3.setWidth 32
  pure w

/-- The body of the round loops, src/hashes/sha1.c:45-79. -/
def sha1Step (f : W32 → W32 → W32 → W32) (k : Nat) (ws : List W32) (i : Nat) (r : Reg5) : T Reg5 := do
  let wi ← T.rd .ws ws i
  let kk ← T.rd .K sha1K k
  let tmp := clshift r.A 5 + f r.B r.C r.D + r.E + wi + kk
  pure ⟨tmp, r.A, clshift r.B 30, r.C, r.D⟩

/-- src/hashes/sha1.c:28-37. -/
def sha1Ws (block : List Byte) : T (List W32) := do
  let ws ← T.forN 16 (fun i ws => do
    let w ← wordBE32 block (4 * i)
    T.push .ws ws w) []
  T.forN 64 (fun j ws => do
    let i := 16 + j
    let a ← T.rd .ws ws (i - 3)
    let b ← T.rd .ws ws (i - 8)
    let c ← T.rd .ws ws (i - 14)
    let d ← T.rd .ws ws (i - 16)
    T.push .ws ws (clshift (a ^^^ b ^^^ c ^^^ d) 1)) ws

/-- `state[j] += v`, src/hashes/sha1.c:81-85 and src/hashes/sha2-backend.c:65-72, 180-187,
src/hashes/md5-backend.c:106-110. -/
def addAt {w : Nat} (s : List (BitVec w)) (j : Nat) (v : BitVec w) : T (List (BitVec w)) := do
  let x ← T.rd .state s j
  T.wr .state s j (x + v)

/-- src/hashes/sha1.c:45-79. -/
def sha1Rounds (ws : List W32) (r : Reg5) : T Reg5 := do
  let r ← T.forN 20 (fun j => sha1Step (fun B C D => (B &&& C) ||| (~~~B &&& D)) 0 ws j) r
  let r ← T.forN 20 (fun j => sha1Step (fun B C D => B ^^^ C ^^^ D) 1 ws (20 + j)) r
  let r ← T.forN 20 (fun j =>
    sha1Step (fun B C D => (B &&& C) ||| (B &&& D) ||| (C &&& D)) 2 ws (40 + j)) r
  T.forN 20 (fun j => sha1Step (fun B C D => B ^^^ C ^^^ D) 3 ws (60 + j)) r

/-- `sha1_process_block`, src/hashes/sha1.c:21-88. -/
def sha1ProcessBlock (ctx : ShaCtx 32) : T (ShaCtx 32) := do
  let ws ← sha1Ws ctx.block
  let a ← T.rd .state ctx.state 0
  let b ← T.rd .state ctx.state 1
  let c ← T.rd .state ctx.state 2
  let d ← T.rd .state ctx.state 3
  let e ← T.rd .state ctx.state 4
  let r ← sha1Rounds ws ⟨a, b, c, d, e⟩
  let s ← addAt ctx.state 0 r.A
  let s ← addAt s 1 r.B
  let s ← addAt s 2 r.C
  let s ← addAt s 3 r.D
  let s ← addAt s 4 r.E
  pure { ctx with state := s, index := 0 }

/-- `sha1_padding`, src/hashes/sha1.c:90-115, and `sha224n256_padding`, src/hashes/sha2-backend.c:77-102. -/
def shaPadding32 (process : ShaCtx 32 → T (ShaCtx 32)) (ctx : ShaCtx 32) : T (ShaCtx 32) := do
  let block ← T.wr .block ctx.block ctx.index PADDING_HEADER
  let ctx := { ctx with block := block, index := ctx.index + 1 }
  let more ← T.br (decide (ctx.index > 56))
  let ctx ← (if more then do
      let block ← T.wrs .block ctx.block ctx.index (List.replicate (64 - ctx.index) 0#8)
      process { ctx with block := block, index := 64 }
    else do
      let less ← T.br (decide (ctx.index < 56))
      if less then do
        let block ← T.wrs .block ctx.block ctx.index (List.replicate (56 - ctx.index) 0#8)
        pure { ctx with block := block, index := 56 }
      else pure ctx)
  let b ← T.wr .block ctx.block 56 (byteAt ctx.lenHigh 24)
  let b ← T.wr .block b 57 (byteAt ctx.lenHigh 16)
  let b ← T.wr .block b 58 (byteAt ctx.lenHigh 8)
  let b ← T.wr .block b 59 (byteAt ctx.lenHigh 0)
  let b ← T.wr .block b 60 (byteAt ctx.lenLow 24)
  let b ← T.wr .block b 61 (byteAt ctx.lenLow 16)
  let b ← T.wr .block b 62 (byteAt ctx.lenLow 8)
  let b ← T.wr .block b 63 (byteAt ctx.lenLow 0)
  process { ctx with block := b }

/-- `pgfe_sha1_digest`: `SHA_DIGEST`, src/hashes/templates.h:157-173. -/
def sha1Digest (ctx : ShaCtx 32) (output : List Byte) : T (ShaCtx 32 × List Byte) := do
  let ctx ← shaPadding32 sha1ProcessBlock ctx
  let block ← T.wrs .block ctx.block 0 (List.replicate ctx.block.length 0#8)
  let ctx := { ctx with block := block, lenLow := 0#32, lenHigh := 0#32 }
  let output ← shaOutput32 20 ctx.state output
  pure (ctx, output)

/-- src/hashes/sha2-backend.c:32-41. -/
def sha256Ws (block : List Byte) : T (List W32) := do
  let ws ← T.forN 16 (fun i ws => do
    let w ← wordBE32 block (4 * i)
    T.push .ws ws w) []
  T.forN 48 (fun j ws => do
    let i := 16 + j
    let a ← T.rd .ws ws (i - 2)
    let b ← T.rd .ws ws (i - 7)
    let c ← T.rd .ws ws (i - 15)
    let d ← T.rd .ws ws (i - 16)
    T.push .ws ws (sha256sigma1 a + b + sha256sigma0 c + d)) ws

/-- src/hashes/sha2-backend.c:52-63. -/
def sha256Step (ws : List W32) (i : Nat) (r : Reg8 32) : T (Reg8 32) := do
  let k ← T.rd .K sha256K i
  let wi ← T.rd .ws ws i
  let tmp1 := r.H + sha256SIGMA1 r.E + shaCh r.E r.F r.G + k + wi
  let tmp2 := sha256SIGMA0 r.A + shaMaj r.A r.B r.C
  pure ⟨tmp1 + tmp2, r.A, r.B, r.C, r.D + tmp1, r.E, r.F, r.G⟩

/-- src/hashes/sha2-backend.c:43-50 and 156-163. -/
def loadReg8 {w : Nat} (s : List (BitVec w)) : T (Reg8 w) := do
  let a ← T.rd .state s 0
  let b ← T.rd .state s 1
  let c ← T.rd .state s 2
  let d ← T.rd .state s 3
  let e ← T.rd .state s 4
  let f ← T.rd .state s 5
  let g ← T.rd .state s 6
  let h ← T.rd .state s 7
  pure ⟨a, b, c, d, e, f, g, h⟩

/-- src/hashes/sha2-backend.c:65-72 and 180-187. -/
def addReg8 {w : Nat} (s : List (BitVec w)) (r : Reg8 w) : T (List (BitVec w)) := do
  let s ← addAt s 0 r.A
  let s ← addAt s 1 r.B
  let s ← addAt s 2 r.C
  let s ← addAt s 3 r.D
  let s ← addAt s 4 r.E
  let s ← addAt s 5 r.F
  let s ← addAt s 6 r.G
  addAt s 7 r.H

/-- `sha256_process_block`, src/hashes/sha2-backend.c:17-75. -/
def sha256ProcessBlock (ctx : ShaCtx 32) : T (ShaCtx 32) := do
  let ws ← sha256Ws ctx.block
  let r ← loadReg8 ctx.state
  let r ← T.forN 64 (sha256Step ws) r
  let s ← addReg8 ctx.state r
  pure { ctx with state := s, index := 0 }

/-- `sha224n256_digest`, src/hashes/sha2-backend.c:104-115. -/
def sha224n256Digest (digestSize : Nat) (ctx : ShaCtx 32) (output : List Byte) :
    T (ShaCtx 32 × List Byte) := do
  let ctx ← shaPadding32 sha256ProcessBlock ctx
  let output ← shaOutput32 digestSize ctx.state output
  pure (ctx, output)

/-- src/hashes/sha2-backend.c:145-149. -/
def wordBE64 (block : List Byte) (ix8 : Nat) : T W64 :=
  T.forN 8 (fun j w => do
    let b ← T.rd .block block (ix8 + j)
    pure (w ||| (b.setWidth 64) <<< (56 - j * 8))) 0#64

/-- src/hashes/sha2-backend.c:144-154. -/
def sha512Ws (block : List Byte) : T (List W64) := do
  let ws ← T.forN 16 (fun i ws => do
    let w ← wordBE64 block (8 * i)
    T.push .ws ws w) []
  T.forN 64 (fun j ws => do
    let i := 16 + j
    let a ← T.rd .ws ws (i - 2)
    let b ← T.rd .ws ws (i - 7)
    let c ← T.rd .ws ws (i - 15)
    let d ← T.rd .ws ws (i - 16)
    T.push .ws ws (sha512sigma1 a + b + sha512sigma0 c + d)) ws

/-- src/hashes/sha2-backend.c:165-178. -/
def sha512Step (ws : List W64) (i : Nat) (r : Reg8 64) : T (Reg8 64) := do
  let lo ← T.rd .K sha512K (i * 2)
  let hi ← T.rd .K sha512K (i * 2 + 1)
  let tmp := word64 lo hi
  let wi ← T.rd .ws ws i
  let tmp1 := r.H + sha512SIGMA1 r.E + shaCh r.E r.F r.G + wi + tmp
  let tmp2 := sha512SIGMA0 r.A + shaMaj r.A r.B r.C
  pure ⟨tmp1 + tmp2, r.A, r.B, r.C, r.D + tmp1, r.E, r.F, r.G⟩

/-- `sha384n512_process_block`, src/hashes/sha2-backend.c:119-190. -/
def sha512ProcessBlock (ctx : ShaCtx 64) : T (ShaCtx 64) := do
  let ws ← sha512Ws ctx.block
  let r ← loadReg8 ctx.state
  let r ← T.forN 80 (sha512Step ws) r
  let s ← addReg8 ctx.state r
  pure { ctx with state := s, index := 0 }

/-- `sha384n512_padding`, src/hashes/sha2-backend.c:217-249. -/
def sha512Padding (ctx : ShaCtx 64) (paddingByte : Byte) : T (ShaCtx 64) := do
  let block ← T.wr .block ctx.block ctx.index paddingByte
  let ctx := { ctx with block := block, index := ctx.index + 1 }
  let more ← T.br (decide (ctx.index > 112))
  let ctx ← (if more then do
      let block ← T.wrs .block ctx.block ctx.index (List.replicate (128 - ctx.index) 0#8)
      sha512ProcessBlock { ctx with block := block, index := 128 }
    else do
      let less ← T.br (decide (ctx.index < 112))
      if less then do
        let block ← T.wrs .block ctx.block ctx.index (List.replicate (112 - ctx.index) 0#8)
        pure { ctx with block := block, index := 112 }
      else pure ctx)
  let b ← T.wr .block ctx.block 112 (byteAt ctx.lenHigh 56)
  let b ← T.wr .block b 113 (byteAt ctx.lenHigh 48)
  let b ← T.wr .block b 114 (byteAt ctx.lenHigh 40)
  let b ← T.wr .block b 115 (byteAt ctx.lenHigh 32)
  let b ← T.wr .block b 116 (byteAt ctx.lenHigh 24)
  let b ← T.wr .block b 117 (byteAt ctx.lenHigh 16)
  let b ← T.wr .block b 118 (byteAt ctx.lenHigh 8)
  let b ← T.wr .block b 119 (byteAt ctx.lenHigh 0)
  let b ← T.wr .block b 120 (byteAt ctx.lenLow 56)
  let b ← T.wr .block b 121 (byteAt ctx.lenLow 48)
  let b ← T.wr .block b 122 (byteAt ctx.lenLow 40)
  let b ← T.wr .block b 123 (byteAt ctx.lenLow 32)
  let b ← T.wr .block b 124 (byteAt ctx.lenLow 24)
  let b ← T.wr .block b 125 (byteAt ctx.lenLow 16)
  let b ← T.wr .block b 126 (byteAt ctx.lenLow 8)
  let b ← T.wr .block b 127 (byteAt ctx.lenLow 0)
  sha512ProcessBlock { ctx with block := b }

/-- src/hashes/sha2-backend.c:258-260. -/
def shaOutput64 (digestSize : Nat) (state : List W64) (output : List Byte) : T (List Byte) :=
  T.forN digestSize (fun i output => do
    let s ← T.rd .state state (i >>> 3)
    T.wr .output output i (byteAt s (8 * (7 - (i % 8))))) output

/-- `sha384n512_digest`, src/hashes/sha2-backend.c:251-261. -/
def sha384n512Digest (digestSize : Nat) (ctx : ShaCtx 64) (output : List Byte) :
    T (ShaCtx 64 × List Byte) := do
  let ctx ← sha512Padding ctx PADDING_HEADER
  let output ← shaOutput64 digestSize ctx.state output
  pure (ctx, output)

/-! ## MD5 -/

/-- An element of a two-dimensional array; with its flat index. -/
def rd2 {α : Type} (a : Arr) (t : List (List α)) (i j cols : Nat) : T α :=
  ⟨Model.rd2 t i j, [.rd a (cols * i + j) 1]⟩

/-- The statement of src/hashes/md5-backend.c:101-102: the `switch` on `r`. -/
def md5Step (x : List W32) (r i : Nat) (buf : List W32) : T (List W32) := do
  let r ← T.sw r
  let a ← T.rd .buf buf ((i + 3) % 4)
  let b ← T.rd .buf buf ((i + 2) % 4)
  let c ← T.rd .buf buf ((i + 1) % 4)
  let d ← T.rd .buf buf ((i + 0) % 4)
  let k ← rd2 .idx md5Idx r i 16
  let xk ← T.rd .x x k
  let s ← rd2 .S md5S r (i % 4) 4
  let ac ← rd2 .ac md5Ac r i 16
  match md5Fun r with
  | some f => T.wr .buf buf ((i + 3) % 4) (md5RoundTran a (f b c d) b xk s ac)
  | none => pure buf

/-- `md5_decode`, src/hashes/md5-backend.c:64-73. -/
def md5Decode (input : List Byte) (length : Nat) : T (List W32) :=
  T.forN (length / 4) (fun i output => do
    let b0 ← T.rd .block input (4 * i)
    let b1 ← T.rd .block input (4 * i + 1)
    let b2 ← T.rd .block input (4 * i + 2)
    let b3 ← T.rd .block input (4 * i + 3)
    let w := b0.setWidth 32
    let w := w ||| (b1.setWidth 32) <<< 8
    let w := w ||| (b2.setWidth 32) <<< 16
    let w := w ||| (b3.setWidth 32) <<< 24
    T.push .x output w) []

/-- `md5_encode`, src/hashes/md5-backend.c:75-84, from the array `src` to the array `dst`. -/
def md5Encode (src dst : Arr) (input : List W32) (length : Nat) (output : List Byte) : T (List Byte) :=
  T.forN (length / 4) (fun i output => do
    let w ← T.rd src input i
    let output ← T.wr dst output (4 * i) ((w &&& 0xFF#32).setWidth 8)
    let output ← T.wr dst output (4 * i + 1) (((w >>> 8) &&& 0xFF#32).setWidth 8)
    let output ← T.wr dst output (4 * i + 2) (((w >>> 16) &&& 0xFF#32).setWidth 8)
    T.wr dst output (4 * i + 3) (((w >>> 24) &&& 0xFF#32).setWidth 8)) output

/-- `md5_transform`, src/hashes/md5-backend.c:86-111. -/
def md5Transform (state : List W32) (block : List Byte) : T (List W32) := do
  let a ← T.rd .state state 0
  let b ← T.rd .state state 1
  let c ← T.rd .state state 2
  let d ← T.rd .state state 3
  let buf := [d, c, b, a]
  let x ← md5Decode block 64
  let buf ← T.forN 4 (fun r buf => T.forN 16 (fun i buf => md5Step x r i buf) buf) buf
  let v ← T.rd .buf buf 3
  let state ← addAt state 0 v
  let v ← T.rd .buf buf 2
  let state ← addAt state 1 v
  let v ← T.rd .buf buf 1
  let state ← addAt state 2 v
  let v ← T.rd .buf buf 0
  addAt state 3 v

/-- `pgfe_md5_init`, src/hashes/md5.c:25-30. -/
def md5Init (ctx : Md5Ctx) : T Md5Ctx := do
  let state ← T.wrs .state ctx.state 0 md5H0
  pure { ctx with state := state, blockLen := 0#64 }

/-- The `for` loop of `pgfe_md5_update`, src/hashes/md5.c:38-50. -/
def md5Loop (input : List Byte) (length : Nat) (ctx : Md5Ctx) (readLen : Nat)
    (locals : Option (Nat × Nat)) : T (Md5Ctx × Nat × Option (Nat × Nat)) := do
  let _ ← T.br (decide (readLen < length))
  if _h : readLen < length then do
    let _ ← T.br (decide (length - readLen < 64 - md5Offset ctx))
    if length - readLen < 64 - md5Offset ctx then
      pure (ctx, readLen, some (md5Offset ctx, 64 - md5Offset ctx))
    else do
      let src ← T.rds .input input readLen (64 - md5Offset ctx)
      let block ← T.wrs .block ctx.block (md5Offset ctx) src
      let state ← md5Transform ctx.state block
      md5Loop input length
        { state := state, blockLen := ctx.blockLen + BitVec.ofNat 64 (64 - md5Offset ctx), block := block }
        (readLen + (64 - md5Offset ctx)) (some (md5Offset ctx, 64 - md5Offset ctx))
  else pure (ctx, readLen, locals)
termination_by length - readLen
decreasing_by
  have := md5Offset_lt ctx
  omega

/-- The rest of `pgfe_md5_update`, src/hashes/md5.c:52-63. -/
def md5Finish (input : List Byte) (length : Nat) (ctx : Md5Ctx) (readLen : Nat)
    (locals : Option (Nat × Nat)) : T Md5Ctx :=
  match locals with
  | none => T.fail .uninit
  | some (offset, remainder) => do
    let writtenLen := length - readLen
    let some_ ← T.br (decide (writtenLen ≠ 0))
    let r ← (if some_ then do
        let src ← T.rds .input input readLen writtenLen
        let block ← T.wrs .block ctx.block offset src
        pure ({ ctx with block := block, blockLen := ctx.blockLen + BitVec.ofNat 64 writtenLen },
          (remainder + 2 ^ 64 - writtenLen) % 2 ^ 64)
      else pure (ctx, remainder))
    let full ← T.br (decide (r.2 = 0))
    if full then do
      let state ← md5Transform r.1.state r.1.block
      pure { r.1 with state := state }
    else pure r.1

/-- `pgfe_md5_update`, src/hashes/md5.c:32-64. -/
def md5Update (ctx : Md5Ctx) (input : Option (List Byte)) (length : Nat) : T Md5Ctx :=
  match input with
  | none => do
    let _ ← T.br true
    pure ctx
  | some input => do
    let _ ← T.br false
    let r ← md5Loop input length ctx 0 none
    md5Finish input length r.1 r.2.1 r.2.2

/-- `pgfe_md5_digest`, src/hashes/md5.c:66-84. -/
def md5Digest (ctx : Md5Ctx) (output : List Byte) : T (Md5Ctx × List Byte) := do
  let count : List W32 := [(ctx.blockLen <<< 3).setWidth 32, (ctx.blockLen >>> 29).setWidth 32]
  let chunk ← md5Encode .count .chunk count 8 (List.replicate 8 0#8)
  let i := (ctx.blockLen &&& 0x3F#64).toNat
  let short ← T.br (decide (i < 56))
  let ctx ← md5Update ctx (some md5Padding) (if short then 56 - i else 120 - i)
  let ctx ← md5Update ctx (some chunk) 8
  let output ← md5Encode .state .output ctx.state 16 output
  pure (ctx, output)

/-! ## KECCAK -/

/-- `A[x][y]`. -/
def laneRd (A : List W64) (x y : Nat) : T W64 := T.rd .state A (5 * x + y)
/-- `A[x][y] = v`. -/
def laneWr (A : List W64) (x y : Nat) (v : W64) : T (List W64) := T.wr .state A (5 * x + y) v

/-- src/hashes/keccak-backend.c:35-45. -/
def keccakTheta (A : List W64) : T (List W64) := do
  let cs ← T.forN 5 (fun x cs => do
    let a0 ← laneRd A x 0
    let a1 ← laneRd A x 1
    let a2 ← laneRd A x 2
    let a3 ← laneRd A x 3
    let a4 ← laneRd A x 4
    T.push .cs cs (a0 ^^^ a1 ^^^ a2 ^^^ a3 ^^^ a4)) []
  T.forN 5 (fun x A => do
    let c4 ← T.rd .cs cs ((x + 4) % 5)
    let c1 ← T.rd .cs cs ((x + 1) % 5)
    let t := c4 ^^^ clshift c1 1
    T.forN 5 (fun y A => do
      let a ← laneRd A x y
      laneWr A x y (a ^^^ t)) A) A

/-- src/hashes/keccak-backend.c:47-54. -/
def keccakRhoPi (A : List W64) : T (List W64) := do
  let t ← laneRd A 1 0
  let s ← T.forN 24 (fun x (s : List W64 × W64) => do
    let j ← T.rd .piln keccakPiln x
    let c0 ← laneRd s.1 (j % 5) (j / 5)
    let rx ← T.rd .rot keccakR x
    let A ← laneWr s.1 (j % 5) (j / 5) (clshift s.2 rx)
    pure (A, c0)) (A, t)
  pure s.1

/-- src/hashes/keccak-backend.c:56-64. -/
def keccakChi (A : List W64) : T (List W64) :=
  T.forN 5 (fun y A => do
    let cs ← T.forN 5 (fun x cs => do
      let a ← laneRd A x y
      T.push .cs cs a) []
    T.forN 5 (fun x A => do
      let a ← laneRd A x y
      let c1 ← T.rd .cs cs ((x + 1) % 5)
      let c2 ← T.rd .cs cs ((x + 2) % 5)
      laneWr A x y (a ^^^ (~~~c1 &&& c2))) A) A

/-- src/hashes/keccak-backend.c:66-67. -/
def keccakIota (A : List W64) (rc : W64) : T (List W64) := do
  let a ← laneRd A 0 0
  laneWr A 0 0 (a ^^^ rc)

/-- `transform`, src/hashes/keccak-backend.c:29-68. -/
def keccakTransform (A : List W64) (rc : W64) : T (List W64) := do
  let A ← keccakTheta A
  let A ← keccakRhoPi A
  let A ← keccakChi A
  keccakIota A rc

/-- `seq_to_state`, src/hashes/keccak-backend.c:86-105. -/
def seqToState (src : Arr) (mem : List Byte) (off : Nat) (A : List W64) (length : Nat) : T (List W64) := do
  let r ← T.iter 25 (fun k (s : List W64 × Bool) =>
    if s.2 then pure s else do
      let b ← T.rds src mem (off + 8 * k) 8
      let a ← laneRd s.1 (k % 5) (k / 5)
      let A ← laneWr s.1 (k % 5) (k / 5) (a ^^^ laneLE b)
      let stop ← T.br (decide (8 * (k + 1) ≥ length))
      pure (A, stop)) (A, false)
  pure r.1

/-- `permutation`, src/hashes/keccak-backend.c:107-111. -/
def keccakPermutation (A : List W64) (nr : Nat) : T (List W64) :=
  T.forN nr (fun i A => do
    let rc ← T.rd .rc keccakRC i
    keccakTransform A rc) A

/-- `state_to_seq`, src/hashes/keccak-backend.c:113-130. -/
def stateToSeq (A : List W64) (output : List Byte) (laneCount : Nat) : T (List Byte) := do
  let r ← T.iter 25 (fun k (s : List Byte × Bool) =>
    if s.2 then pure s else do
      let a ← laneRd A (k % 5) (k / 5)
      let out ← T.wrs .queue s.1 (8 * k) (bytesLE64 a)
      let stop ← T.br (decide (k + 1 ≥ laneCount))
      pure (out, stop)) (output, false)
  pure r.1

/-- `absorb`, src/hashes/keccak-backend.c:132-136. -/
def keccakAbsorb1 (src : Arr) (state : List W64) (mem : List Byte) (off laneCount nr : Nat) : T (List W64) := do
  let A ← seqToState src mem off state (laneCount * 8)
  keccakPermutation A nr

/-- `absorb_queue`, src/hashes/keccak-backend.c:138-141. -/
def keccakAbsorbQueue (ctx : KeccakCtx) : T KeccakCtx := do
  let A ← keccakAbsorb1 .queue ctx.state ctx.dataQueue 0 (ctx.rate / 64) ctx.nr
  pure { ctx with state := A, inqueueBits := 0 }

/-- src/hashes/keccak-backend.c:145, 153, 156. -/
def orBit (q : List Byte) (i k : Nat) : T (List Byte) := do
  let b ← T.rd .queue q i
  T.wr .queue q i (b ||| 1#8 <<< k)

/-- `padding`, src/hashes/keccak-backend.c:143-162. -/
def keccakPadding (ctx : KeccakCtx) : T KeccakCtx := do
  let last ← T.br (decide (ctx.inqueueBits + 1 = ctx.rate))
  let ctx ← (if last then do
      let q ← orBit ctx.dataQueue (ctx.inqueueBits / 8) (ctx.inqueueBits % 8)
      let ctx ← keccakAbsorbQueue { ctx with dataQueue := q }
      let q ← T.wrs .queue ctx.dataQueue 0 (List.replicate (ctx.rate / 8) 0#8)
      pure { ctx with dataQueue := q }
    else do
      let q ← T.wrs .queue ctx.dataQueue ((ctx.inqueueBits + 7) / 8)
        (List.replicate ((ctx.rate / 8 + 2 ^ 64 - (ctx.inqueueBits + 7) / 8) % 2 ^ 64) 0#8)
      let q ← orBit q (ctx.inqueueBits / 8) (ctx.inqueueBits % 8)
      pure { ctx with dataQueue := q })
  let q ← orBit ctx.dataQueue ((ctx.rate - 1) / 8) ((ctx.rate - 1) % 8)
  let ctx ← keccakAbsorbQueue { ctx with dataQueue := q }
  let q ← stateToSeq ctx.state ctx.dataQueue (ctx.rate / 64)
  pure { ctx with dataQueue := q, squeezable := ctx.rate, squeezing := true }

/-- src/hashes/keccak-backend.c:179-181. -/
def keccakWhole (ctx : KeccakCtx) (input : List Byte) (off wholeBlocks : Nat) : T (List W64) :=
  T.forN wholeBlocks (fun j st =>
    keccakAbsorb1 .input st input (off + j * (ctx.rate / 8)) (ctx.rate / 64) ctx.nr) ctx.state

/-- src/hashes/keccak-backend.c:185-204. -/
def keccakPartial (ctx : KeccakCtx) (input : List Byte) (bitLen i : Nat) : T (KeccakCtx × Nat) := do
  let p0 := (bitLen - i) % 2 ^ 32
  let cut ← T.br (decide ((p0 + ctx.inqueueBits) % 2 ^ 32 > ctx.rate))
  let p1 := if cut then (ctx.rate + 2 ^ 32 - ctx.inqueueBits) % 2 ^ 32 else p0
  let partialByte := p1 % 8
  let partialBlock := p1 - partialByte
  let src ← T.rds .input input (i / 8) (partialBlock / 8)
  let q ← T.wrs .queue ctx.dataQueue (ctx.inqueueBits / 8) src
  let ctx := { ctx with dataQueue := q, inqueueBits := (ctx.inqueueBits + partialBlock) % 2 ^ 32 }
  let i := i + partialBlock
  let full ← T.br (decide (ctx.inqueueBits = ctx.rate))
  let ctx ← (if full then keccakAbsorbQueue ctx else pure ctx)
  let odd ← T.br (decide (partialByte ≠ 0))
  if odd then do
    let b ← T.rd .input input (i / 8)
    let q ← T.wr .queue ctx.dataQueue (ctx.inqueueBits / 8) (b &&& BitVec.ofNat 8 (2 ^ partialByte - 1))
    pure ({ ctx with dataQueue := q, inqueueBits := (ctx.inqueueBits + partialByte) % 2 ^ 32 },
      i + partialByte)
  else pure (ctx, i)

/-- The loop of `keccak_absorb_b1600`, src/hashes/keccak-backend.c:174-206. -/
def keccakAbsorbLoop (ctx : KeccakCtx) (input : List Byte) (bitLen i : Nat) : T KeccakCtx := do
  let _ ← T.br (decide (i < bitLen))
  if _h : i < bitLen then do
    let _ ← T.br (decide (ctx.inqueueBits = 0))
    let _ ← T.br (decide (bitLen ≥ ctx.rate))
    let _ ← T.br (decide (i ≤ bitLen - ctx.rate))
    if ctx.inqueueBits = 0 ∧ bitLen ≥ ctx.rate ∧ i ≤ bitLen - ctx.rate then do
      let st ← keccakWhole ctx input (i / 8) ((bitLen - i) / ctx.rate)
      if _h2 : 0 < (bitLen - i) / ctx.rate * ctx.rate then
        keccakAbsorbLoop { ctx with state := st } input bitLen
          (i + (bitLen - i) / ctx.rate * ctx.rate)
      else T.fail .diverge
    else do
      let r ← keccakPartial ctx input bitLen i
      if _h2 : i < r.2 then keccakAbsorbLoop r.1 input bitLen r.2 else T.fail .diverge
  else pure ctx
termination_by bitLen - i
decreasing_by
  · omega
  · omega

/-- `keccak_absorb_b1600`, src/hashes/keccak-backend.c:164-209. -/
def keccakAbsorb (ctx : KeccakCtx) (input : List Byte) (bitLen : Nat) : T KeccakCtx := do
  let refuse ← T.br (decide (ctx.inqueueBits % 8 ≠ 0 ∨ ctx.squeezing))
  if refuse then pure ctx
  else keccakAbsorbLoop ctx input bitLen 0

/-- src/hashes/keccak-backend.c:225-229. -/
def keccakRefill (ctx : KeccakCtx) : T KeccakCtx := do
  let empty ← T.br (decide (ctx.squeezable = 0))
  if empty then do
    let A ← keccakPermutation ctx.state ctx.nr
    let q ← stateToSeq A ctx.dataQueue (ctx.rate / 64)
    pure { ctx with state := A, dataQueue := q, squeezable := ctx.rate }
  else pure ctx

/-- src/hashes/keccak-backend.c:236. -/
def keccakSqueezeCopy (ctx : KeccakCtx) (output : List Byte) (i n : Nat) : T (List Byte) := do
  let src ← T.rds .queue ctx.dataQueue ((ctx.rate + 2 ^ 32 - ctx.squeezable) % 2 ^ 32 / 8) (n / 8)
  T.wrs .output output (i / 8) src

/-- src/hashes/keccak-backend.c:225-238. -/
def keccakSqueezeStep (ctx : KeccakCtx) (output : List Byte) (bitLen i : Nat) :
    T (KeccakCtx × List Byte × Nat) := do
  let ctx ← keccakRefill ctx
  let _ ← T.br (decide (ctx.squeezable > bitLen - i))
  let n := squeezeChunk ctx.squeezable bitLen i
  let output ← keccakSqueezeCopy ctx output i n
  pure ({ ctx with squeezable := ctx.squeezable - n }, output, i + n)

/-- The loop of `keccak_squeeze_b1600`, src/hashes/keccak-backend.c:224-239. -/
def keccakSqueezeLoop (ctx : KeccakCtx) (output : List Byte) (bitLen i : Nat) :
    T (KeccakCtx × List Byte) := do
  let _ ← T.br (decide (i < bitLen))
  if _h : i < bitLen then do
    let r ← keccakSqueezeStep ctx output bitLen i
    if _h2 : i < r.2.2 then keccakSqueezeLoop r.1 r.2.1 bitLen r.2.2 else T.fail .diverge
  else pure (ctx, output)
termination_by bitLen - i
decreasing_by omega

/-- `keccak_squeeze_b1600`, src/hashes/keccak-backend.c:211-242. -/
def keccakSqueeze (ctx : KeccakCtx) (output : List Byte) : T (KeccakCtx × List Byte) := do
  let add ← T.br (decide (ctx.apLen ≠ 0 ∧ ¬ ctx.apAdded))
  let ctx ← (if add then do
      let ctx ← keccakAbsorb ctx [ctx.ap] ctx.apLen
      pure { ctx with apAdded := true }
    else pure ctx)
  let pad ← T.br (!ctx.squeezing)
  let ctx ← (if pad then keccakPadding ctx else pure ctx)
  keccakSqueezeLoop ctx output ctx.outLength 0

/-- The update functions, src/hashes/sha3-224.c:25-27, src/hashes/shake.c:27-29, 48-50. -/
def keccakUpdate (ctx : KeccakCtx) (input : Option (List Byte)) (length : Nat) : T KeccakCtx :=
  match input with
  | none => if length * 8 % 2 ^ 64 = 0 ∨ ctx.squeezing then pure ctx else T.fail .nullDeref
  | some input => keccakAbsorb ctx input (length * 8 % 2 ^ 64)

/-- An init function of the KECCAK family: straight-line code with the `memset` of the context (whose arrays have
25 and 192 elements), and the test of the constant capacity, src/hashes/keccak-backend.c:70-84,
src/hashes/sha3-224.c:18-23, src/hashes/shake.c:21-25. -/
def keccakInit (init : KeccakCtx → C KeccakCtx) (ctx : KeccakCtx) : T KeccakCtx :=
  ⟨init ctx, [.wr .state 0 25, .wr .queue 0 192]⟩

/-- The SHAKE digest functions, src/hashes/shake.c:31-34, 52-54, 72-75, 93-95. -/
def shakeDigest (outputBitlength : Nat) (ctx : KeccakCtx) (output : List Byte) : T (KeccakCtx × List Byte) :=
  keccakSqueeze { ctx with outLength := outputBitlength % 2 ^ 32 } output

end Tr

/-- Traced versions of the three functions of an implementation, include/libpgfe/hashes/sha1.h:40-44 and its
siblings. -/
structure Traced (I : HashImpl) where
  init : I.Ctx → T I.Ctx
  update : I.Ctx → Option (List Byte) → Nat → T I.Ctx
  digest : I.Ctx → List Byte → T (I.Ctx × List Byte)

/-- The traced functions of every algorithm (functions as in `Alg.impl`; src/core/generic-internal.h:44-97). -/
def Alg.traced : (a : Alg) → (bits : Nat) → Traced (a.impl bits)
  | .MD5, _ => ⟨Tr.md5Init, Tr.md5Update, Tr.md5Digest⟩
  | .SHA1, _ => ⟨Tr.shaInit sha1H0, Tr.shaUpdate Tr.sha1ProcessBlock 64, Tr.sha1Digest⟩
  | .SHA224, _ => ⟨Tr.shaInit sha224H0, Tr.shaUpdate Tr.sha256ProcessBlock 64, Tr.sha224n256Digest 28⟩
  | .SHA256, _ => ⟨Tr.shaInit sha256H0, Tr.shaUpdate Tr.sha256ProcessBlock 64, Tr.sha224n256Digest 32⟩
  | .SHA384, _ => ⟨Tr.shaInit (words64 sha384H0), Tr.shaUpdate Tr.sha512ProcessBlock 128, Tr.sha384n512Digest 48⟩
  | .SHA512, _ => ⟨Tr.shaInit (words64 sha512H0), Tr.shaUpdate Tr.sha512ProcessBlock 128, Tr.sha384n512Digest 64⟩
  | .SHA512_224, _ =>
    ⟨Tr.shaInit (words64 sha512H0_224), Tr.shaUpdate Tr.sha512ProcessBlock 128, Tr.sha384n512Digest 28⟩
  | .SHA512_256, _ =>
    ⟨Tr.shaInit (words64 sha512H0_256), Tr.shaUpdate Tr.sha512ProcessBlock 128, Tr.sha384n512Digest 32⟩
  | .SHA3_224, _ => ⟨Tr.keccakInit (sha3Init 448 224), Tr.keccakUpdate, Tr.keccakSqueeze⟩
  | .SHA3_256, _ => ⟨Tr.keccakInit (sha3Init 512 256), Tr.keccakUpdate, Tr.keccakSqueeze⟩
  | .SHA3_384, _ => ⟨Tr.keccakInit (sha3Init 768 384), Tr.keccakUpdate, Tr.keccakSqueeze⟩
  | .SHA3_512, _ => ⟨Tr.keccakInit (sha3Init 1024 512), Tr.keccakUpdate, Tr.keccakSqueeze⟩
  | .RawSHAKE128, bits => ⟨Tr.keccakInit (rawshakeInit 256), Tr.keccakUpdate, Tr.shakeDigest bits⟩
  | .SHAKE128, bits => ⟨Tr.keccakInit (shakeInit 256), Tr.keccakUpdate, Tr.shakeDigest bits⟩
  | .RawSHAKE256, bits => ⟨Tr.keccakInit (rawshakeInit 512), Tr.keccakUpdate, Tr.shakeDigest bits⟩
  | .SHAKE256, bits => ⟨Tr.keccakInit (shakeInit 512), Tr.keccakUpdate, Tr.shakeDigest bits⟩

namespace Traced
variable {I : HashImpl} (t : Traced I)

/-- Any sequence of calls on a context, as `HashImpl.calls` (a client of include/libpgfe/hashes/sha1.h:40-44). -/
def calls (ctx : I.Ctx) : List HashImpl.Call → T (I.Ctx × List (List Byte))
  | [] => pure (ctx, [])
  | .update x :: rest => do
    let ctx ← t.update ctx (some x) x.length
    calls ctx rest
  | .digest out :: rest => do
    let r ← t.digest ctx out
    let s ← calls r.1 rest
    pure (s.1, r.2 :: s.2)

/-- The loop of `pgfe_<name>_encode_multiple`, src/hashes/templates.h:54-60 and 108-114. -/
def encodeMultipleLoop (ctx : I.Ctx) : List (Option (List Byte) × Nat) → T I.Ctx
  | [] => do
    let _ ← T.br false
    pure ctx
  | (input, inputS) :: rest => do
    let _ ← T.br true
    let _ ← T.br input.isNone
    match input with
    | none => encodeMultipleLoop ctx rest
    | some input => do
      let ctx ← t.update ctx (some input) inputS
      encodeMultipleLoop ctx rest

/-- `pgfe_<name>_encode_multiple`, src/hashes/templates.h:44-64 and 98-118. -/
def encodeMultiple (g : I.Ctx) (output : List Byte) (parts : List (Option (List Byte) × Nat)) :
    T (List Byte) := do
  let ctx ← t.init g
  let ctx ← t.encodeMultipleLoop ctx parts
  let r ← t.digest ctx output
  pure r.2

/-! ## HMAC -/
variable (bs ds : Nat)

/-- `arrcpy`, src/core/generic-internal.c:16-20, with `arrinit`, 12-14, into the array `a`. -/
def arrcpy (a : Arr) (dest : List Byte) (destS : Nat) (src : List Byte) (srcS : Nat) : T (List Byte) := do
  let larger ← T.br (decide (destS > srcS))
  let cpyS := if larger then srcS else destS
  let s ← T.rds .key src 0 cpyS
  let dest ← T.wrs a dest 0 s
  T.wrs a dest cpyS (List.replicate (destS - cpyS) 0#8)

/-- `pgfe_hmac_<name>_init`, src/hmac/hmac.c:15-20. -/
def macInit (ctx : HmacCtx I) : T (HmacCtx I) := do
  let hash ← t.init ctx.hash
  let kIPad ← T.wrs .ipad ctx.kIPad 0 (List.replicate bs iUnit)
  let kOPad ← T.wrs .opad ctx.kOPad 0 (List.replicate bs oUnit)
  let hash ← t.update hash (some kIPad) bs
  pure ⟨hash, kIPad, kOPad⟩

/-- The loop of `pgfe_hmac_<name>_set_key`, src/hmac/hmac.c:26-29. -/
def xorPads (kIPad kOPad : List Byte) : T (List Byte × List Byte) :=
  T.forN bs (fun i (p : List Byte × List Byte) => do
    let x ← T.rd .ipad p.1 i
    let p1 ← T.wr .ipad p.1 i (x ^^^ iUnit)
    let y ← T.rd .opad p.2 i
    let p2 ← T.wr .opad p.2 i (y ^^^ oUnit)
    pure (p1, p2)) (kIPad, kOPad)

/-- `pgfe_hmac_<name>_set_key`, src/hmac/hmac.c:21-32. -/
def macSetKey (ctx : HmacCtx I) (key : List Byte) (keyLength : Nat) : T (HmacCtx I) := do
  let kIPad ← arrcpy .ipad ctx.kIPad bs key keyLength
  let kOPad ← arrcpy .opad ctx.kOPad bs key keyLength
  let p ← xorPads bs kIPad kOPad
  let hash ← t.init ctx.hash
  let hash ← t.update hash (some p.1) bs
  pure ⟨hash, p.1, p.2⟩

/-- `pgfe_hmac_<name>_update`, src/hmac/hmac.c:33-37. -/
def macUpdate (ctx : HmacCtx I) (data : Option (List Byte)) (length : Nat) : T (HmacCtx I) := do
  let hash ← t.update ctx.hash data length
  pure { ctx with hash := hash }

/-- `pgfe_hmac_<name>_digest`, src/hmac/hmac.c:38-44. -/
def macDigest (mid : List Byte) (g : I.Ctx) (ctx : HmacCtx I) (output : List Byte) :
    T (HmacCtx I × List Byte) := do
  let r ← t.digest ctx.hash mid
  let out ← t.encodeMultiple g output [(some ctx.kOPad, bs), (some r.2, ds)]
  pure ({ ctx with hash := r.1 }, out)

/-- `pgfe_hmac_<name>`, src/hmac/hmac.c:45-54. -/
def macOneShot (g : HmacCtx.Mem I) (key : List Byte) (keyLength : Nat) (data : List Byte) (length : Nat)
    (output : List Byte) : T (List Byte) := do
  let ctx ← t.macInit bs g.ctx
  let ctx ← t.macSetKey bs ctx key keyLength
  let ctx ← t.macUpdate ctx (some data) length
  let r ← t.macDigest bs ds g.mid g.inner ctx output
  pure r.2

/-- Any sequence of calls on an HMAC context, as `HmacCtx.calls` (a client of
include/libpgfe/hmac/hmac.h:44-98). -/
def macCalls (ctx : HmacCtx I) : List (HmacCtx.Call I) → T (HmacCtx I)
  | [] => pure ctx
  | .init :: rest => do
    let ctx ← t.macInit bs ctx
    macCalls ctx rest
  | .setKey k :: rest => do
    let ctx ← t.macSetKey bs ctx k k.length
    macCalls ctx rest
  | .update x :: rest => do
    let ctx ← t.macUpdate ctx (some x) x.length
    macCalls ctx rest
  | .digest mid inner out :: rest => do
    let r ← t.macDigest bs ds mid inner ctx out
    macCalls r.1 rest

end Traced
end Pgfe.Model
