import Verif.Model.Alg
/-!
# Hash contexts in programs with several threads

The update functions in small steps, so that other threads can run in between.  None of the code in
src/hashes/ has variables of its own that it changes (its static objects are constant): threads meet only in
the contexts.  SHA-1 and SHA-2: one step for each access to a member of the context (the compression of a
full block is one step).  MD5 and KECCAK: one step for each iteration of the loop of the update function.
init and digest calls are one step each.  (These are not all the interleavings of the machine; where no two
threads use the same context the others give nothing new.)
-/
namespace Pgfe.Model

/-- An update function in steps: the local variables of the running call, their values at its beginning
(for the pointer and the length it was given), and one step.  `none`: the call returns. -/
structure Micro (I : HashImpl) where
  Loc : Type
  start : List Byte → Nat → Loc
  step : I.Ctx → Loc → C (I.Ctx × Option Loc)

/-- Where in the body of the loop of `SHA_UPDATE`, src/hashes/templates.h:143-153, or of
`sha384n512_update`, src/hashes/sha2-backend.c:199-213, a call is. -/
inductive ShaPc (w : Nat) where
  /-- before the loop test -/
  | test
  /-- `ctx->index` was read, line 143 -/
  | gotIndex (r : Nat)
  /-- it was written back increased by one, line 143 -/
  | incremented (r : Nat)
  /-- the byte was stored, line 143 -/
  | stored
  /-- `tmp_low` was read, line 145 -/
  | gotTmp (tmp : BitVec w)
  /-- `ctx->len_low` was read, line 146 -/
  | gotLow (tmp low : BitVec w)
  /-- it was written back increased by 8, line 146 -/
  | added (tmp : BitVec w)
  /-- it was found to have wrapped around, line 147 -/
  | carry
  /-- `ctx->len_high` was read, line 147 -/
  | gotHigh (h : BitVec w)
  /-- before the test whether the block is full, line 149 -/
  | full (corrupt : Bool)

/-- The parameters and local variables of `pgfe_sha<n>_update`, src/hashes/templates.h:136-141. -/
structure ShaLoc (w : Nat) where
  input : List Byte
  length : Nat
  i : Nat
  pc : ShaPc w

/-- One access to the context by the macro `SHA_UPDATE`, src/hashes/templates.h:143-153, or by
`sha384n512_update`, src/hashes/sha2-backend.c:199-213.  Simplifications: of the orders that C allows for
`ctx->block[ctx->index++] = *inp` the one that writes the index first is taken; `!ctx->len_high` in
sha2-backend.c:206 tests the value just written. -/
def shaMicroStep {w : Nat} (process : ShaCtx w → C (ShaCtx w)) (blockSize : Nat) (ctx : ShaCtx w)
    (l : ShaLoc w) : C (ShaCtx w × Option (ShaLoc w)) :=
  match l.pc with
  | .test => if l.i < l.length then .ok (ctx, some { l with pc := .gotIndex ctx.index }) else .ok (ctx, none)
  | .gotIndex r => .ok ({ ctx with index := r + 1 }, some { l with pc := .incremented r })
  | .incremented r => do
    let b ← rd l.input l.i
    let block ← wr ctx.block r b
    .ok ({ ctx with block := block }, some { l with pc := .stored })
  | .stored => .ok (ctx, some { l with pc := .gotTmp ctx.lenLow })
  | .gotTmp tmp => .ok (ctx, some { l with pc := .gotLow tmp ctx.lenLow })
  | .gotLow tmp low => .ok ({ ctx with lenLow := low + 8#w }, some { l with pc := .added tmp })
  | .added tmp => .ok (ctx, some { l with pc := if ctx.lenLow < tmp then .carry else .full false })
  | .carry => .ok (ctx, some { l with pc := .gotHigh ctx.lenHigh })
  | .gotHigh h => .ok ({ ctx with lenHigh := h + 1#w }, some { l with pc := .full (h + 1#w == 0#w) })
  | .full corrupt => do
    let ctx ← (if !corrupt && ctx.index == blockSize then process ctx else .ok ctx)
    if l.i + 1 < 2 ^ 31 then
      .ok (ctx, if corrupt then none else some { l with i := l.i + 1, pc := .test })
    else .error .intOverflow

/-- `pgfe_sha<n>_update`, src/hashes/templates.h:135-155, src/hashes/sha2-backend.c:192-215, in steps. -/
abbrev shaMicro {w : Nat} (init : ShaCtx w → C (ShaCtx w)) (update : ShaCtx w → Option (List Byte) → Nat → C (ShaCtx w))
    (digest : ShaCtx w → List Byte → C (ShaCtx w × List Byte)) (process : ShaCtx w → C (ShaCtx w)) (blockSize : Nat) :
    Micro ⟨ShaCtx w, init, update, digest⟩ where
  Loc := ShaLoc w
  start input length := ⟨input, length, 0, .test⟩
  step := shaMicroStep process blockSize

/-- The parameters and local variables of `pgfe_md5_update`, src/hashes/md5.c:32-36, as in `md5Loop`;
`left`: the loop was left. -/
structure Md5Loc where
  input : List Byte
  length : Nat
  readLen : Nat
  locals : Option (Nat × Nat)
  left : Bool

/-- An iteration of the loop of `pgfe_md5_update`, src/hashes/md5.c:38-50, or what follows it,
src/hashes/md5.c:52-63. -/
def md5MicroStep (ctx : Md5Ctx) (l : Md5Loc) : C (Md5Ctx × Option Md5Loc) :=
  if l.left then do
    let ctx ← md5Finish l.input l.length ctx l.readLen l.locals
    .ok (ctx, none)
  else if l.readLen < l.length then
    if l.length - l.readLen < 64 - md5Offset ctx then
      .ok (ctx, some { l with locals := some (md5Offset ctx, 64 - md5Offset ctx), left := true })
    else do
      let src ← rds l.input l.readLen (64 - md5Offset ctx)
      let block ← wrs ctx.block (md5Offset ctx) src
      let state ← md5Transform ctx.state block
      .ok ({ state := state, blockLen := ctx.blockLen + BitVec.ofNat 64 (64 - md5Offset ctx), block := block },
        some { l with readLen := l.readLen + (64 - md5Offset ctx)
                      locals := some (md5Offset ctx, 64 - md5Offset ctx) })
  else .ok (ctx, some { l with left := true })

/-- `pgfe_md5_update`, src/hashes/md5.c:32-64, in steps. -/
abbrev md5Micro : Micro md5Impl where
  Loc := Md5Loc
  start input length := ⟨input, length, 0, none, false⟩
  step := md5MicroStep

/-- The parameters and local variables of `keccak_absorb_b1600`, src/hashes/keccak-backend.c:164-168;
`inside`: the test at the beginning was passed. -/
structure KeccakLoc where
  input : List Byte
  bitLen : Nat
  i : Nat
  inside : Bool

/-- The test at the beginning of `keccak_absorb_b1600`, src/hashes/keccak-backend.c:170-172, or an iteration
of its loop, src/hashes/keccak-backend.c:174-206 (non-termination as in `keccakAbsorbLoop`). -/
def keccakMicroStep (ctx : KeccakCtx) (l : KeccakLoc) : C (KeccakCtx × Option KeccakLoc) :=
  if l.inside then
    if l.i < l.bitLen then
      if ctx.inqueueBits = 0 ∧ l.bitLen ≥ ctx.rate ∧ l.i ≤ l.bitLen - ctx.rate then do
        let st ← keccakWhole ctx l.input (l.i / 8) ((l.bitLen - l.i) / ctx.rate)
        if 0 < (l.bitLen - l.i) / ctx.rate * ctx.rate then
          .ok ({ ctx with state := st }, some { l with i := l.i + (l.bitLen - l.i) / ctx.rate * ctx.rate })
        else .error .diverge
      else do
        let r ← keccakPartial ctx l.input l.bitLen l.i
        if l.i < r.2 then .ok (r.1, some { l with i := r.2 }) else .error .diverge
    else .ok (ctx, none)
  else if ctx.inqueueBits % 8 ≠ 0 ∨ ctx.squeezing then .ok (ctx, none)
  else .ok (ctx, some { l with inside := true })

/-- The update functions of SHA-3 and SHAKE, src/hashes/sha3-224.c:25-27, src/hashes/shake.c:27-29, 48-50,
68-70, 89-91, in steps. -/
abbrev keccakMicro (init : KeccakCtx → C KeccakCtx) (digest : KeccakCtx → List Byte → C (KeccakCtx × List Byte)) :
    Micro ⟨KeccakCtx, init, keccakUpdate, digest⟩ where
  Loc := KeccakLoc
  start input length := ⟨input, length * 8 % 2 ^ 64, 0, false⟩
  step := keccakMicroStep

/-- The update function of each algorithm in steps; compression functions and block sizes as in
src/hashes/sha1.c:118, src/hashes/sha224.c:23, src/hashes/sha256.c:23, src/hashes/sha384.c:32-34,
src/hashes/sha512.c:46-48, 61-63, 76-78. -/
def Alg.micro : (a : Alg) → (bits : Nat) → Micro (a.impl bits)
  | .MD5, _ => md5Micro
  | .SHA1, _ => shaMicro _ _ _ sha1ProcessBlock 64
  | .SHA224, _ => shaMicro _ _ _ sha256ProcessBlock 64
  | .SHA256, _ => shaMicro _ _ _ sha256ProcessBlock 64
  | .SHA384, _ => shaMicro _ _ _ sha512ProcessBlock 128
  | .SHA512, _ => shaMicro _ _ _ sha512ProcessBlock 128
  | .SHA512_224, _ => shaMicro _ _ _ sha512ProcessBlock 128
  | .SHA512_256, _ => shaMicro _ _ _ sha512ProcessBlock 128
  | .SHA3_224, _ => keccakMicro _ _
  | .SHA3_256, _ => keccakMicro _ _
  | .SHA3_384, _ => keccakMicro _ _
  | .SHA3_512, _ => keccakMicro _ _
  | .RawSHAKE128, _ => keccakMicro _ _
  | .SHAKE128, _ => keccakMicro _ _
  | .RawSHAKE256, _ => keccakMicro _ _
  | .SHAKE256, _ => keccakMicro _ _

/-- A client that takes a lock around every call of an update function (src/hashes/templates.h:135-155 and
the others above): the call is one step.  (The step before it only notes the arguments.) -/
abbrev lockedMicro (I : HashImpl) : Micro I where
  Loc := List Byte × Nat
  start input length := (input, length)
  step c l := do
    let c ← I.update c (some l.1) l.2
    .ok (c, none)

/-! ## Threads -/

/-- A thread of a client of include/libpgfe/hashes/*.h: the calls it still has to make, the running call, the
outputs of its digest calls so far. -/
structure HThread (I : HashImpl) (M : Micro I) where
  todo : List HashImpl.Call
  cur : Option M.Loc
  outs : List (List Byte)

/-- A step of a thread on a context: a step of the running update, or the next call. -/
def HThread.step {I : HashImpl} {M : Micro I} (c : I.Ctx) (th : HThread I M) : C (I.Ctx × HThread I M) :=
  match th.cur with
  | some l => do
    let r ← M.step c l
    .ok (r.1, { th with cur := r.2 })
  | none =>
    match th.todo with
    | [] => .ok (c, th)
    | .update x :: rest => .ok (c, { th with todo := rest, cur := some (M.start x x.length) })
    | .digest out :: rest => do
      let r ← I.digest c out
      .ok (r.1, { th with todo := rest, outs := th.outs ++ [r.2] })

/-- Replacing one value of a family. -/
def setAt {β : Nat → Type} (f : ∀ k, β k) (i : Nat) (v : β i) : ∀ k, β k :=
  fun k => if h : k = i then h ▸ v else f k

/-- Contexts `0, 1, 2, …`, context `k` of the hash function `I k`, and threads `0, 1, 2, …`, thread `t`
working on context `own t`. -/
structure HWorld (I : Nat → HashImpl) (M : ∀ k, Micro (I k)) (own : Nat → Nat) where
  ctxs : ∀ k, (I k).Ctx
  threads : ∀ t, HThread (I (own t)) (M (own t))

namespace HWorld
variable {I : Nat → HashImpl} {M : ∀ k, Micro (I k)} {own : Nat → Nat}

/-- Thread `t` makes a step. -/
def step (s : HWorld I M own) (t : Nat) : C (HWorld I M own) := do
  let r ← (s.threads t).step (s.ctxs (own t))
  .ok ⟨setAt s.ctxs (own t) r.1, setAt s.threads t r.2⟩

/-- The threads make steps in the order of a schedule. -/
def run (s : HWorld I M own) : List Nat → C (HWorld I M own)
  | [] => .ok s
  | t :: sched => do
    let s ← s.step t
    s.run sched

/-- The beginning: the contexts, and the calls each thread will make. -/
def start (ctxs : ∀ k, (I k).Ctx) (work : Nat → List HashImpl.Call) : HWorld I M own :=
  ⟨ctxs, fun t => ⟨work t, none, []⟩⟩

end HWorld
end Pgfe.Model
