import Verif.Model.Hash
import Verif.Model.Sha
/-!
# Model of the SHA-3 / SHAKE code

`src/hashes/keccak-backend.c`, `src/hashes/sha3-{224,256,384,512}.c`, `src/hashes/shake.c`.

The 5x5 array `A` of lanes is the list of its 25 elements in memory order: `A[x][y]` is element
`5 * x + y`.  Unsigned 32-bit and 64-bit counters are natural numbers with explicit reduction
wherever the C expression can wrap.  The two flags `squeezing` and `ap_added`, which only take the
values 0 and 1, are `Bool`.
-/
namespace Pgfe.Model

/-- `struct pgfe_keccak_sponge_ctx`, include/libpgfe/hashes/sha3.h:26-37. -/
structure KeccakCtx where
  state : List W64
  dataQueue : List Byte
  rate : Nat
  capacity : Nat
  inqueueBits : Nat
  outLength : Nat
  nr : Nat
  squeezing : Bool
  squeezable : Nat
  ap : Byte
  apLen : Nat
  apAdded : Bool
  deriving DecidableEq, Repr

/-- `r`, src/hashes/keccak-backend.c:13-15. -/
def keccakR : List Nat := [
  1, 3, 6, 10, 15, 21, 28, 36, 45, 55, 2, 14, 27, 41, 56, 8, 25, 43, 62, 18, 39, 61, 20, 44]

/-- `RC`, src/hashes/keccak-backend.c:17-23. -/
def keccakRC : List W64 := [
  0x0000000000000001#64, 0x0000000000008082#64, 0x800000000000808a#64, 0x8000000080008000#64,
  0x000000000000808b#64, 0x0000000080000001#64, 0x8000000080008081#64, 0x8000000000008009#64,
  0x000000000000008a#64, 0x0000000000000088#64, 0x0000000080008009#64, 0x000000008000000a#64,
  0x000000008000808b#64, 0x800000000000008b#64, 0x8000000000008089#64, 0x8000000000008003#64,
  0x8000000000008002#64, 0x8000000000000080#64, 0x000000000000800a#64, 0x800000008000000a#64,
  0x8000000080008081#64, 0x8000000000008080#64, 0x0000000080000001#64, 0x8000000080008008#64]

/-- `piln`, src/hashes/keccak-backend.c:25-27. -/
def keccakPiln : List Nat := [
  10, 7, 11, 17, 18, 3, 5, 16, 8, 21, 24, 4, 15, 23, 19, 13, 12, 2, 20, 14, 22, 9, 6, 1]

/-- `A[x][y]`. -/
def laneRd (A : List W64) (x y : Nat) : C W64 := rd A (5 * x + y)
/-- `A[x][y] = v`. -/
def laneWr (A : List W64) (x y : Nat) (v : W64) : C (List W64) := wr A (5 * x + y) v

/-- The theta step of `transform`, src/hashes/keccak-backend.c:35-45. -/
def keccakTheta (A : List W64) : C (List W64) := do
  let cs ← forN 5 (fun x cs => do
    let a0 ← laneRd A x 0
    let a1 ← laneRd A x 1
    let a2 ← laneRd A x 2
    let a3 ← laneRd A x 3
    let a4 ← laneRd A x 4
    .ok (cs ++ [a0 ^^^ a1 ^^^ a2 ^^^ a3 ^^^ a4])) []
  forN 5 (fun x A => do
    let c4 ← rd cs ((x + 4) % 5)
    let c1 ← rd cs ((x + 1) % 5)
    let t := c4 ^^^ clshift c1 1
    forN 5 (fun y A => do
      let a ← laneRd A x y
      laneWr A x y (a ^^^ t)) A) A

/-- The rho and pi steps of `transform`, src/hashes/keccak-backend.c:47-54. -/
def keccakRhoPi (A : List W64) : C (List W64) := do
  let t ← laneRd A 1 0
  let s ← forN 24 (fun x (s : List W64 × W64) => do
    let j ← rd keccakPiln x
    let c0 ← laneRd s.1 (j % 5) (j / 5)
    let rx ← rd keccakR x
    let A ← laneWr s.1 (j % 5) (j / 5) (clshift s.2 rx)
    .ok (A, c0)) (A, t)
  .ok s.1

/-- The chi step of `transform`, src/hashes/keccak-backend.c:56-64. -/
def keccakChi (A : List W64) : C (List W64) :=
  forN 5 (fun y A => do
    let cs ← forN 5 (fun x cs => do
      let a ← laneRd A x y
      .ok (cs ++ [a])) []
    forN 5 (fun x A => do
      let a ← laneRd A x y
      let c1 ← rd cs ((x + 1) % 5)
      let c2 ← rd cs ((x + 2) % 5)
      laneWr A x y (a ^^^ (~~~c1 &&& c2))) A) A

/-- The iota step of `transform`, src/hashes/keccak-backend.c:66-67. -/
def keccakIota (A : List W64) (rc : W64) : C (List W64) := do
  let a ← laneRd A 0 0
  laneWr A 0 0 (a ^^^ rc)

/-- `transform`, src/hashes/keccak-backend.c:29-68. -/
def keccakTransform (A : List W64) (rc : W64) : C (List W64) := do
  let A ← keccakTheta A
  let A ← keccakRhoPi A
  let A ← keccakChi A
  keccakIota A rc

/-- `keccak_init`, src/hashes/keccak-backend.c:70-84: the context after it (it is overwritten as a
whole, apart from the error case); the callers ignore the return value. -/
def keccakInit (ctx : KeccakCtx) (capacity : Nat) : KeccakCtx :=
  let r := (1600 + 2 ^ 32 - capacity) % 2 ^ 32
  if r ≥ 1600 ∨ r % 64 ≠ 0 then ctx
  else { state := List.replicate 25 0#64, dataQueue := List.replicate 192 0#8, rate := r
         capacity := capacity, inqueueBits := 0, outLength := 0, nr := 24, squeezing := false
         squeezable := 0, ap := 0#8, apLen := 0, apAdded := false }

/-- The lane that 8 bytes of memory form on a little-endian machine, src/hashes/keccak-backend.c:94. -/
def laneLE (b : List Byte) : W64 :=
  b.foldr (fun x acc => acc <<< 8 ||| x.setWidth 64) 0#64

/-- The 8 bytes of a lane in memory on a little-endian machine, src/hashes/keccak-backend.c:120. -/
def bytesLE64 (v : W64) : List Byte :=
  [byteAt v 0, byteAt v 8, byteAt v 16, byteAt v 24, byteAt v 32, byteAt v 40, byteAt v 48, byteAt v 56]

/-- `seq_to_state`, src/hashes/keccak-backend.c:86-105; the two nested loops run over the 25 pairs
`(x, y)` with `x` fastest, `k = 5 * y + x` counts them, the loop is left when the offset `8 * (k + 1)`
reaches `length`.  `off` is the offset of `input` in the object `mem` it points into. -/
def seqToState (mem : List Byte) (off : Nat) (A : List W64) (length : Nat) : C (List W64) := do
  let r ← forN 25 (fun k (s : List W64 × Bool) =>
    if s.2 then .ok s else do
      let b ← rds mem (off + 8 * k) 8
      let a ← laneRd s.1 (k % 5) (k / 5)
      let A ← laneWr s.1 (k % 5) (k / 5) (a ^^^ laneLE b)
      .ok (A, decide (8 * (k + 1) ≥ length))) (A, false)
  .ok r.1

/-- `permutation`, src/hashes/keccak-backend.c:107-111. -/
def keccakPermutation (A : List W64) (nr : Nat) : C (List W64) :=
  forN nr (fun i A => do
    let rc ← rd keccakRC i
    keccakTransform A rc) A

/-- `state_to_seq`, src/hashes/keccak-backend.c:113-130 (loops as in `seqToState`). -/
def stateToSeq (A : List W64) (output : List Byte) (laneCount : Nat) : C (List Byte) := do
  let r ← forN 25 (fun k (s : List Byte × Bool) =>
    if s.2 then .ok s else do
      let a ← laneRd A (k % 5) (k / 5)
      let out ← wrs s.1 (8 * k) (bytesLE64 a)
      .ok (out, decide (k + 1 ≥ laneCount))) (output, false)
  .ok r.1

/-- `absorb`, src/hashes/keccak-backend.c:132-136. -/
def keccakAbsorb1 (state : List W64) (mem : List Byte) (off laneCount nr : Nat) : C (List W64) := do
  let A ← seqToState mem off state (laneCount * 8)
  keccakPermutation A nr

/-- `absorb_queue`, src/hashes/keccak-backend.c:138-141. -/
def keccakAbsorbQueue (ctx : KeccakCtx) : C KeccakCtx := do
  let A ← keccakAbsorb1 ctx.state ctx.dataQueue 0 (ctx.rate / 64) ctx.nr
  .ok { ctx with state := A, inqueueBits := 0 }

/-- `data_queue[i] |= 1 << k`, src/hashes/keccak-backend.c:145, 153, 156. -/
def orBit (q : List Byte) (i k : Nat) : C (List Byte) := do
  let b ← rd q i
  wr q i (b ||| 1#8 <<< k)

/-- `padding`, src/hashes/keccak-backend.c:143-162.  The length passed to the second `memset` is an
unsigned difference; it is not negative as long as `inqueue_bits <= rate`. -/
def keccakPadding (ctx : KeccakCtx) : C KeccakCtx := do
  let ctx ← (if ctx.inqueueBits + 1 = ctx.rate then do
      let q ← orBit ctx.dataQueue (ctx.inqueueBits / 8) (ctx.inqueueBits % 8)
      let ctx ← keccakAbsorbQueue { ctx with dataQueue := q }
      let q ← wrs ctx.dataQueue 0 (List.replicate (ctx.rate / 8) 0#8)
      .ok { ctx with dataQueue := q }
    else do
      let q ← wrs ctx.dataQueue ((ctx.inqueueBits + 7) / 8)
        (List.replicate ((ctx.rate / 8 + 2 ^ 64 - (ctx.inqueueBits + 7) / 8) % 2 ^ 64) 0#8)
      let q ← orBit q (ctx.inqueueBits / 8) (ctx.inqueueBits % 8)
      .ok { ctx with dataQueue := q })
  let q ← orBit ctx.dataQueue ((ctx.rate - 1) / 8) ((ctx.rate - 1) % 8)
  let ctx ← keccakAbsorbQueue { ctx with dataQueue := q }
  let q ← stateToSeq ctx.state ctx.dataQueue (ctx.rate / 64)
  .ok { ctx with dataQueue := q, squeezable := ctx.rate, squeezing := true }

/-- The inner loop over `j` of `keccak_absorb_b1600`, src/hashes/keccak-backend.c:179-181. -/
def keccakWhole (ctx : KeccakCtx) (input : List Byte) (off wholeBlocks : Nat) : C (List W64) :=
  forN wholeBlocks (fun j st =>
    keccakAbsorb1 st input (off + j * (ctx.rate / 8)) (ctx.rate / 64) ctx.nr) ctx.state

/-- The `else` branch of the loop body, src/hashes/keccak-backend.c:185-204; returns the context and
the new `i`.  `partial_block + ctx->inqueue_bits` is a 32-bit sum. -/
def keccakPartial (ctx : KeccakCtx) (input : List Byte) (bitLen i : Nat) : C (KeccakCtx × Nat) := do
  let p0 := (bitLen - i) % 2 ^ 32
  let p1 := if (p0 + ctx.inqueueBits) % 2 ^ 32 > ctx.rate
    then (ctx.rate + 2 ^ 32 - ctx.inqueueBits) % 2 ^ 32 else p0
  let partialByte := p1 % 8
  let partialBlock := p1 - partialByte
  let src ← rds input (i / 8) (partialBlock / 8)
  let q ← wrs ctx.dataQueue (ctx.inqueueBits / 8) src
  let ctx := { ctx with dataQueue := q, inqueueBits := (ctx.inqueueBits + partialBlock) % 2 ^ 32 }
  let i := i + partialBlock
  let ctx ← (if ctx.inqueueBits = ctx.rate then keccakAbsorbQueue ctx else .ok ctx)
  if partialByte ≠ 0 then do
    let b ← rd input (i / 8)
    let q ← wr ctx.dataQueue (ctx.inqueueBits / 8) (b &&& BitVec.ofNat 8 (2 ^ partialByte - 1))
    .ok ({ ctx with dataQueue := q, inqueueBits := (ctx.inqueueBits + partialByte) % 2 ^ 32 },
      i + partialByte)
  else .ok (ctx, i)

/-- The loop of `keccak_absorb_b1600`, src/hashes/keccak-backend.c:174-206.  An iteration of the
`else` branch that does not advance `i` is followed by the same iteration again, for ever (unless
`inqueue_bits` equalled `rate` at its start, which never happens between iterations): the model then
reports non-termination. -/
def keccakAbsorbLoop (ctx : KeccakCtx) (input : List Byte) (bitLen i : Nat) : C KeccakCtx :=
  if _h : i < bitLen then
    if ctx.inqueueBits = 0 ∧ bitLen ≥ ctx.rate ∧ i ≤ bitLen - ctx.rate then
      match keccakWhole ctx input (i / 8) ((bitLen - i) / ctx.rate) with
      | .error e => .error e
      | .ok st =>
        if _h2 : 0 < (bitLen - i) / ctx.rate * ctx.rate then
          keccakAbsorbLoop { ctx with state := st } input bitLen
            (i + (bitLen - i) / ctx.rate * ctx.rate)
        else .error .diverge
    else
      match keccakPartial ctx input bitLen i with
      | .error e => .error e
      | .ok (ctx', i') =>
        if _h2 : i < i' then keccakAbsorbLoop ctx' input bitLen i' else .error .diverge
  else .ok ctx
termination_by bitLen - i
decreasing_by
  · omega
  · omega

/-- `keccak_absorb_b1600`, src/hashes/keccak-backend.c:164-209; the return value is ignored by all
callers. -/
def keccakAbsorb (ctx : KeccakCtx) (input : List Byte) (bitLen : Nat) : C KeccakCtx :=
  if ctx.inqueueBits % 8 ≠ 0 ∨ ctx.squeezing then .ok ctx
  else keccakAbsorbLoop ctx input bitLen 0

/-- The refill of the queue at the start of an iteration of the loop of `keccak_squeeze_b1600`,
src/hashes/keccak-backend.c:225-229. -/
def keccakRefill (ctx : KeccakCtx) : C KeccakCtx :=
  if ctx.squeezable = 0 then do
    let A ← keccakPermutation ctx.state ctx.nr
    let q ← stateToSeq A ctx.dataQueue (ctx.rate / 64)
    .ok { ctx with state := A, dataQueue := q, squeezable := ctx.rate }
  else .ok ctx

/-- The value of `partial_block` in the loop of `keccak_squeeze_b1600`,
src/hashes/keccak-backend.c:231-234. -/
def squeezeChunk (squeezable bitLen i : Nat) : Nat :=
  if squeezable > bitLen - i then (bitLen - i) % 2 ^ 32 else squeezable

/-- The `memcpy` of the loop of `keccak_squeeze_b1600`, src/hashes/keccak-backend.c:236. -/
def keccakSqueezeCopy (ctx : KeccakCtx) (output : List Byte) (i n : Nat) : C (List Byte) := do
  let src ← rds ctx.dataQueue ((ctx.rate + 2 ^ 32 - ctx.squeezable) % 2 ^ 32 / 8) (n / 8)
  wrs output (i / 8) src

/-- One iteration of the loop of `keccak_squeeze_b1600`, src/hashes/keccak-backend.c:225-238; returns
the context, the output and the new `i`. -/
def keccakSqueezeStep (ctx : KeccakCtx) (output : List Byte) (bitLen i : Nat) :
    C (KeccakCtx × List Byte × Nat) := do
  let ctx ← keccakRefill ctx
  let n := squeezeChunk ctx.squeezable bitLen i
  let output ← keccakSqueezeCopy ctx output i n
  .ok ({ ctx with squeezable := ctx.squeezable - n }, output, i + n)

/-- The loop of `keccak_squeeze_b1600`, src/hashes/keccak-backend.c:224-239 (non-termination as
above). -/
def keccakSqueezeLoop (ctx : KeccakCtx) (output : List Byte) (bitLen i : Nat) :
    C (KeccakCtx × List Byte) :=
  if _h : i < bitLen then
    match keccakSqueezeStep ctx output bitLen i with
    | .error e => .error e
    | .ok (ctx', output', i') =>
      if _h2 : i < i' then keccakSqueezeLoop ctx' output' bitLen i' else .error .diverge
  else .ok (ctx, output)
termination_by bitLen - i
decreasing_by omega

/-- `keccak_squeeze_b1600`, src/hashes/keccak-backend.c:211-242. -/
def keccakSqueeze (ctx : KeccakCtx) (output : List Byte) : C (KeccakCtx × List Byte) := do
  let ctx ← (if ctx.apLen ≠ 0 ∧ ¬ ctx.apAdded then do
      let ctx ← keccakAbsorb ctx [ctx.ap] ctx.apLen
      .ok { ctx with apAdded := true }
    else .ok ctx)
  let ctx ← (if ¬ ctx.squeezing then keccakPadding ctx else .ok ctx)
  keccakSqueezeLoop ctx output ctx.outLength 0

/-- `pgfe_sha3_224_update` and the update functions of all the others, src/hashes/sha3-224.c:25-27,
src/hashes/shake.c:27-29, 48-50: no check for NULL; a NULL pointer is dereferenced unless nothing has
to be read.  (Simplification: an update with a NULL pointer and a non-zero length on a context that is
still absorbing is reported as `nullDeref` at once.) -/
def keccakUpdate (ctx : KeccakCtx) (input : Option (List Byte)) (length : Nat) : C KeccakCtx :=
  match input with
  | none => if length * 8 % 2 ^ 64 = 0 ∨ ctx.squeezing then .ok ctx else .error .nullDeref
  | some input => keccakAbsorb ctx input (length * 8 % 2 ^ 64)

/-- `pgfe_sha3_<n>_init`, src/hashes/sha3-224.c:18-23, sha3-256.c:18-23, sha3-384.c:18-23,
sha3-512.c:18-23; constants include/libpgfe/hashes/sha3.h:70-71. -/
def sha3Init (capacity outLength : Nat) (ctx : KeccakCtx) : C KeccakCtx :=
  let ctx := keccakInit ctx capacity
  .ok { ctx with outLength := outLength, ap := 0x02#8, apLen := 2 }

/-- `pgfe_sha3_<n>_digest`, src/hashes/sha3-224.c:29-31 etc. -/
def sha3Digest (ctx : KeccakCtx) (output : List Byte) : C (KeccakCtx × List Byte) :=
  keccakSqueeze ctx output

/-- `pgfe_shake128_init`, `pgfe_shake256_init`, src/hashes/shake.c:42-46, 83-87; constants
include/libpgfe/hashes/sha3.h:73-74. -/
def shakeInit (capacity : Nat) (ctx : KeccakCtx) : C KeccakCtx :=
  let ctx := keccakInit ctx capacity
  .ok { ctx with ap := 0x0f#8, apLen := 4 }

/-- `pgfe_rawshake128_init`, `pgfe_rawshake256_init`, src/hashes/shake.c:21-25, 62-66; constants
include/libpgfe/hashes/sha3.h:76-77. -/
def rawshakeInit (capacity : Nat) (ctx : KeccakCtx) : C KeccakCtx :=
  let ctx := keccakInit ctx capacity
  .ok { ctx with ap := 0x03#8, apLen := 2 }

/-- `pgfe_rawshake128_digest` and the digest functions of the other three, src/hashes/shake.c:31-34,
52-54, 72-75, 93-95: `out_length` is a `uint32_t`. -/
def shakeDigest (outputBitlength : Nat) (ctx : KeccakCtx) (output : List Byte) :
    C (KeccakCtx × List Byte) :=
  keccakSqueeze { ctx with outLength := outputBitlength % 2 ^ 32 } output

/-- `pgfe_sha3_224_*`, include/libpgfe/hashes/sha3.h:90-94. -/
abbrev sha3_224Impl : HashImpl := ⟨KeccakCtx, sha3Init 448 224, keccakUpdate, sha3Digest⟩
/-- `pgfe_sha3_256_*`, include/libpgfe/hashes/sha3.h:107-111. -/
abbrev sha3_256Impl : HashImpl := ⟨KeccakCtx, sha3Init 512 256, keccakUpdate, sha3Digest⟩
/-- `pgfe_sha3_384_*`, include/libpgfe/hashes/sha3.h:124-128. -/
abbrev sha3_384Impl : HashImpl := ⟨KeccakCtx, sha3Init 768 384, keccakUpdate, sha3Digest⟩
/-- `pgfe_sha3_512_*`, include/libpgfe/hashes/sha3.h:141-145. -/
abbrev sha3_512Impl : HashImpl := ⟨KeccakCtx, sha3Init 1024 512, keccakUpdate, sha3Digest⟩
/-- `pgfe_rawshake128_*` with a given output length, include/libpgfe/hashes/sha3.h:159-163. -/
abbrev rawshake128Impl (bits : Nat) : HashImpl :=
  ⟨KeccakCtx, rawshakeInit 256, keccakUpdate, shakeDigest bits⟩
/-- `pgfe_shake128_*` with a given output length, include/libpgfe/hashes/sha3.h:177-181. -/
abbrev shake128Impl (bits : Nat) : HashImpl :=
  ⟨KeccakCtx, shakeInit 256, keccakUpdate, shakeDigest bits⟩
/-- `pgfe_rawshake256_*` with a given output length, include/libpgfe/hashes/sha3.h:195-199. -/
abbrev rawshake256Impl (bits : Nat) : HashImpl :=
  ⟨KeccakCtx, rawshakeInit 512, keccakUpdate, shakeDigest bits⟩
/-- `pgfe_shake256_*` with a given output length, include/libpgfe/hashes/sha3.h:213-217. -/
abbrev shake256Impl (bits : Nat) : HashImpl :=
  ⟨KeccakCtx, shakeInit 512, keccakUpdate, shakeDigest bits⟩

/-- A call on a KECCAK context; the length in bits is an argument of the SHAKE digest functions only. -/
inductive KCall where
  | update (input : List Byte)
  | digest (bits : Nat) (output : List Byte)
  deriving DecidableEq, Repr

/-- An arbitrary sequence of calls on a KECCAK context by a client of include/libpgfe/hashes/sha3.h,
with digest function `dig`; returns the outputs of the digest calls. -/
def kcalls (dig : Nat → KeccakCtx → List Byte → C (KeccakCtx × List Byte)) (ctx : KeccakCtx) :
    List KCall → C (KeccakCtx × List (List Byte))
  | [] => .ok (ctx, [])
  | .update x :: rest => do
    let ctx ← keccakUpdate ctx (some x) x.length
    kcalls dig ctx rest
  | .digest bits out :: rest => do
    let r ← dig bits ctx out
    let s ← kcalls dig r.1 rest
    .ok (s.1, r.2 :: s.2)

/-- init, one update per element of `parts`, and then one digest call per element of `reqs`, each with
its number of bytes and its output buffer, on a SHAKE or RawSHAKE context: a client of
include/libpgfe/hashes/sha3.h:159-217. -/
def xofSession (init : KeccakCtx → C KeccakCtx) (g : KeccakCtx) (parts : List (List Byte))
    (reqs : List (Nat × List Byte)) : C (List (List Byte)) := do
  let c ← init g
  let c ← (⟨KeccakCtx, init, keccakUpdate, shakeDigest 0⟩ : HashImpl).feed c parts
  let r ← kcalls shakeDigest c (reqs.map (fun r : Nat × List Byte => .digest (8 * r.1) r.2))
  .ok r.2

end Pgfe.Model
