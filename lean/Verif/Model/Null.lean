import Verif.Model.Alg
import Verif.Model.HmacAgain
/-!
# NULL pointers

The functions of include/libpgfe/hashes/*.h and include/libpgfe/hmac/hmac.h with pointer arguments that
may be NULL (`none`).  MD5, SHA-1 and SHA-2 test their arguments; the KECCAK functions and the HMAC
functions do not.  A NULL pointer that is dereferenced, or passed to `memcpy` or `memset`, is
`UB.nullDeref`.
-/
namespace Pgfe.Model

/-- `if (!ctx) return;` at the start of the init function: src/hashes/md5.c:26,
src/hashes/templates.h:127 (SHA-1, SHA-224, SHA-256), src/hashes/sha384.c:24, src/hashes/sha512.c:31.
`keccak_init`, src/hashes/keccak-backend.c:70-84, has no such test. -/
def Alg.initTests : Alg → Bool
  | .MD5 | .SHA1 | .SHA224 | .SHA256 | .SHA384 | .SHA512 | .SHA512_224 | .SHA512_256 => true
  | .SHA3_224 | .SHA3_256 | .SHA3_384 | .SHA3_512 => false
  | .RawSHAKE128 | .SHAKE128 | .RawSHAKE256 | .SHAKE256 => false

/-- `if (!ctx || !input) return;` at the start of the update function: src/hashes/md5.c:33,
src/hashes/templates.h:137, src/hashes/sha2-backend.c:193.  `keccak_absorb_b1600`,
src/hashes/keccak-backend.c:164-172, has no such test.  (That of `input` is in `HashImpl.update`.) -/
def Alg.updateTests : Alg → Bool
  | .MD5 | .SHA1 | .SHA224 | .SHA256 | .SHA384 | .SHA512 | .SHA512_224 | .SHA512_256 => true
  | .SHA3_224 | .SHA3_256 | .SHA3_384 | .SHA3_512 => false
  | .RawSHAKE128 | .SHAKE128 | .RawSHAKE256 | .SHAKE256 => false

/-- `if (!ctx || !output) return;` at the start of the digest function: src/hashes/md5.c:67,
src/hashes/templates.h:159 (SHA-1), src/hashes/sha2-backend.c:105, 252.  `keccak_squeeze_b1600`,
src/hashes/keccak-backend.c:211-222, and the functions that call it have no such test. -/
def Alg.digestTests : Alg → Bool
  | .MD5 | .SHA1 | .SHA224 | .SHA256 | .SHA384 | .SHA512 | .SHA512_224 | .SHA512_256 => true
  | .SHA3_224 | .SHA3_256 | .SHA3_384 | .SHA3_512 => false
  | .RawSHAKE128 | .SHAKE128 | .RawSHAKE256 | .SHAKE256 => false

/-- `ctx->out_length` at the loop of `keccak_squeeze_b1600`, src/hashes/keccak-backend.c:224: set by the
init functions of SHA-3 (src/hashes/sha3-224.c:20, sha3-256.c:20, sha3-384.c:20, sha3-512.c:20), by the
digest functions of SHAKE (src/hashes/shake.c:32, 73), as a `uint32_t`.  Not used for the others. -/
def Alg.squeezedBits : Alg → Nat → Nat
  | .SHA3_224, _ => 224
  | .SHA3_256, _ => 256
  | .SHA3_384, _ => 384
  | .SHA3_512, _ => 512
  | _, bits => bits % 2 ^ 32

namespace Null
variable (a : Alg) (bits : Nat)

/-- `pgfe_<name>_init(ctx)`, as `HashImpl.init`, include/libpgfe/hashes/sha1.h:40. -/
def init : Option (a.impl bits).Ctx → C (Option (a.impl bits).Ctx)
  | none => if a.initTests then .ok none else .error .nullDeref
  | some c => do
    let c ← (a.impl bits).init c
    .ok (some c)

/-- `pgfe_<name>_update(ctx, input, length)`, as `HashImpl.update`, include/libpgfe/hashes/sha1.h:42. -/
def update (ctx : Option (a.impl bits).Ctx) (input : Option (List Byte)) (length : Nat) :
    C (Option (a.impl bits).Ctx) :=
  match ctx with
  | none => if a.updateTests then .ok none else .error .nullDeref
  | some c => do
    let c ← (a.impl bits).update c input length
    .ok (some c)

/-- `pgfe_<name>_digest(ctx, output)`, as `HashImpl.digest`, include/libpgfe/hashes/sha1.h:44.  The
KECCAK functions with a NULL output: nothing is written if no bit is asked for; otherwise NULL is passed
to `memcpy`, src/hashes/keccak-backend.c:236 (simplification: reported at once). -/
def digest (ctx : Option (a.impl bits).Ctx) (output : Option (List Byte)) :
    C (Option (a.impl bits).Ctx × Option (List Byte)) :=
  match ctx, output with
  | none, output => if a.digestTests then .ok (none, output) else .error .nullDeref
  | some c, none =>
    if a.digestTests then .ok (some c, none)
    else if a.squeezedBits bits = 0 then do
      let r ← (a.impl bits).digest c []
      .ok (some r.1, none)
    else .error .nullDeref
  | some c, some output => do
    let r ← (a.impl bits).digest c output
    .ok (some r.1, some r.2)

/-- `pgfe_<name>_encode`, src/hashes/templates.h:20-27 and 72-81; `g` is the content of the uninitialised
local `ctx`. -/
def encode (g : (a.impl bits).Ctx) (data : Option (List Byte)) (length : Nat) (output : Option (List Byte)) :
    C (Option (List Byte)) := do
  let ctx ← init a bits (some g)
  let ctx ← update a bits ctx data length
  let r ← digest a bits ctx output
  .ok r.2

/-- The loop of `pgfe_<name>_encode_multiple`, src/hashes/templates.h:54-60 and 108-114. -/
def multipleLoop (ctx : Option (a.impl bits).Ctx) : List (Option (List Byte) × Nat) → C (Option (a.impl bits).Ctx)
  | [] => .ok ctx
  | (none, _) :: rest => multipleLoop ctx rest
  | (some input, inputS) :: rest => do
    let ctx ← update a bits ctx (some input) inputS
    multipleLoop ctx rest

/-- `pgfe_<name>_encode_multiple`, src/hashes/templates.h:44-64 and 98-118. -/
def encodeMultiple (g : (a.impl bits).Ctx) (output : Option (List Byte)) (parts : List (Option (List Byte) × Nat)) :
    C (Option (List Byte)) := do
  let ctx ← init a bits (some g)
  let ctx ← multipleLoop a bits ctx parts
  let r ← digest a bits ctx output
  .ok r.2

/-- One call of the functions of include/libpgfe/hashes/*.h.  `onNull`: the context pointer is NULL;
otherwise it is that of the client's one context. -/
inductive PCall where
  | init (onNull : Bool)
  | update (onNull : Bool) (input : Option (List Byte)) (length : Nat)
  | digest (onNull : Bool) (output : Option (List Byte))
  deriving DecidableEq, Repr

/-- One call: the client's context afterwards, and what the output buffer holds if there is one and the
context is the client's. -/
def call (ctx : (a.impl bits).Ctx) : PCall → C ((a.impl bits).Ctx × Option (List Byte))
  | .init true => do
    let _ ← init a bits none
    .ok (ctx, none)
  | .init false => do
    let c ← init a bits (some ctx)
    .ok (c.getD ctx, none)
  | .update true input n => do
    let _ ← update a bits none input n
    .ok (ctx, none)
  | .update false input n => do
    let c ← update a bits (some ctx) input n
    .ok (c.getD ctx, none)
  | .digest true output => do
    let _ ← digest a bits none output
    .ok (ctx, none)
  | .digest false output => do
    let r ← digest a bits (some ctx) output
    .ok (r.1.getD ctx, r.2)

/-- A client's calls, in order; the outputs of the digest calls on its context that passed a buffer. -/
def calls (ctx : (a.impl bits).Ctx) : List PCall → C ((a.impl bits).Ctx × List (List Byte))
  | [] => .ok (ctx, [])
  | p :: rest => do
    let r ← call a bits ctx p
    let s ← calls r.1 rest
    .ok (s.1, r.2.toList ++ s.2)

/-- `pgfe_hmac_<name>_digest`, src/hmac/hmac.c:38-44, on a context that is not NULL; `mid` and `g` as in
`HmacCtx.digest`.  `output` is passed on to `pgfe_<name>_encode_multiple` without a test. -/
def macDigest (mid : List Byte) (g : (a.impl 0).Ctx) (ctx : HmacCtx (a.impl 0)) (output : Option (List Byte)) :
    C (HmacCtx (a.impl 0) × Option (List Byte)) := do
  let r ← (a.impl 0).digest ctx.hash mid
  let out ← encodeMultiple a 0 g output [(some ctx.kOPad, a.blockSize), (some r.2, a.digestSize)]
  .ok ({ ctx with hash := r.1 }, out)

end Null
end Pgfe.Model
