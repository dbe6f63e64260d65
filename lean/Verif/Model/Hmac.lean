import Verif.Model.Alg
/-!
# Model of the HMAC code

`src/hmac/hmac.c`, `arrinit` and `arrcpy` of `src/core/generic-internal.c`.  The macro `hmac_gen`
generates the same functions for twelve hash functions: they are modelled once, for an arbitrary
`HashImpl`, its block size `bs` and its digest size `ds`.
-/
namespace Pgfe.Model

/-- `arrinit`, src/core/generic-internal.c:12-14: `memset(arr, 0, size)` where `arr` starts at position
`at` of the array `mem`. -/
def arrinit (mem : List Byte) (at_ size : Nat) : C (List Byte) :=
  wrs mem at_ (List.replicate size 0#8)

/-- `arrcpy`, src/core/generic-internal.c:16-20.  Simplification: `src` is not NULL (for `src_s` = 0 the
code passes it to `memcpy` with length 0 in any case). -/
def arrcpy (dest : List Byte) (destS : Nat) (src : List Byte) (srcS : Nat) : C (List Byte) := do
  let cpyS := if destS > srcS then srcS else destS
  let s ← rds src 0 cpyS
  let dest ← wrs dest 0 s
  arrinit dest cpyS (destS - cpyS)

/-- `I_UNIT`, include/libpgfe/hmac/hmac.h:18. -/
def iUnit : Byte := 0x36#8
/-- `O_UNIT`, include/libpgfe/hmac/hmac.h:19. -/
def oUnit : Byte := 0x5c#8

/-- `struct pgfe_hmac_<name>_ctx`, include/libpgfe/hmac/hmac.h:24-28. -/
structure HmacCtx (I : HashImpl) where
  hash : I.Ctx
  kIPad : List Byte
  kOPad : List Byte

namespace HmacCtx
variable (I : HashImpl) (bs ds : Nat)

/-- `pgfe_hmac_<name>_init`, src/hmac/hmac.c:15-20. -/
def init (ctx : HmacCtx I) : C (HmacCtx I) := do
  let hash ← I.init ctx.hash
  let kIPad ← wrs ctx.kIPad 0 (List.replicate bs iUnit)
  let kOPad ← wrs ctx.kOPad 0 (List.replicate bs oUnit)
  let hash ← I.update hash (some kIPad) bs
  .ok ⟨hash, kIPad, kOPad⟩

/-- The loop of `pgfe_hmac_<name>_set_key`, src/hmac/hmac.c:26-29. -/
def xorPads (kIPad kOPad : List Byte) : C (List Byte × List Byte) :=
  forN bs (fun i p => do
    let x ← rd p.1 i
    let p1 ← wr p.1 i (x ^^^ iUnit)
    let y ← rd p.2 i
    let p2 ← wr p.2 i (y ^^^ oUnit)
    .ok (p1, p2)) (kIPad, kOPad)

/-- `pgfe_hmac_<name>_set_key`, src/hmac/hmac.c:21-32. -/
def setKey (ctx : HmacCtx I) (key : List Byte) (keyLength : Nat) : C (HmacCtx I) := do
  let kIPad ← arrcpy ctx.kIPad bs key keyLength
  let kOPad ← arrcpy ctx.kOPad bs key keyLength
  let p ← xorPads bs kIPad kOPad
  let hash ← I.init ctx.hash
  let hash ← I.update hash (some p.1) bs
  .ok ⟨hash, p.1, p.2⟩

/-- `pgfe_hmac_<name>_update`, src/hmac/hmac.c:33-37. -/
def update (ctx : HmacCtx I) (data : Option (List Byte)) (length : Nat) : C (HmacCtx I) := do
  let hash ← I.update ctx.hash data length
  .ok { ctx with hash := hash }

/-- `pgfe_hmac_<name>_digest`, src/hmac/hmac.c:38-44; `mid` is the content of the uninitialised local
array `mid_hash`, `g` that of the uninitialised context of `pgfe_<name>_encode_multiple`. -/
def digest (mid : List Byte) (g : I.Ctx) (ctx : HmacCtx I) (output : List Byte) :
    C (HmacCtx I × List Byte) := do
  let r ← I.digest ctx.hash mid
  let out ← I.encodeMultiple g output [(some ctx.kOPad, bs), (some r.2, ds)]
  .ok ({ ctx with hash := r.1 }, out)

/-- The memory in which `pgfe_hmac_<name>` runs: the contents of the uninitialised locals `ctx`,
src/hmac/hmac.c:49, `mid_hash`, src/hmac/hmac.c:39, and `ctx`, src/hashes/templates.h:48. -/
structure Mem where
  ctx : HmacCtx I
  mid : List Byte
  inner : I.Ctx

/-- `pgfe_hmac_<name>`, src/hmac/hmac.c:45-54. -/
def oneShot (g : Mem I) (key : List Byte) (keyLength : Nat) (data : List Byte) (length : Nat)
    (output : List Byte) : C (List Byte) := do
  let ctx ← init I bs g.ctx
  let ctx ← setKey I bs ctx key keyLength
  let ctx ← update I ctx (some data) length
  let r ← digest I bs ds g.mid g.inner ctx output
  .ok r.2

/-- A client's sequence of update calls, each with exactly the bytes of a list. -/
def feed (ctx : HmacCtx I) : List (List Byte) → C (HmacCtx I)
  | [] => .ok ctx
  | p :: rest => do
    let ctx ← update I ctx (some p) p.length
    feed ctx rest

/-- set_key, updates, digest on the context, as include/libpgfe/hmac/hmac.h documents. -/
def macSession (mid : List Byte) (inner : I.Ctx) (ctx : HmacCtx I) (key : List Byte) (parts : List (List Byte))
    (output : List Byte) : C (List Byte) := do
  let ctx ← setKey I bs ctx key key.length
  let ctx ← feed I ctx parts
  let r ← digest I bs ds mid inner ctx output
  .ok r.2

/-- init, updates, digest: without set_key. -/
def noKeySession (mid : List Byte) (inner : I.Ctx) (ctx : HmacCtx I) (parts : List (List Byte))
    (output : List Byte) : C (List Byte) := do
  let ctx ← init I bs ctx
  let ctx ← feed I ctx parts
  let r ← digest I bs ds mid inner ctx output
  .ok r.2

/-- One call on an HMAC context. -/
inductive Call where
  | init
  | setKey (key : List Byte)
  | update (input : List Byte)
  | digest (mid : List Byte) (inner : I.Ctx) (output : List Byte)

/-- One call. -/
def call (ctx : HmacCtx I) : Call I → C (HmacCtx I)
  | .init => init I bs ctx
  | .setKey k => setKey I bs ctx k k.length
  | .update x => update I ctx (some x) x.length
  | .digest mid inner out => do
    let r ← digest I bs ds mid inner ctx out
    .ok r.1

/-- Any sequence of calls. -/
def calls (ctx : HmacCtx I) : List (Call I) → C (HmacCtx I)
  | [] => .ok ctx
  | x :: rest => do
    let ctx ← call I bs ds ctx x
    calls ctx rest

end HmacCtx

/-- `pgfe_hmac`, src/hmac/hmac.c:74-79, with `__PGFE_BATCH_CASES_SP`, src/core/generic-internal.h:66-82:
the twelve fixed-output algorithms; the four others reach `default: break`. -/
def pgfeHmac (a : Alg) (g : HmacCtx.Mem (a.impl 0)) (key : List Byte) (keyLength : Nat) (data : List Byte)
    (length : Nat) (output : List Byte) : C (List Byte) :=
  match a with
  | .RawSHAKE128 | .SHAKE128 | .RawSHAKE256 | .SHAKE256 => .ok output
  | a => HmacCtx.oneShot (a.impl 0) a.blockSize a.digestSize g key keyLength data length output

end Pgfe.Model
