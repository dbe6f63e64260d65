import Verif.Model.Hmac
import Verif.Model.Blowfish
/-!
# Input and output in one array

The functions with an input and an output array, called with pointers into one array `mem` that may overlap in any way
(nothing in the interface forbids it).  Every write changes what later reads see.  Pointers are indices into `mem`.
-/
namespace Pgfe.Model

namespace HashImpl
variable (I : HashImpl)

/-- One call on a hash context, with its argument inside the array. -/
inductive MemCall where
  | update (off len : Nat)
  | digest (off : Nat)
  deriving DecidableEq, Repr

/-- A sequence of calls of `pgfe_<name>_update` and `pgfe_<name>_digest` (include/libpgfe/hashes/*.h) on one context;
returns the array at the end.  `pgfe_<name>_update` has no output, and `pgfe_<name>_digest` no input besides the
context, so that each of them is the function of `HashImpl` on the part of the array from its pointer on. -/
def memCalls (ctx : I.Ctx) (mem : List Byte) : List MemCall → C (I.Ctx × List Byte)
  | [] => .ok (ctx, mem)
  | .update off len :: rest => do
    let ctx ← I.update ctx (some (mem.drop off)) len
    memCalls ctx mem rest
  | .digest off :: rest => do
    let r ← I.digest ctx (mem.drop off)
    memCalls r.1 (mem.take off ++ r.2) rest

/-- `pgfe_<name>_encode(mem + ip, length, mem + op)`, src/hashes/templates.h:20-27 and 72-81. -/
def encodeMem (g : I.Ctx) (mem : List Byte) (ip length op : Nat) : C (List Byte) := do
  let ctx ← I.init g
  let r ← I.memCalls ctx mem [.update ip length, .digest op]
  .ok r.2

end HashImpl

/-- `pgfe_hmac_<name>(mem + kp, keyLength, mem + ip, length, mem + op)`, src/hmac/hmac.c:45-54: the same calls as in
`HmacCtx.oneShot`; only `pgfe_hmac_<name>_digest` has an output, and it has no input besides the context. -/
def HmacCtx.oneShotMem (I : HashImpl) (bs ds : Nat) (g : HmacCtx.Mem I) (mem : List Byte)
    (kp keyLength ip length op : Nat) : C (List Byte) := do
  let ctx ← HmacCtx.init I bs g.ctx
  let ctx ← HmacCtx.setKey I bs ctx (mem.drop kp) keyLength
  let ctx ← HmacCtx.update I ctx (some (mem.drop ip)) length
  let r ← HmacCtx.digest I bs ds g.mid g.inner ctx (mem.drop op)
  .ok (mem.take op ++ r.2)

/-- `pgfe_hmac(alg, mem + kp, keyLength, mem + ip, length, mem + op)`, src/hmac/hmac.c:74-79. -/
def pgfeHmacMem (a : Alg) (g : HmacCtx.Mem (a.impl 0)) (mem : List Byte) (kp keyLength ip length op : Nat) :
    C (List Byte) :=
  match a with
  | .RawSHAKE128 | .SHAKE128 | .RawSHAKE256 | .SHAKE256 => .ok mem
  | a => HmacCtx.oneShotMem (a.impl 0) a.blockSize a.digestSize g mem kp keyLength ip length op

namespace Bf

/-- `for (j = i - 7; j <= i; j++) output[j] = unp[7 - j % 8]`, src/fishes/blowfish.c:250-253 and 263-266, with
`output` = `mem + op`; `base` is the first `j`. -/
def copyOutMem (unp mem : List Byte) (op base : Nat) : C (List Byte) :=
  forN 8 (fun t mem => do
    let b ← rd unp (7 - (base + t) % 8)
    wr mem (op + (base + t)) b) mem

/-- `__blowfish_en_decrypt_generic`, src/fishes/blowfish.c:235-270, with `input` = `mem + ip` and `output` =
`mem + op`; returns the length and the array. -/
def genericMem (f : BfUnit → C BfUnit) (unp mem : List Byte) (ip length op : Nat) : C (Nat × List Byte) := do
  let s ← forN length (fun i (s : List Byte × List Byte) => do
    let b ← rd s.2 (ip + i)
    let unp ← wr s.1 (7 - i % 8) b
    if i % 8 = 7 then do
      let unp ← onBytes f unp
      let mem ← copyOutMem unp s.2 op (i - 7)
      .ok (unp, mem)
    else .ok (unp, s.2)) (unp, mem)
  if length % 8 ≠ 0 then do
    let rem := 8 - length % 8
    let unp ← wrs s.1 0 (List.replicate rem 0#8)
    let unp ← onBytes f unp
    let i := length + rem
    let mem ← copyOutMem unp s.2 op (i - 8)
    .ok (i, mem)
  else .ok (length, s.2)

/-- `pgfe_blowfish_encrypt(ctx, mem + ip, length, mem + op)`, src/fishes/blowfish.c:272-276. -/
def encryptMem (ctx : BfCtx) (unp mem : List Byte) (ip length op : Nat) : C (Nat × List Byte) :=
  genericMem (encryptUnit ctx) unp mem ip length op

/-- `pgfe_blowfish_decrypt(ctx, mem + ip, length, mem + op)`, src/fishes/blowfish.c:278-282. -/
def decryptMem (ctx : BfCtx) (unp mem : List Byte) (ip length op : Nat) : C (Nat × List Byte) :=
  genericMem (decryptUnit ctx) unp mem ip length op

end Bf
end Pgfe.Model
