import Verif.Model.Trace
import Verif.Model.Blowfish
import Verif.Model.Otp
/-!
# The traces of Blowfish and of the one-time passwords

As Model/Trace, for src/fishes/blowfish.c, src/otp/hotp.c and src/otp/otp-generic.c.
-/
namespace Pgfe.Model
namespace Tr.Bf

/-- `ctx->S[box][i]`; the index in the trace is that of the four tables laid out one after the other. -/
def rdS (ctx : BfCtx) (box i : Nat) : T W32 :=
  ⟨do let s ← Pgfe.rd ctx.S box
      Pgfe.rd s i, [.rd .bfS (256 * box + i) 1]⟩

/-- `F`, src/fishes/blowfish.c:154-157. -/
def F (ctx : BfCtx) (x : W32) : T W32 := do
  let a ← rdS ctx 0 (x >>> 24).toNat
  let b ← rdS ctx 1 ((x >>> 16) &&& 0xff#32).toNat
  let c ← rdS ctx 2 ((x >>> 8) &&& 0xff#32).toNat
  let d ← rdS ctx 3 (x &&& 0xff#32).toNat
  pure (((a + b) ^^^ c) + d)

/-- src/fishes/blowfish.c:203-206 and 221-224. -/
def round (ctx : BfCtx) (i : Nat) (dp : BfUnit) : T BfUnit := do
  let p ← T.rd .bfP ctx.P i
  let left := dp.left ^^^ p
  let f ← F ctx left
  let right := dp.right ^^^ f
  pure ⟨right, left⟩

/-- `pgfe_blowfish_encrypt_unit`, src/fishes/blowfish.c:199-215. -/
def encryptUnit (ctx : BfCtx) (input : BfUnit) : T BfUnit := do
  let dp ← T.forN 16 (fun i dp => round ctx i dp) input
  let dp : BfUnit := ⟨dp.right, dp.left⟩
  let p16 ← T.rd .bfP ctx.P 16
  let p17 ← T.rd .bfP ctx.P 17
  pure ⟨dp.left ^^^ p17, dp.right ^^^ p16⟩

/-- `pgfe_blowfish_decrypt_unit`, src/fishes/blowfish.c:217-233. -/
def decryptUnit (ctx : BfCtx) (input : BfUnit) : T BfUnit := do
  let dp ← T.forN 16 (fun t dp => round ctx (17 - t) dp) input
  let dp : BfUnit := ⟨dp.right, dp.left⟩
  let p1 ← T.rd .bfP ctx.P 1
  let p0 ← T.rd .bfP ctx.P 0
  pure ⟨dp.left ^^^ p0, dp.right ^^^ p1⟩

/-- src/fishes/blowfish.c:176-179. -/
def keyWord (key : List Byte) (keyLength : Nat) (j : Nat) : T (W32 × Nat) :=
  T.forN 4 (fun _ (s : W32 × Nat) => do
    let b ← T.rd .key key s.2
    let j := (s.2 + 1) % 2 ^ 16
    if keyLength = 0 then T.fail .divZero
    else pure ((s.1 <<< 8) ||| b.setWidth 32, j % keyLength)) (0#32, j)

/-- src/fishes/blowfish.c:174-182. -/
def keyPhase (key : List Byte) (keyLength : Nat) (P : List W32) : T (List W32) := do
  let r ← T.forN 18 (fun i (s : List W32 × Nat) => do
    let w ← keyWord key keyLength s.2
    let p0 ← T.rd .bfP0 bfP0 i
    let P ← T.wr .bfP s.1 i (p0 ^^^ w.1)
    pure (P, w.2)) (P, 0)
  pure r.1

/-- src/fishes/blowfish.c:184-188. -/
def pPhase (ctx : BfCtx) (dp : BfUnit) : T (BfCtx × BfUnit) :=
  T.forN 9 (fun t (s : BfCtx × BfUnit) => do
    let dp ← encryptUnit s.1 s.2
    let P ← T.wr .bfP s.1.P (2 * t) dp.left
    let P ← T.wr .bfP P (2 * t + 1) dp.right
    pure ({ s.1 with P := P }, dp)) (ctx, dp)

/-- `ctx->S[i][j] = v`, src/fishes/blowfish.c:193-194. -/
def wrS (ctx : BfCtx) (i j : Nat) (v : W32) : T BfCtx := ⟨Model.Bf.wrS ctx i j v, [.wr .bfS (256 * i + j) 1]⟩

/-- src/fishes/blowfish.c:190-196. -/
def sPhase (ctx : BfCtx) (dp : BfUnit) : T (BfCtx × BfUnit) :=
  T.forN 4 (fun i (s : BfCtx × BfUnit) =>
    T.forN 128 (fun t (s : BfCtx × BfUnit) => do
      let dp ← encryptUnit s.1 s.2
      let ctx ← wrS s.1 i (2 * t) dp.left
      let ctx ← wrS ctx i (2 * t + 1) dp.right
      pure (ctx, dp)) s) (ctx, dp)

/-- The `memcpy` of `S0`, src/fishes/blowfish.c:172. -/
def copyS0 : T (List (List W32)) := ⟨.ok bfS0, [.wr .bfS 0 1024]⟩

/-- `pgfe_blowfish_init`, src/fishes/blowfish.c:165-197. -/
def init (ctx : BfCtx) (key : List Byte) (keyLength : Nat) : T BfCtx := do
  let S ← copyS0
  let P ← keyPhase key keyLength ctx.P
  let s ← pPhase ⟨P, S⟩ ⟨0#32, 0#32⟩
  let s ← sPhase s.1 s.2
  pure s.1

/-- `unit_func` on the bytes of `unit`, src/fishes/blowfish.c:248, 260. -/
def onBytes (f : BfUnit → T BfUnit) (unp : List Byte) : T (List Byte) := do
  let u ← f ⟨Model.Bf.ofLe4 (unp.drop 4), Model.Bf.ofLe4 (unp.take 4)⟩
  pure (Model.Bf.le4 u.right ++ Model.Bf.le4 u.left)

/-- src/fishes/blowfish.c:250-253 and 263-266. -/
def copyOut (unp output : List Byte) (base : Nat) : T (List Byte) :=
  T.forN 8 (fun t output => do
    let b ← T.rd .unit unp (7 - (base + t) % 8)
    T.wr .output output (base + t) b) output

/-- `__blowfish_en_decrypt_generic`, src/fishes/blowfish.c:235-270, with different arrays for input and output. -/
def generic (f : BfUnit → T BfUnit) (unp input : List Byte) (length : Nat)
    (output : List Byte) : T (Nat × List Byte) := do
  let s ← T.forN length (fun i (s : List Byte × List Byte) => do
    let b ← T.rd .input input i
    let unp ← T.wr .unit s.1 (7 - i % 8) b
    let full ← T.br (decide (i % 8 = 7))
    if full then do
      let unp ← onBytes f unp
      let output ← copyOut unp s.2 (i - 7)
      pure (unp, output)
    else pure (unp, s.2)) (unp, output)
  let rest ← T.br (decide (length % 8 ≠ 0))
  if rest then do
    let rem := 8 - length % 8
    let unp ← T.wrs .unit s.1 0 (List.replicate rem 0#8)
    let unp ← onBytes f unp
    let i := length + rem
    let output ← copyOut unp s.2 (i - 8)
    pure (i, output)
  else pure (length, s.2)

/-- One call of `pgfe_blowfish_encrypt` or `pgfe_blowfish_decrypt`, src/fishes/blowfish.c:272-282, with the contents
of the local variable and of the arrays. -/
structure Op where
  enc : Bool
  unp : List Byte
  input : List Byte
  output : List Byte

/-- src/fishes/blowfish.c:272-282. -/
def op (ctx : BfCtx) (o : Op) : T (Nat × List Byte) :=
  generic (if o.enc then encryptUnit ctx else decryptUnit ctx) o.unp o.input o.input.length o.output

/-- A client of include/libpgfe/fishes/blowfish.h:36-42: any calls on a context. -/
def ops (ctx : BfCtx) : List Op → T (List (Nat × List Byte))
  | [] => pure []
  | o :: l => do
    let r ← op ctx o
    let rs ← ops ctx l
    pure (r :: rs)

end Tr.Bf

/-- The same calls in the model, src/fishes/blowfish.c:272-282. -/
def Bf.crypt (ctx : BfCtx) (o : Tr.Bf.Op) : C (Nat × List Byte) :=
  if o.enc then Bf.encrypt ctx o.unp (some o.input) o.input.length o.output
  else Bf.decrypt ctx o.unp (some o.input) o.input.length o.output

/-- The same sequence of calls in the model (include/libpgfe/fishes/blowfish.h:36-42). -/
def Bf.crypts (ctx : BfCtx) : List Tr.Bf.Op → C (List (Nat × List Byte))
  | [] => .ok []
  | o :: l => do
    let r ← Bf.crypt ctx o
    let rs ← Bf.crypts ctx l
    .ok (r :: rs)

namespace Tr

/-- `reverse`, src/core/generic-internal.c:40-48. -/
def reverse (b : List Byte) (low high : Nat) : T (List Byte) := do
  let _ ← T.br (decide (low < high))
  if _h : low < high then do
    let tmp ← T.rd .counter b low
    let x ← T.rd .counter b high
    let b ← T.wr .counter b low x
    let b ← T.wr .counter b high tmp
    reverse b (low + 1) (high - 1)
  else pure b
termination_by high - low

/-- `dynamically_truncate`, src/otp/otp-generic.c:12-22. -/
def dynTruncate (hash : List Byte) (length : Nat) : T W32 := do
  let last ← T.rd .mac hash ((length + 2 ^ 64 - 1) % 2 ^ 64)
  let offset := (last &&& 0x0F#8).toNat
  let code ← T.forN 4 (fun i (code : W32) => do
    let code := code <<< 8
    let b ← T.rd .mac hash (offset + i)
    pure (code ||| b.setWidth 32)) 0#32
  pure (code <<< 1 >>> 1)

/-- `pgfe_hmac`, src/hmac/hmac.c:74-79. -/
def pgfeHmac (a : Alg) (g : HmacCtx.Mem (a.impl 0)) (key : List Byte) (keyLength : Nat) (data : List Byte)
    (length : Nat) (output : List Byte) : T (List Byte) :=
  match a with
  | .RawSHAKE128 | .SHAKE128 | .RawSHAKE256 | .SHAKE256 => pure output
  | a => (a.traced 0).macOneShot a.blockSize a.digestSize g key keyLength data length output

/-- `pgfe_hotp_generic`, src/otp/hotp.c:31-53. -/
def hotpGeneric (a : Alg) (g : HmacCtx.Mem (a.impl 0)) (counterH outHash : List Byte) (secret : List Byte)
    (secretLength : Nat) (counter : W64) (digitC : Nat) : T Nat := do
  let digestSize := a.digestSize
  let counterH ← T.wrs .counter counterH 0 (memBytes8 counter)
  let counterH ← reverse counterH 0 7
  let outHash ← pgfeHmac a g secret secretLength counterH 8 outHash
  let result ← dynTruncate outHash digestSize
  let small ← T.br (decide (digitC < 10))
  if small then do
    let p ← T.rd .pow digitsPow digitC
    pure (result.toNat % p)
  else pure result.toNat

end Tr
end Pgfe.Model
