import Verif.Model.BlowfishTables
import Verif.Model.Hex
import Verif.Model.BaseObject
/-!
# Model of `src/fishes/blowfish.c` and `src/fishes/blowfish.cpp`
-/
namespace Pgfe.Model

/-- `struct pgfe_blowfish_ctx`, include/libpgfe/fishes/blowfish.h:25-28. -/
structure BfCtx where
  P : List W32
  S : List (List W32)
  deriving DecidableEq

/-- `pgfe_fake_uint64_t`, include/libpgfe/generic.h:46-50. -/
structure BfUnit where
  left : W32
  right : W32
  deriving DecidableEq

namespace Bf

/-- `F`, src/fishes/blowfish.c:148-157; `a` is the most significant byte of `x` on a little-endian machine. -/
def F (ctx : BfCtx) (x : W32) : C W32 := do
  let s0 ← rd ctx.S 0
  let a ← rd s0 (x >>> 24).toNat
  let s1 ← rd ctx.S 1
  let b ← rd s1 ((x >>> 16) &&& 0xff#32).toNat
  let s2 ← rd ctx.S 2
  let c ← rd s2 ((x >>> 8) &&& 0xff#32).toNat
  let s3 ← rd ctx.S 3
  let d ← rd s3 (x &&& 0xff#32).toNat
  .ok (((a + b) ^^^ c) + d)

/-- The body of the loops, src/fishes/blowfish.c:203-206 and 221-224: with `P[i]`, then a swap. -/
def round (ctx : BfCtx) (i : Nat) (dp : BfUnit) : C BfUnit := do
  let p ← rd ctx.P i
  let left := dp.left ^^^ p
  let f ← F ctx left
  let right := dp.right ^^^ f
  .ok ⟨right, left⟩

/-- `pgfe_blowfish_encrypt_unit`, src/fishes/blowfish.c:199-215. -/
def encryptUnit (ctx : BfCtx) (input : BfUnit) : C BfUnit := do
  let dp ← forN 16 (fun i dp => round ctx i dp) input
  let dp : BfUnit := ⟨dp.right, dp.left⟩
  let p16 ← rd ctx.P 16
  let p17 ← rd ctx.P 17
  .ok ⟨dp.left ^^^ p17, dp.right ^^^ p16⟩

/-- `pgfe_blowfish_decrypt_unit`, src/fishes/blowfish.c:217-233: `i` runs from 17 down to 2. -/
def decryptUnit (ctx : BfCtx) (input : BfUnit) : C BfUnit := do
  let dp ← forN 16 (fun t dp => round ctx (17 - t) dp) input
  let dp : BfUnit := ⟨dp.right, dp.left⟩
  let p1 ← rd ctx.P 1
  let p0 ← rd ctx.P 0
  .ok ⟨dp.left ^^^ p0, dp.right ^^^ p1⟩

/-- The inner loop of the key phase, src/fishes/blowfish.c:176-179: the word and `j` (a `uint16_t`). -/
def keyWord (key : List Byte) (keyLength : Nat) (j : Nat) : C (W32 × Nat) :=
  forN 4 (fun _ (s : W32 × Nat) => do
    let b ← rd key s.2
    let j := (s.2 + 1) % 2 ^ 16
    if keyLength = 0 then .error .divZero
    else .ok ((s.1 <<< 8) ||| b.setWidth 32, j % keyLength)) (0#32, j)

/-- The key phase, src/fishes/blowfish.c:174-182. -/
def keyPhase (key : List Byte) (keyLength : Nat) (P : List W32) : C (List W32) := do
  let r ← forN 18 (fun i (s : List W32 × Nat) => do
    let w ← keyWord key keyLength s.2
    let p0 ← rd bfP0 i
    let P ← wr s.1 i (p0 ^^^ w.1)
    .ok (P, w.2)) (P, 0)
  .ok r.1

/-- src/fishes/blowfish.c:184-188. -/
def pPhase (ctx : BfCtx) (dp : BfUnit) : C (BfCtx × BfUnit) :=
  forN 9 (fun t (s : BfCtx × BfUnit) => do
    let dp ← encryptUnit s.1 s.2
    let P ← wr s.1.P (2 * t) dp.left
    let P ← wr P (2 * t + 1) dp.right
    .ok ({ s.1 with P := P }, dp)) (ctx, dp)

/-- `ctx->S[i][j] = v`. -/
def wrS (ctx : BfCtx) (i j : Nat) (v : W32) : C BfCtx := do
  let row ← rd ctx.S i
  let row ← wr row j v
  let S ← wr ctx.S i row
  .ok { ctx with S := S }

/-- src/fishes/blowfish.c:190-196. -/
def sPhase (ctx : BfCtx) (dp : BfUnit) : C (BfCtx × BfUnit) :=
  forN 4 (fun i (s : BfCtx × BfUnit) =>
    forN 128 (fun t (s : BfCtx × BfUnit) => do
      let dp ← encryptUnit s.1 s.2
      let ctx ← wrS s.1 i (2 * t) dp.left
      let ctx ← wrS ctx i (2 * t + 1) dp.right
      .ok (ctx, dp)) s) (ctx, dp)

/-- `pgfe_blowfish_init`, src/fishes/blowfish.c:165-197, on a context with arbitrary contents; the `memcpy` of
`S0` overwrites all of `ctx->S`. -/
def init (ctx : BfCtx) (key : List Byte) (keyLength : Nat) : C BfCtx := do
  let P ← keyPhase key keyLength ctx.P
  let s ← pPhase ⟨P, bfS0⟩ ⟨0#32, 0#32⟩
  let s ← sPhase s.1 s.2
  .ok s.1

/-- The four bytes of a 32-bit number in memory, least significant first. -/
def le4 (w : W32) : List Byte := (List.range 4).map (fun i => (w >>> (8 * i)).setWidth 8)
/-- The number four bytes of memory denote. -/
def ofLe4 (b : List Byte) : W32 :=
  (b.getD 0 0).setWidth 32 ||| ((b.getD 1 0).setWidth 32 <<< 8) ||| ((b.getD 2 0).setWidth 32 <<< 16) |||
    ((b.getD 3 0).setWidth 32 <<< 24)

/-- The function `unit_func` on the eight bytes of `unit` in memory (`right` first, both little endian). -/
def onBytes (f : BfUnit → C BfUnit) (unp : List Byte) : C (List Byte) := do
  let u ← f ⟨ofLe4 (unp.drop 4), ofLe4 (unp.take 4)⟩
  .ok (le4 u.right ++ le4 u.left)

/-- `for (j = i - 7; j <= i; j++) output[j] = unp[7 - j % 8]`, src/fishes/blowfish.c:250-253, and the same loop of
lines 263-266; `base` is the first `j`, a multiple of 8. -/
def copyOut (unp output : List Byte) (base : Nat) : C (List Byte) :=
  forN 8 (fun t output => do
    let b ← rd unp (7 - (base + t) % 8)
    wr output (base + t) b) output

/-- `__blowfish_en_decrypt_generic`, src/fishes/blowfish.c:235-270: the returned length and the output array.
`unp` is the content of the uninitialised variable `unit`; `input` = none means that input and output are the same
array. -/
def generic (f : BfUnit → C BfUnit) (unp : List Byte) (input : Option (List Byte)) (length : Nat)
    (output : List Byte) : C (Nat × List Byte) := do
  let s ← forN length (fun i (s : List Byte × List Byte) => do
    let b ← rd (input.getD s.2) i
    let unp ← wr s.1 (7 - i % 8) b
    if i % 8 = 7 then do
      let unp ← onBytes f unp
      let output ← copyOut unp s.2 (i - 7)
      .ok (unp, output)
    else .ok (unp, s.2)) (unp, output)
  if length % 8 ≠ 0 then do
    let rem := 8 - length % 8
    let unp ← wrs s.1 0 (List.replicate rem 0#8)
    let unp ← onBytes f unp
    let i := length + rem
    let output ← copyOut unp s.2 (i - 8)
    .ok (i, output)
  else .ok (length, s.2)

/-- `pgfe_blowfish_encrypt`, src/fishes/blowfish.c:272-276. -/
def encrypt (ctx : BfCtx) (unp : List Byte) (input : Option (List Byte)) (length : Nat) (output : List Byte) :
    C (Nat × List Byte) := generic (encryptUnit ctx) unp input length output

/-- `pgfe_blowfish_decrypt`, src/fishes/blowfish.c:278-282. -/
def decrypt (ctx : BfCtx) (unp : List Byte) (input : Option (List Byte)) (length : Nat) (output : List Byte) :
    C (Nat × List Byte) := generic (decryptUnit ctx) unp input length output

/-! ## The C++ class -/

/-- The ways to pass bytes: a pointer with a length, a C string, a `std::string`, a `SequentialData`.  The memory
behind the last two ends in a zero element that `c_str()` supplies. -/
inductive Arg where
  | seq (mem : List Byte) (length : Nat)
  | cs (mem : List Byte)
  | str (s : List Byte)
  | sd (s : List Byte)

/-- The four constructors, src/fishes/blowfish.cpp:15 (`SequentialData`), 17 (`const char[]`), 19-21 (pointer and
length), 23 (`std::string`, which passes `c_str()` to the constructor of line 17). -/
def create (mem : BfCtx) : Arg → C BfCtx
  | .seq m n => init mem m n
  | .cs m => do
    let n ← strlen m
    init mem m n
  | .str s => do
    let n ← strlen (s ++ [0#8])
    init mem (s ++ [0#8]) n
  | .sd s => init mem (s ++ [0#8]) s.length

/-- `Blowfish::encrypt(seq, length)`, src/fishes/blowfish.cpp:27-33: an array of `length + length % 8` zeros. -/
def cppEncrypt (ctx : BfCtx) (unp seq : List Byte) (length : Nat) : C (List Byte) := do
  let r ← encrypt ctx unp (some seq) length (List.replicate (length + length % 8) 0#8)
  rds r.2 0 r.1

/-- `Blowfish::decrypt(seq, length)`, src/fishes/blowfish.cpp:35-41. -/
def cppDecrypt (ctx : BfCtx) (unp seq : List Byte) (length : Nat) : C (List Byte) := do
  let r ← decrypt ctx unp (some seq) length (List.replicate (length + length % 8) 0#8)
  rds r.2 0 r.1

/-- The four `encrypt` of `Blowfish`, src/fishes/blowfish.cpp:27-33, 43-53, the last three by way of
src/core/abstract_symmetric_crypter.cpp:14-24, whose call of the virtual `encrypt(ptr, length)` reaches
`Blowfish::encrypt`; for the same reason a call through a reference to `AbstractSymmetricCrypter` is the same.
The object is not changed. -/
def encryptArg (ctx : BfCtx) (unp : List Byte) : Arg → C (List Byte)
  | .seq m n => cppEncrypt ctx unp m n
  | .cs m => do
    let n ← strlen m
    cppEncrypt ctx unp m n
  | .str s => cppEncrypt ctx unp (s ++ [0#8]) s.length
  | .sd s => cppEncrypt ctx unp (s ++ [0#8]) s.length

/-- The four `decrypt` of `Blowfish`, src/fishes/blowfish.cpp:35-41, 55-65, and
src/core/abstract_symmetric_crypter.cpp:26-36. -/
def decryptArg (ctx : BfCtx) (unp : List Byte) : Arg → C (List Byte)
  | .seq m n => cppDecrypt ctx unp m n
  | .cs m => do
    let n ← strlen m
    cppDecrypt ctx unp m n
  | .str s => cppDecrypt ctx unp (s ++ [0#8]) s.length
  | .sd s => cppDecrypt ctx unp (s ++ [0#8]) s.length

/-- A call of `encrypt` (`true`) or `decrypt` with the garbage of the local variable of the C function. -/
structure BfCall where
  enc : Bool
  unp : List Byte
  arg : Arg

/-- Any sequence of calls on one object. -/
def calls (ctx : BfCtx) : List BfCall → C (List (List Byte))
  | [] => .ok []
  | c :: l => do
    let r ← if c.enc then encryptArg ctx c.unp c.arg else decryptArg ctx c.unp c.arg
    let rs ← calls ctx l
    .ok (r :: rs)

end Bf
end Pgfe.Model
