import Verif.Model.Hmac
/-!
# A program with several contexts, which it also copies by assignment

The context structures consist of integers and arrays of integers, include/libpgfe/hashes/md5.h:22-27,
include/libpgfe/hashes/sha1.h:24-30, include/libpgfe/hashes/sha2.h:44-58, include/libpgfe/hashes/sha3.h:26-37,
include/libpgfe/hmac/hmac.h:24-28: they hold no pointer, and no function of the library keeps anything about a
context elsewhere (there is no mutable static object in /repo/src).  An assignment `b = a`, or `memcpy`, therefore
copies the whole state of a computation.
-/
namespace Pgfe.Model

/-- The context variable `i` is overwritten (C assignment). -/
def setVar {α : Type} (mem : Nat → α) (i : Nat) (c : α) : Nat → α := fun j => if j = i then c else mem j

namespace HashImpl
variable (I : HashImpl)

/-- One step of a program with context variables 0, 1, 2, ...: a call of one of the three functions of
include/libpgfe/hashes/*.h (e.g. include/libpgfe/hashes/sha1.h:40-44), or the assignment `dst = src` of the
structure of include/libpgfe/hashes/sha1.h:24-30. -/
inductive Step where
  | init (i : Nat)
  | update (i : Nat) (input : List Byte)
  | digest (i : Nat) (output : List Byte)
  | assign (dst src : Nat)

/-- A program: the calls act on the variables as include/libpgfe/hashes/sha1.h:40-44 and its siblings; the result
are the buffers that the digest calls have filled, in order. -/
def program (mem : Nat → I.Ctx) : List Step → C (List (List Byte))
  | [] => .ok []
  | .init i :: rest => do
    let c ← I.init (mem i)
    program (setVar mem i c) rest
  | .update i x :: rest => do
    let c ← I.update (mem i) (some x) x.length
    program (setVar mem i c) rest
  | .digest i out :: rest => do
    let r ← I.digest (mem i) out
    let s ← program (setVar mem i r.1) rest
    .ok (r.2 :: s)
  | .assign d s :: rest => program (setVar mem d (mem s)) rest

end HashImpl

namespace HmacCtx
variable (I : HashImpl) (bs ds : Nat)

/-- One step of a program with HMAC context variables: a call of one of the functions of
include/libpgfe/hmac/hmac.h:44-98, or an assignment of the structure of include/libpgfe/hmac/hmac.h:24-28.  For
`digest`, `mid` and `inner` are the contents of the uninitialised local variables of the call. -/
inductive Step where
  | init (i : Nat)
  | setKey (i : Nat) (key : List Byte)
  | update (i : Nat) (input : List Byte)
  | digest (i : Nat) (mid : List Byte) (inner : I.Ctx) (output : List Byte)
  | assign (dst src : Nat)

/-- A program with HMAC contexts, src/hmac/hmac.c:15-44. -/
def program (mem : Nat → HmacCtx I) : List (Step I) → C (List (List Byte))
  | [] => .ok []
  | .init i :: rest => do
    let c ← init I bs (mem i)
    program (setVar mem i c) rest
  | .setKey i k :: rest => do
    let c ← setKey I bs (mem i) k k.length
    program (setVar mem i c) rest
  | .update i x :: rest => do
    let c ← update I (mem i) (some x) x.length
    program (setVar mem i c) rest
  | .digest i mid inner out :: rest => do
    let r ← digest I bs ds mid inner (mem i) out
    let s ← program (setVar mem i r.1) rest
    .ok (r.2 :: s)
  | .assign d s :: rest => program (setVar mem d (mem s)) rest

end HmacCtx
end Pgfe.Model
