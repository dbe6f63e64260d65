import Verif.Model.Hex
/-!
# The common shape of the hash functions, and the front-end macros of `src/hashes/templates.h`

Every hash function of the library consists of a context structure and three functions
`pgfe_<name>_init`, `pgfe_<name>_update`, `pgfe_<name>_digest`.  The macros `FRONTEND_GEN2` and
`FRONTEND_GEN3` generate the same four functions from them for every `<name>`; they are modelled
once, for an arbitrary `HashImpl`.  For `FRONTEND_GEN3` (SHAKE) the digest function takes the output
length in bits as a further argument, which the generated functions pass on unchanged: there `digest`
is that function applied to the length.
-/
namespace Pgfe.Model

/-- `struct pgfe_<name>_ctx`, `pgfe_<name>_init`, `pgfe_<name>_update`, `pgfe_<name>_digest`, as
declared e.g. in include/libpgfe/hashes/sha1.h:24-45.  `none` is a NULL input pointer. -/
structure HashImpl where
  Ctx : Type
  init : Ctx → C Ctx
  update : Ctx → Option (List Byte) → Nat → C Ctx
  digest : Ctx → List Byte → C (Ctx × List Byte)

namespace HashImpl
variable (I : HashImpl)

/-- `pgfe_<name>_encode`, src/hashes/templates.h:20-27 and 72-81; `g` is the content of the
uninitialised local `ctx`. -/
def encode (g : I.Ctx) (data : Option (List Byte)) (length : Nat) (output : List Byte) :
    C (List Byte) := do
  let ctx ← I.init g
  let ctx ← I.update ctx data length
  let r ← I.digest ctx output
  .ok r.2

/-- The loop of `pgfe_<name>_encode_f`, src/hashes/templates.h:37-40 and 91-94; `PGFE_BUFFER_SIZE` =
1024, include/libpgfe/generic.h:21.  `file` is what is left of the file; `fread` (libc) is assumed to
deliver 1024 bytes unless the end of the file is reached. -/
def encodeFLoop (ctx : I.Ctx) (buf file : List Byte) : C I.Ctx :=
  let size := min file.length 1024
  match wrs buf 0 (file.take size) with
  | .error e => .error e
  | .ok buf =>
    match I.update ctx (some buf) size with
    | .error e => .error e
    | .ok ctx => if _h : 1024 ≤ size then encodeFLoop ctx buf (file.drop size) else .ok ctx
termination_by file.length
decreasing_by
  simp only [List.length_drop]
  omega

/-- `pgfe_<name>_encode_f`, src/hashes/templates.h:29-43 and 83-97; `buf` is the content of the
uninitialised local buffer. -/
def encodeF (g : I.Ctx) (buf file output : List Byte) : C (List Byte) := do
  let ctx ← I.init g
  let ctx ← I.encodeFLoop ctx buf file
  let r ← I.digest ctx output
  .ok r.2

/-- The loop of `pgfe_<name>_encode_multiple`, src/hashes/templates.h:54-60 and 108-114, over the
pairs (pointer, length) of the variable argument list.  Not modelled: argument lists of 2^31 or more
pairs (the `int` counter). -/
def encodeMultipleLoop (ctx : I.Ctx) : List (Option (List Byte) × Nat) → C I.Ctx
  | [] => .ok ctx
  | (input, inputS) :: rest =>
    match input with
    | none => encodeMultipleLoop ctx rest
    | some input => do
      let ctx ← I.update ctx (some input) inputS
      encodeMultipleLoop ctx rest

/-- `pgfe_<name>_encode_multiple`, src/hashes/templates.h:44-64 and 98-118. -/
def encodeMultiple (g : I.Ctx) (output : List Byte) (parts : List (Option (List Byte) × Nat)) :
    C (List Byte) := do
  let ctx ← I.init g
  let ctx ← I.encodeMultipleLoop ctx parts
  let r ← I.digest ctx output
  .ok r.2

/-- `pgfe_<name>_encode_default`, src/hashes/templates.h:67-69 and 119-123. -/
def encodeDefault (g : I.Ctx) (dataStr output : List Byte) : C (List Byte) := do
  let n ← strlen dataStr
  I.encode g (some dataStr) n output

/-- A client's sequence of update calls (pointer, length) on one context, in order: the calls a user
of include/libpgfe/hashes/*.h makes. -/
def updates (ctx : I.Ctx) : List (Option (List Byte) × Nat) → C I.Ctx
  | [] => .ok ctx
  | (p, n) :: rest => do
    let ctx ← I.update ctx p n
    updates ctx rest

/-- The same when every update passes exactly the bytes of a list. -/
def feed (ctx : I.Ctx) (parts : List (List Byte)) : C I.Ctx :=
  I.updates ctx (parts.map (fun p => (some p, p.length)))

/-- init, a sequence of updates, digest: the use of the context API that include/libpgfe/hashes/*.h
document. -/
def session (g : I.Ctx) (parts : List (List Byte)) (output : List Byte) : C (List Byte) := do
  let ctx ← I.init g
  let ctx ← I.feed ctx parts
  let r ← I.digest ctx output
  .ok r.2

/-- One call on a context. -/
inductive Call where
  | update (input : List Byte)
  | digest (output : List Byte)
  deriving DecidableEq, Repr

/-- An arbitrary sequence of calls on a context; returns the outputs of the digest calls. -/
def calls (ctx : I.Ctx) : List Call → C (I.Ctx × List (List Byte))
  | [] => .ok (ctx, [])
  | .update x :: rest => do
    let ctx ← I.update ctx (some x) x.length
    calls ctx rest
  | .digest out :: rest => do
    let r ← I.digest ctx out
    let s ← calls r.1 rest
    .ok (s.1, r.2 :: s.2)

end HashImpl
end Pgfe.Model
