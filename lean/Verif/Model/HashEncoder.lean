import Verif.Model.Hmac
import Verif.Model.SdArgs
/-!
# Model of the C++ classes `HashEncoder` and `HMACEncoder`

`src/hashes/hash_encoder.cpp`, `src/hmac/hmac_encoder.cpp`, `src/core/algorithm_selectable.cpp`,
`include/libpgfe/abstract_encoder.hpp`, `include/libpgfe/hashes/abstract_hash_encoder.hpp`.

Members without an initialiser (`cur_alg`, `digsz`, `blocksz`, the union of contexts) have an arbitrary
value at the beginning of a constructor; memory obtained with `new` and local arrays have arbitrary
contents.  All of these are parameters.  The classes cannot be copied (a member is a
`std::unique_ptr`).  `std::bad_alloc` is treated in Model/HashThrow.lean; stack exhaustion by a huge local
array is not modelled.
-/
namespace Pgfe.Model

/-- The encoder classes, include/libpgfe/abstract_encoder.hpp:23,
include/libpgfe/hashes/abstract_hash_encoder.hpp:25, include/libpgfe/hashes/hash_encoder.hpp:24,
include/libpgfe/hmac/hmac_encoder.hpp:24. -/
inductive Cls where
  | AbstractEncoder | AbstractHashEncoder | HashEncoder | HMACEncoder
  deriving DecidableEq, Repr

/-- The signatures of member functions: `reset()`, the four `update`, `get_digest()` and
`get_digest(uint64_t)`. -/
inductive Sig where
  | reset | updateSeq | updateCStr | updateStr | updateSd | getDigest | getDigestBits
  deriving DecidableEq, Repr

/-- The base class; `AlgorithmSelectable` has none of these functions. -/
def Cls.base : Cls → Option Cls
  | .AbstractEncoder => none
  | .AbstractHashEncoder => some .AbstractEncoder
  | .HashEncoder => some .AbstractHashEncoder
  | .HMACEncoder => some .AbstractHashEncoder

/-- The functions a class declares: include/libpgfe/abstract_encoder.hpp:26-43,
include/libpgfe/hashes/hash_encoder.hpp:45-52, include/libpgfe/hmac/hmac_encoder.hpp:59-64. -/
def Cls.declares : Cls → List Sig
  | .AbstractEncoder => [.reset, .updateSeq, .updateCStr, .updateStr, .updateSd, .getDigest]
  | .AbstractHashEncoder => []
  | .HashEncoder => [.reset, .updateSeq, .updateCStr, .updateStr, .updateSd, .getDigestBits]
  | .HMACEncoder => [.updateSeq, .updateCStr, .updateStr, .updateSd, .getDigest]

/-- The class whose definition a virtual call through a reference to `AbstractEncoder` executes (C++ rules:
the most derived class that declares a function of the same signature).  Three classes on a path suffice. -/
def Cls.finalOverrider (dyn : Cls) (s : Sig) : Option Cls :=
  if s ∈ dyn.declares then some dyn
  else match dyn.base with
    | none => none
    | some c =>
      if s ∈ c.declares then some c
      else match c.base with
        | none => none
        | some d => if s ∈ d.declares then some d else none

/-- `pgfe_<name>_digest` of the algorithm, given the length in bits as further argument for the four
SHAKE variants: the cases of `__PGFE_BATCH_SHAKE_CASES(DIGEST_FUNC_CALL_LIMIT)` and
`__PGFE_BATCH_CASES_SP(cur_alg, DIGEST_FUNC_CALL)`, src/hashes/hash_encoder.cpp:36-44, 117-122. -/
def Alg.digestWith (a : Alg) (bits : Nat) : (a.impl 0).Ctx → List Byte → C ((a.impl 0).Ctx × List Byte) :=
  match a with
  | .RawSHAKE128 => (rawshake128Impl bits).digest
  | .SHAKE128 => (shake128Impl bits).digest
  | .RawSHAKE256 => (rawshake256Impl bits).digest
  | .SHAKE256 => (shake256Impl bits).digest
  | .MD5 => (Alg.impl .MD5 0).digest
  | .SHA1 => (Alg.impl .SHA1 0).digest
  | .SHA224 => (Alg.impl .SHA224 0).digest
  | .SHA256 => (Alg.impl .SHA256 0).digest
  | .SHA384 => (Alg.impl .SHA384 0).digest
  | .SHA512 => (Alg.impl .SHA512 0).digest
  | .SHA512_224 => (Alg.impl .SHA512_224 0).digest
  | .SHA512_256 => (Alg.impl .SHA512_256 0).digest
  | .SHA3_224 => (Alg.impl .SHA3_224 0).digest
  | .SHA3_256 => (Alg.impl .SHA3_256 0).digest
  | .SHA3_384 => (Alg.impl .SHA3_384 0).digest
  | .SHA3_512 => (Alg.impl .SHA3_512 0).digest

/-- The `void *ctx` of `HashEncoder`, include/libpgfe/hashes/hash_encoder.hpp:28: null, the address of a
context of the given algorithm, or of one that was deleted. -/
inductive CtxPtr where
  | null
  | live (a : Alg) (c : (a.impl 0).Ctx)
  | dangling

/-- A `HashEncoder` object: `cur_alg`, include/libpgfe/algorithm_selectable.hpp:22 (`none`: a value that
is no enumerator), `ctx`, `out`, include/libpgfe/hashes/hash_encoder.hpp:28-30, `digsz`, `blocksz`,
include/libpgfe/hashes/abstract_hash_encoder.hpp:28. -/
structure HashEnc where
  curAlg : Option Alg
  ctx : CtxPtr
  digsz : Nat
  blocksz : Nat
  out : Option (List Byte)

/-- The contents of the memory that `new` delivers for a context. -/
abbrev Heap := (a : Alg) → (a.impl 0).Ctx

namespace HashEnc

/-- `HashEncoder::destroy_context`, src/hashes/hash_encoder.cpp:50-54.  The pointer keeps its value.
Deleting an object twice or as an object of another type is undefined. -/
def destroyContext (o : HashEnc) : C HashEnc :=
  match o.ctx with
  | .null => .ok o
  | p =>
    match o.curAlg with
    | none => .ok o
    | some a =>
      match p with
      | .live b _ => if a = b then .ok { o with ctx := .dangling } else .error .badPtr
      | _ => .error .badPtr

/-- `HashEncoder::load_algorithm`, src/hashes/hash_encoder.cpp:60-64. -/
def loadAlgorithm (heap : Heap) (o : HashEnc) : C HashEnc :=
  match o.curAlg with
  | none => .ok o
  | some a => do
    let c ← (a.impl 0).init (heap a)
    .ok { o with ctx := .live a c, digsz := a.digestSize, blocksz := a.blockSize }

/-- `HashEncoder::reset`, src/hashes/hash_encoder.cpp:66-69; `init`, lines 71-73, is the same. -/
def reset (heap : Heap) (o : HashEnc) : C HashEnc := do
  let o ← destroyContext o
  loadAlgorithm heap o

/-- `AlgorithmSelectable::select_algorithm`, src/core/algorithm_selectable.cpp:12-18, in a
`HashEncoder`: `before_change_alg` is `destroy_context`, src/hashes/hash_encoder.cpp:56-58;
`after_change_alg` does nothing. -/
def selectAlgorithm (choice : Alg) (o : HashEnc) : C HashEnc :=
  if o.curAlg = some choice then .ok o
  else do
    let o ← destroyContext o
    .ok { o with curAlg := some choice }

/-- `HashEncoder::HashEncoder`, src/hashes/hash_encoder.cpp:75-78; `g` is the indeterminate content of the
object's memory, of which `ctx` and `out` are initialised to null by the class definition. -/
def construct (heap : Heap) (g : HashEnc) (choice : Alg) : C HashEnc := do
  let o ← selectAlgorithm choice { g with ctx := .null, out := none }
  reset heap o

/-- `HashEncoder::~HashEncoder`, src/hashes/hash_encoder.cpp:80-82. -/
def destruct (o : HashEnc) : C Unit := do
  let _ ← destroyContext o
  .ok ()

/-- `HashEncoder::update(const pgfe_encode_t *, size_t)`, src/hashes/hash_encoder.cpp:84-86.  (For a value
of `cur_alg` that is no enumerator nothing happens.) -/
def update (o : HashEnc) (seq : List Byte) (length : Nat) : C HashEnc :=
  match o.curAlg with
  | none => .ok o
  | some a =>
    match o.ctx with
    | .null => .error .nullDeref
    | .dangling => .error .badPtr
    | .live b c =>
      if a = b then do
        let c ← (b.impl 0).update c (some seq) length
        .ok { o with ctx := .live b c }
      else .error .badPtr

/-- `AbstractEncoder::update(const char *)`, include/libpgfe/abstract_encoder.hpp:30-32, which
`HashEncoder::update(const char *)`, src/hashes/hash_encoder.cpp:88-90, calls. -/
def updateC (o : HashEnc) (mem : List Byte) : C HashEnc := do
  let n ← strlen mem
  update o mem n

/-- `AbstractEncoder::update(std::string &)`, include/libpgfe/abstract_encoder.hpp:33-35, which
src/hashes/hash_encoder.cpp:92-94 calls: the length is that of the object; the text of a `std::string` is
followed by a zero byte in memory. -/
def updateS (o : HashEnc) (s : List Byte) : C HashEnc := update o (s ++ [0#8]) s.length

/-- `AbstractEncoder::update(SequentialData &)`, include/libpgfe/abstract_encoder.hpp:36-39, which
src/hashes/hash_encoder.cpp:96-98 calls. -/
def updateSd (ord : ArgOrder) (o : HashEnc) (s : List Byte) : C HashEnc := do
  let x ← sdArgs ord s
  update o x.1 x.2

/-- The four algorithms that set `shake_flag`, src/hashes/hash_encoder.cpp:101-102. -/
def shakeFlag (o : HashEnc) : Bool :=
  o.curAlg = some .SHAKE128 || o.curAlg = some .RawSHAKE128 || o.curAlg = some .SHAKE256 ||
    o.curAlg = some .RawSHAKE256

/-- The default of `bitlength`, src/hashes/hash_encoder.cpp:105-112. -/
def effectiveBits (o : HashEnc) (bits : Nat) : Nat :=
  if bits = 0 then
    if o.curAlg = some .SHAKE128 ∨ o.curAlg = some .RawSHAKE128 then 256
    else if o.curAlg = some .SHAKE256 ∨ o.curAlg = some .RawSHAKE256 then 512
    else bits
  else bits

/-- The value of `length`, src/hashes/hash_encoder.cpp:103, 114; `to_byte` and `bit_rem` are
include/libpgfe/generic.h:26-28. -/
def bufferLength (o : HashEnc) (bits : Nat) : Nat :=
  let inLen := bits / 8 + bits % 8
  if shakeFlag o then inLen
  else if inLen < o.digsz ∧ effectiveBits o bits ≠ 0 then inLen else o.digsz

/-- `HashEncoder::get_digest`, src/hashes/hash_encoder.cpp:100-126; `stack` is the content of the memory in
which the array `seq` lies.  A length of 0 gives an array without elements.  For a value of `cur_alg` that
is no enumerator nothing is written.  Returns the object and the value of `*out`. -/
def getDigest (o : HashEnc) (bits : Nat) (stack : Nat → Byte) : C (HashEnc × List Byte) :=
  let length := bufferLength o bits
  let seq := (List.range length).map stack
  match o.curAlg with
  | none => .ok ({ o with out := some seq }, seq)
  | some a =>
    match o.ctx with
    | .null => .error .nullDeref
    | .dangling => .error .badPtr
    | .live b c =>
      if a = b then do
        let r ← b.digestWith (effectiveBits o bits) c seq
        .ok ({ o with ctx := .live b r.1, out := some r.2 }, r.2)
      else .error .badPtr

/-- A call of a public member function that changes the object. -/
inductive Call where
  | update (seq : List Byte)
  | updateC (mem : List Byte)
  | updateS (s : List Byte)
  | updateSd (ord : ArgOrder) (s : List Byte)
  | reset (heap : Heap)
  | getDigest (bits : Nat) (stack : Nat → Byte)

/-- Any sequence of calls; returns the object and what the `get_digest` calls returned. -/
def calls (o : HashEnc) : List Call → C (HashEnc × List (List Byte))
  | [] => .ok (o, [])
  | .update x :: rest => do
    let o ← update o x x.length
    calls o rest
  | .updateC x :: rest => do
    let o ← updateC o x
    calls o rest
  | .updateS x :: rest => do
    let o ← updateS o x
    calls o rest
  | .updateSd ord x :: rest => do
    let o ← updateSd ord o x
    calls o rest
  | .reset heap :: rest => do
    let o ← reset heap o
    calls o rest
  | .getDigest bits stack :: rest => do
    let r ← getDigest o bits stack
    let s ← calls r.1 rest
    .ok (s.1, r.2 :: s.2)

/-- The life of an object: construction, calls, destruction. -/
def life (heap : Heap) (g : HashEnc) (choice : Alg) (l : List Call) : C (List (List Byte)) := do
  let o ← construct heap g choice
  let r ← calls o l
  destruct r.1
  .ok r.2

/-- `get_digest()` called through a reference to `AbstractEncoder` or `AbstractHashEncoder` on a
`HashEncoder`: the function of `AbstractEncoder`, include/libpgfe/abstract_encoder.hpp:41-43, returns the null
pointer (`none`). -/
def getDigestVirtual (o : HashEnc) (stack : Nat → Byte) : C (HashEnc × Option (List Byte)) :=
  match Cls.finalOverrider .HashEncoder .getDigest with
  | some .HashEncoder => do
    let r ← getDigest o 0 stack
    .ok (r.1, some r.2)
  | _ => .ok (o, none)

end HashEnc

/-- An `HMACEncoder` object, include/libpgfe/hmac/hmac_encoder.hpp:27-43, with the inherited members.  The
union is represented by what its bytes mean for each of its members; a write to one member leaves the
representation of the others as it was (simplification: no code reads a member other than the one of
`cur_alg`, and `cur_alg` does not change after construction). -/
structure HmacEnc where
  curAlg : Option Alg
  ctx : (a : Alg) → HmacCtx (a.impl 0)
  digsz : Nat
  blocksz : Nat
  output : Option (List Byte)

namespace HmacEnc

/-- Assignment to a member of the union, include/libpgfe/hmac/hmac_encoder.hpp:27-41. -/
def setCtx (o : HmacEnc) (a : Alg) (c : HmacCtx (a.impl 0)) : HmacEnc :=
  { o with ctx := fun b => if h : b = a then h ▸ c else o.ctx b }

/-- The algorithms with a case in `__PGFE_BATCH_CASES_SP`, src/core/generic-internal.h:66-82. -/
def spCase : Alg → Bool
  | .RawSHAKE128 | .SHAKE128 | .RawSHAKE256 | .SHAKE256 => false
  | _ => true

/-- `HMACEncoder::after_change_alg`, src/hmac/hmac_encoder.cpp:58-61. -/
def afterChangeAlg (o : HmacEnc) : C HmacEnc :=
  match o.curAlg with
  | none => .ok o
  | some a =>
    if spCase a then do
      let c ← HmacCtx.init (a.impl 0) a.blockSize (o.ctx a)
      .ok { setCtx o a c with digsz := a.digestSize, blocksz := a.blockSize }
    else .ok o

/-- `AlgorithmSelectable::select_algorithm`, src/core/algorithm_selectable.cpp:12-18, in an
`HMACEncoder`. -/
def selectAlgorithm (choice : Alg) (o : HmacEnc) : C HmacEnc :=
  if o.curAlg = some choice then .ok o
  else afterChangeAlg { o with curAlg := some choice }

/-- `HMACEncoder::set_key(const pgfe_encode_t *, size_t)`, src/hmac/hmac_encoder.cpp:63-65. -/
def setKey (o : HmacEnc) (seq : List Byte) (length : Nat) : C HmacEnc :=
  match o.curAlg with
  | none => .ok o
  | some a =>
    if spCase a then do
      let c ← HmacCtx.setKey (a.impl 0) a.blockSize (o.ctx a) seq length
      .ok (setCtx o a c)
    else .ok o

/-- `HMACEncoder::HMACEncoder(pgfe_algorithm_choice, const pgfe_encode_t *, size_t)`,
src/hmac/hmac_encoder.cpp:38-41; `g` is the indeterminate content of the object's memory, of which `output`
is initialised to null. -/
def construct (g : HmacEnc) (choice : Alg) (key : List Byte) (length : Nat) : C HmacEnc := do
  let o ← selectAlgorithm choice { g with output := none }
  setKey o key length

/-- `HMACEncoder::HMACEncoder(pgfe_algorithm_choice, const char *)`, src/hmac/hmac_encoder.cpp:43-46,
67-69. -/
def constructC (g : HmacEnc) (choice : Alg) (mem : List Byte) : C HmacEnc := do
  let o ← selectAlgorithm choice { g with output := none }
  let n ← strlen mem
  setKey o mem n

/-- `HMACEncoder::HMACEncoder(pgfe_algorithm_choice, std::string &)`, src/hmac/hmac_encoder.cpp:48-51, 71-73. -/
def constructS (g : HmacEnc) (choice : Alg) (s : List Byte) : C HmacEnc := do
  let o ← selectAlgorithm choice { g with output := none }
  setKey o (s ++ [0#8]) s.length

/-- `HMACEncoder::HMACEncoder(pgfe_algorithm_choice, SequentialData &)`, src/hmac/hmac_encoder.cpp:53-56,
75-78. -/
def constructSd (ord : ArgOrder) (g : HmacEnc) (choice : Alg) (s : List Byte) : C HmacEnc := do
  let o ← selectAlgorithm choice { g with output := none }
  let x ← sdArgs ord s
  setKey o x.1 x.2

/-- `HMACEncoder::update(const pgfe_encode_t *, size_t)`, src/hmac/hmac_encoder.cpp:80-82. -/
def update (o : HmacEnc) (seq : List Byte) (length : Nat) : C HmacEnc :=
  match o.curAlg with
  | none => .ok o
  | some a =>
    if spCase a then do
      let c ← HmacCtx.update (a.impl 0) (o.ctx a) (some seq) length
      .ok (setCtx o a c)
    else .ok o

/-- `HMACEncoder::update(const char *)`, src/hmac/hmac_encoder.cpp:84-86. -/
def updateC (o : HmacEnc) (mem : List Byte) : C HmacEnc := do
  let n ← strlen mem
  update o mem n

/-- `HMACEncoder::update(std::string &)`, src/hmac/hmac_encoder.cpp:88-90. -/
def updateS (o : HmacEnc) (s : List Byte) : C HmacEnc := update o (s ++ [0#8]) s.length

/-- `HMACEncoder::update(SequentialData &)`, src/hmac/hmac_encoder.cpp:92-94, which calls
`AbstractEncoder::update(SequentialData &)`, include/libpgfe/abstract_encoder.hpp:36-39. -/
def updateSd (ord : ArgOrder) (o : HmacEnc) (s : List Byte) : C HmacEnc := do
  let x ← sdArgs ord s
  update o x.1 x.2

/-- `reset()` of an `HMACEncoder`: the class does not override `AbstractEncoder::reset`,
include/libpgfe/abstract_encoder.hpp:26, whose body is empty. -/
def reset (o : HmacEnc) : C HmacEnc :=
  match Cls.finalOverrider .HMACEncoder .reset with
  | some .HMACEncoder => .error .diverge -- no such definition exists
  | _ => .ok o

/-- The contents of the uninitialised locals of a `get_digest` call: `out`, src/hmac/hmac_encoder.cpp:19, and
those of `pgfe_hmac_<name>_digest`. -/
structure Stack where
  out : Nat → Byte
  mid : List Byte
  inner : (a : Alg) → (a.impl 0).Ctx

/-- `HMACEncoder::get_digest`, src/hmac/hmac_encoder.cpp:96-99, 17-22: `none` is the null pointer. -/
def getDigest (o : HmacEnc) (g : Stack) : C (HmacEnc × Option (List Byte)) :=
  match o.curAlg with
  | none => .ok (o, o.output)
  | some a =>
    if spCase a then do
      let r ← HmacCtx.digest (a.impl 0) a.blockSize a.digestSize g.mid (g.inner a) (o.ctx a)
        ((List.range a.digestSize).map g.out)
      .ok ({ setCtx o a r.1 with output := some r.2 }, some r.2)
    else .ok (o, o.output)

/-- A call of a public member function that changes the object. -/
inductive Call where
  | update (seq : List Byte)
  | updateC (mem : List Byte)
  | updateS (s : List Byte)
  | updateSd (ord : ArgOrder) (s : List Byte)
  | reset
  | getDigest (g : Stack)

/-- Any sequence of calls; returns the object and what the `get_digest` calls returned. -/
def calls (o : HmacEnc) : List Call → C (HmacEnc × List (Option (List Byte)))
  | [] => .ok (o, [])
  | .update x :: rest => do
    let o ← update o x x.length
    calls o rest
  | .updateC x :: rest => do
    let o ← updateC o x
    calls o rest
  | .updateS x :: rest => do
    let o ← updateS o x
    calls o rest
  | .updateSd ord x :: rest => do
    let o ← updateSd ord o x
    calls o rest
  | .reset :: rest => do
    let o ← reset o
    calls o rest
  | .getDigest g :: rest => do
    let r ← getDigest o g
    let s ← calls r.1 rest
    .ok (s.1, r.2 :: s.2)

end HmacEnc
end Pgfe.Model
