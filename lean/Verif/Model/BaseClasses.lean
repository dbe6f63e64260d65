import Verif.Model.Double
/-!
# The classes `Base16`, `Base32`, `Base64`: constructors, accessors, overloads
-/
namespace Pgfe.Model

/-- An object by its constructor: `Base16()`, src/base_encoding/base16.cpp:28-30, `Base32(hex_mode)`,
base32.cpp:34-37, `Base64(url_safe_mode)`, base64.cpp:33-36. -/
inductive BaseKind where
  | b16
  | b32 (hexMode : Bool)
  | b64 (urlSafeMode : Bool)
  deriving DecidableEq, Repr

namespace BaseKind

/-- `encode_f`: `init_base_function`, base16.cpp:14-17, base32.cpp:14-23, base64.cpp:14-22. -/
def encF : BaseKind → BaseAlg
  | .b16 => .base16
  | .b32 hexm => if hexm then .base32hex else .base32
  | .b64 url => if url then .base64url else .base64

/-- `decode_f`, at the same places; `Base64` has one decode function. -/
def decF : BaseKind → BaseAlg
  | .b16 => .base16
  | .b32 hexm => if hexm then .base32hex else .base32
  | .b64 _ => .base64

/-- `unit_size()`, src/base_encoding/abstract_base_encoding.cpp:76-78, as set by `init_size`, base16.cpp:19-26,
base32.cpp:25-32, base64.cpp:24-31 with the macros in include/libpgfe/base_encoding/base16.h:10-13, base32.h:10-13,
base64.h:10-13. -/
def unitSize : BaseKind → Nat
  | .b16 => 1
  | .b32 _ => 5
  | .b64 _ => 3
/-- `chunk_size()`, abstract_base_encoding.cpp:80-82. -/
def chunkSize : BaseKind → Nat
  | .b16 => 2
  | .b32 _ => 8
  | .b64 _ => 4
/-- `bit_size()`, abstract_base_encoding.cpp:84-86. -/
def bitSize : BaseKind → Nat
  | .b16 => 4
  | .b32 _ => 5
  | .b64 _ => 6
/-- `alphabet_size()`, abstract_base_encoding.cpp:88-90. -/
def alphabetSize : BaseKind → Nat
  | .b16 => 16
  | .b32 _ => 32
  | .b64 _ => 64

/-- The object's encode side. -/
def encClass (k : BaseKind) : BaseClass := ⟨k.encF, encEstimate k.bitSize, decEstimate k.bitSize⟩
/-- The object's decode side. -/
def decClass (k : BaseKind) : BaseClass := ⟨k.decF, encEstimate k.bitSize, decEstimate k.bitSize⟩

end BaseKind

/-- `AbstractBaseEncoding::encode(const pgfe_encode_t *, size_t)`, abstract_base_encoding.cpp:23-39, for an array
`mem` of which the first `n` elements are to be encoded (`objEncode` is the case of an array of exactly that
size). -/
def objEncodeSeq (K : BaseClass) (S : Slack) (g mem : List Byte) (n : Nat) (o : BaseObj) :
    C (List Byte × BaseObj) := do
  let sz := K.encEst n
  let o := if o.encsz ≤ sz then encSetSize sz (encAlloc sz o) else o
  let r ← pgfeEncode K.alg S g mem n o.enCache
  let o ← encNul r.1 { o with enCache := r.2 }
  let s ← cstr o.enCache
  .ok (s, o)

/-- The argument of `encode`. -/
inductive EncArg where
  | seq (mem : List Byte) (length : Nat)
  | cs (mem : List Byte)
  | str (s : List Byte)
  | sd (s : List Byte)

/-- The overloads of `encode`, abstract_base_encoding.cpp:23, 41-43, 45-47, 49-51.  (The argument expressions of
line 50 do not depend on each other.) -/
def objEncodeArg (K : BaseClass) (S : Slack) (g : List Byte) (o : BaseObj) : EncArg → C (List Byte × BaseObj)
  | .seq mem n => objEncodeSeq K S g mem n o
  | .cs mem => do
    let n ← strlen mem
    objEncodeSeq K S g mem n o
  | .str s => objEncodeSeq K S g (s ++ [0#8]) s.length o
  | .sd s => objEncodeSeq K S g (s ++ [0#8]) s.length o

/-- The argument of `decode`. -/
inductive DecArg where
  | cs (mem : List Byte)
  | str (s : List Byte)

/-- The overloads of `decode`, abstract_base_encoding.cpp:53, 72-74.  (`objDecode` is given the text before the
NUL.) -/
def objDecodeArg (K : BaseClass) (o : BaseObj) : DecArg → C (List Byte × BaseObj)
  | .cs mem => do
    let s ← cstr mem
    objDecode K s o
  | .str s => do
    let s ← cstr (s ++ [0#8])
    objDecode K s o

/-- A member call on an object. -/
inductive BCall where
  | enc (slack : Slack) (garbage : List Byte) (arg : EncArg)
  | dec (arg : DecArg)

/-- One call. -/
def bcall (k : BaseKind) (o : BaseObj) : BCall → C (List Byte × BaseObj)
  | .enc S g arg => objEncodeArg k.encClass S g o arg
  | .dec arg => objDecodeArg k.decClass o arg

/-- A history of calls; the results in order. -/
def bcalls (k : BaseKind) : List BCall → BaseObj → C (List (List Byte) × BaseObj)
  | [], o => .ok ([], o)
  | c :: l, o => do
    let r ← bcall k o c
    let s ← bcalls k l r.2
    .ok (r.1 :: s.1, s.2)

end Pgfe.Model
