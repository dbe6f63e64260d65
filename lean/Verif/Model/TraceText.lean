import Verif.Model.Trace
import Verif.Model.Base
/-!
# The traces of the text functions

As Model/Trace, for the base encodings (src/base_encoding) and the hexadecimal parser (src/core/utils.c).
Names of arrays: `input` is the text to decode, or the data to encode; `output` the output array; `unit` the local
array `o_unit`; `buf`, `x` and `ws` the local arrays `input_unit`, `unit_split` and `unit_s`; `K` the alphabet.
Characters are compared as bytes (see C98 for signed `char`).
-/
namespace Pgfe.Model
namespace Tr.Text

/-- `c >= lo && c <= hi`. -/
def inRange (c lo hi : Byte) : T Bool := do
  let a ← T.br (decide (lo ≤ c))
  if a then T.br (decide (c ≤ hi)) else pure false

/-- `c == d`. -/
def eq (c d : Byte) : T Bool := T.br (decide (c = d))

/-- `c == d || c == e`. -/
def eqOr (c d e : Byte) : T Bool := do
  let a ← eq c d
  if a then pure true else eq c e

/-- `decode_base16_char`, src/base_encoding/base16.c:16-33. -/
def decodeBase16Char (c : Byte) : T Byte := do
  let r ← inRange c 0x30#8 0x39#8
  if r then pure (c - 0x30#8) else do
  let r ← inRange c 0x41#8 0x46#8
  if r then pure (c - 0x41#8 + 10#8) else do
  let r ← inRange c 0x61#8 0x66#8
  if r then pure (c - 0x61#8 + 10#8) else pure unknownCode

/-- `decode_base32_char`, src/base_encoding/base32.c:27-47. -/
def decodeBase32Char (c : Byte) : T Byte := do
  let r ← inRange c 0x32#8 0x37#8
  if r then pure (c - 0x32#8 + 26#8) else do
  let r ← inRange c 0x41#8 0x5A#8
  if r then pure (c - 0x41#8) else do
  let r ← inRange c 0x61#8 0x7A#8
  if r then pure (c - 0x61#8) else do
  let r ← eq c 0x3D#8
  if r then pure 0x00#8 else pure unknownCode

/-- `decode_base32hex_char`, src/base_encoding/base32.c:49-69. -/
def decodeBase32HexChar (c : Byte) : T Byte := do
  let r ← inRange c 0x30#8 0x39#8
  if r then pure (c - 0x30#8) else do
  let r ← inRange c 0x41#8 0x56#8
  if r then pure (c - 0x41#8 + 10#8) else do
  let r ← inRange c 0x61#8 0x76#8
  if r then pure (c - 0x61#8 + 10#8) else do
  let r ← eq c 0x3D#8
  if r then pure 0x00#8 else pure unknownCode

/-- `decode_base64_char`, src/base_encoding/base64.c:30-56. -/
def decodeBase64Char (c : Byte) : T Byte := do
  let r ← inRange c 0x61#8 0x7A#8
  if r then pure (c - 0x61#8 + 26#8) else do
  let r ← inRange c 0x30#8 0x39#8
  if r then pure (c - 0x30#8 + 52#8) else do
  let r ← inRange c 0x41#8 0x5A#8
  if r then pure (c - 0x41#8) else do
  let r ← eqOr c 0x2B#8 0x2D#8
  if r then pure 62#8 else do
  let r ← eqOr c 0x2F#8 0x5F#8
  if r then pure 63#8 else do
  let r ← eq c 0x3D#8
  if r then pure 0x00#8 else pure unknownCode

/-- Decoding functions used by the decoders; src/base_encoding/base16.c:39-41, base32.c:79-85,
base64.c:66-68. -/
def charFn : BaseAlg → Byte → T Byte
  | .base16 => decodeBase16Char
  | .base32 => decodeBase32Char
  | .base32hex => decodeBase32HexChar
  | .base64 | .base64url => decodeBase64Char

/-- `*sp`: the character at index `sp` of the text; `rest` is the text from there. -/
def peek (sp : Nat) (rest : List Byte) : T Byte := ⟨Pgfe.rd rest 0, [.rd .input sp 1]⟩

/-- Inner loop of `decode_base_generic`, src/base_encoding/base-encoding-internal.c:115-126.  `rest` is the text
from index `sp`.  Returns both, `i` and `u`. -/
def decGroup (P : BaseParams) (func : Byte → T Byte) :
    List Byte → Nat → Nat → W64 → T (List Byte × Nat × Nat × W64)
  | [], sp, _, _ => do
    let _ ← peek sp []
    T.fail .oobRead
  | c :: rest, sp, i, u => do
    let c ← peek sp (c :: rest)
    let go ← T.br (decide (c ≠ 0#8))
    let go ← (if go then T.br (decide (i < P.chunkCount)) else pure false)
    if go then do
      let c ← peek sp (c :: rest)
      let ch ← func c
      let unk ← T.br (decide (ch &&& 0xC0#8 = unknownCode))
      let u' := (u <<< P.bitSize) ||| (ch &&& mkmask P.bitSize).setWidth 64
      if unk then decGroup P func rest (sp + 1) i u else decGroup P func rest (sp + 1) (i + 1) u'
    else pure (c :: rest, sp, i, u)

/-- The loop filling `o_unit`, src/base_encoding/base-encoding-internal.c:132-134. -/
def unitBytes (P : BaseParams) (u : W64) : T (List Byte) :=
  T.forN P.unitSize (fun j unit =>
    T.push .unit unit (((u >>> (8 * (P.unitSize - j - 1))) &&& 0xFF#64).setWidth 8)) []

/-- The rest of the body of the outer loop of `decode_base_generic`,
src/base_encoding/base-encoding-internal.c:128-137, followed by `next`. -/
def afterGroup {α : Type} (P : BaseParams)
    (next : List Byte → Nat → W64 → Nat → List Byte → Option (List Byte) → T α) (op : Nat) (out : List Byte)
    (g : List Byte × Nat × Nat × W64) : T α := do
  let (rest, sp, i, u) := g
  let c ← peek sp rest
  let fin ← T.br (decide (c = 0#8))
  let fin ← (if fin then T.br (decide (i < P.chunkCount)) else pure false)
  let u := if fin then u <<< (P.bitSize * (P.chunkCount - i)) else u
  let unit ← unitBytes P u
  let src ← T.rds .unit unit 0 P.unitSize
  let out ← T.wrs .output out op src
  next rest sp u (op + P.unitSize) out (some unit)

/-- Outer loop of `decode_base_generic`, src/base_encoding/base-encoding-internal.c:114-138.  The first argument
bounds the number of iterations, as in the model. -/
def decLoop (P : BaseParams) (func : Byte → T Byte) :
    Nat → List Byte → Nat → W64 → Nat → List Byte → Option (List Byte) →
      T (Nat × List Byte × Option (List Byte))
  | 0, _, _, _, _, _, _ => T.fail .diverge
  | fuel + 1, rest, sp, u, op, out, oUnit => do
    let c ← peek sp rest
    let go ← T.br (decide (c ≠ 0#8))
    if go then do
      let g ← decGroup P func rest sp 0 u
      afterGroup P (decLoop P func fuel) op out g
    else pure (op, out, oUnit)

/-- The loop of src/base_encoding/base-encoding-internal.c:142. -/
def countLoop (out oUnit : List Byte) (op : Nat) : Nat → Nat → T Nat
  | 0, i => do
    let _ ← T.br false
    pure i
  | k + 1, i => do
    let _ ← T.br true
    let b ← T.rd .output out (op + i)
    let o ← T.rd .unit oUnit i
    let e ← T.br (decide (b = o))
    let e ← (if e then T.br (decide (b ≠ 0#8)) else pure false)
    if e then countLoop out oUnit op k (i + 1) else pure i

/-- `decode_base_generic`, src/base_encoding/base-encoding-internal.c:104-147. -/
def decodeBase (P : BaseParams) (func : Byte → T Byte) (cs out : List Byte) : T (Nat × List Byte) := do
  let (op, out, oUnit) ← decLoop P func (cs.length + 1) cs 0 0#64 0 out none
  match oUnit with
  | none => T.fail .oobRead
  | some oUnit => do
    let op := op - P.unitSize
    let i ← countLoop out oUnit op P.unitSize 0
    let out ← T.wr .output out (op + i) 0#8
    pure (op + i, out)

/-- `pgfe_decode_base16` … `pgfe_decode_base64`; src/base_encoding/base16.c:39-41, base32.c:79-85,
base64.c:66-68. -/
def decode (a : BaseAlg) (cs out : List Byte) : T (Nat × List Byte) := decodeBase a.params (charFn a) cs out

/-! ### Hexadecimal texts -/

/-- `ch2hex`, src/core/generic-internal.c:22-38. -/
def ch2hex (c : Byte) : T Byte := do
  let r ← inRange c 0x30#8 0x39#8
  if r then pure (c - 0x30#8) else do
  let r ← inRange c 0x41#8 0x46#8
  if r then pure (c - 0x41#8 + 10) else do
  let r ← inRange c 0x61#8 0x66#8
  if r then pure (c - 0x61#8 + 10) else pure hexUnknown

/-- The loop of `pgfe_hex_string_to_hash`, src/core/utils.c:46-63; `rest` is the text from index `sp`. -/
def hexLoop : List Byte → Nat → Bool → Byte → Nat → List Byte → T (Nat × List Byte)
  | [], sp, _, _, _, _ => do
    let _ ← peek sp []
    T.fail .oobRead
  | c :: rest, sp, odd, hexu, op, out => do
    let c ← peek sp (c :: rest)
    let go ← T.br (decide (c ≠ 0#8))
    if go then do
      let c ← peek sp (c :: rest)
      let t ← ch2hex c
      let unk ← T.br (decide (t = hexUnknown))
      if unk then hexLoop rest (sp + 1) odd hexu op out
      else do
        let hexu := hexu ||| t
        let odd ← T.br odd
        if odd then do
          let out ← T.wr .output out op hexu
          hexLoop rest (sp + 1) false 0 (op + 1) out
        else hexLoop rest (sp + 1) true (hexu <<< 4) op out
    else pure (op, out)

/-- `strlen` of the C library (external): reads the text up to its end. -/
def strlen : List Byte → Nat → T Nat
  | [], sp => do
    let _ ← peek sp []
    T.fail .oobRead
  | c :: r, sp => do
    let c ← peek sp (c :: r)
    let z ← T.br (decide (c = 0#8))
    if z then pure 0 else do
      let n ← strlen r (sp + 1)
      pure (n + 1)

/-- The access `sp[hash_str_len - 1]` of src/core/utils.c:41, see `rdBefore`. -/
def rdBefore (b : List Byte) (i : Nat) : T Byte := ⟨Model.rdBefore b i, [.rd .input (i - 1) 1]⟩

/-- `pgfe_hex_string_to_hash`, src/core/utils.c:29-66. -/
def hexStringToHash (hashS out : List Byte) : T (Nat × List Byte) := do
  let len ← strlen hashS 0
  let tpc ← T.rd .input hashS 1
  let two ← T.br (decide (2 ≤ len))
  let x ← (if two then eqOr tpc 0x78#8 0x58#8 else pure false)
  let off := if x then 2 else 0
  let len := if x then len - 2 else len
  let tpc ← rdBefore hashS (off + len)
  let h ← eqOr tpc 0x68#8 0x48#8
  let len := if h then len - 1 else len
  hexLoop (hashS.drop off) off (len % 2 == 1) 0 0 out

/-! ### Encoding -/

/-- The loop of `transform`, src/base_encoding/base-encoding-internal.c:26-45. -/
def transformLoop (input : List Byte) (length chunkSize : Nat) :
    Nat → (low high inp op : Nat) → List Byte → T (Nat × List Byte)
  | 0, _, _, _, _, _ => T.fail .diverge
  | fuel + 1, low, high, inp, op, out => do
    let go ← T.br (decide (inp ≤ length))
    if go then do
      let first ← T.br (decide (low < high))
      if first then do
        let b ← T.rd .buf input inp
        let out ← T.wr .x out op ((b >>> (8 - high)) &&& mkmask chunkSize)
        transformLoop input length chunkSize fuel ((low + chunkSize) % 8) ((high + chunkSize) % 8)
          inp (op + 1) out
      else do
        let second ← T.br (decide (high = 0))
        if second then do
          let b ← T.rd .buf input inp
          let out ← T.wr .x out op (b &&& mkmask chunkSize)
          transformLoop input length chunkSize fuel ((low + chunkSize) % 8) ((high + chunkSize) % 8)
            (inp + 1) (op + 1) out
        else do
          let b ← T.rd .buf input inp
          let v := (b &&& mkmask (8 - low)) <<< (chunkSize - (8 - low))
          let more ← T.br (decide (inp + 1 < length))
          if more then do
            let b' ← T.rd .buf input (inp + 1)
            let out ← T.wr .x out op (v ||| ((b' >>> (8 - high)) &&& mkmask high))
            transformLoop input length chunkSize fuel ((low + chunkSize) % 8)
              ((high + chunkSize) % 8) (inp + 1) (op + 1) out
          else do
            let out ← T.wr .x out op v
            transformLoop input length chunkSize fuel ((low + chunkSize) % 8)
              ((high + chunkSize) % 8) (inp + 1) (op + 1) out
    else pure (op, out)

/-- `transform`, src/base_encoding/base-encoding-internal.c:19-48. -/
def transform (input : List Byte) (length chunkSize : Nat) (out : List Byte) : T (Nat × List Byte) :=
  transformLoop input length chunkSize (3 * (length + 2)) 0 (chunkSize % 8) 0 0 out

/-- The loop of src/base_encoding/base-encoding-internal.c:60-62: `alphabet[unit_split[i]]` for each element;
`i` is the index of the first one left. -/
def lookups (alphabet : List Byte) : List Byte → Nat → T (List Byte)
  | [], _ => do
    let _ ← T.br false
    pure []
  | v :: split, i => do
    let _ ← T.br true
    let v ← (⟨.ok v, [.rd .x i 1]⟩ : T Byte)
    let c ← T.rd .K alphabet v.toNat
    let c ← (⟨.ok c, [.wr .ws i 1]⟩ : T Byte)
    let r ← lookups alphabet split (i + 1)
    pure (c :: r)

/-- The padding loop of `unittostr`, src/base_encoding/base-encoding-internal.c:64-70.  `rev` is the reversed
remaining part of `unit_s`, so that its head has the index `rev.length - 1`. -/
def padLoop (alphabet : List Byte) (alphabetSize : Nat) : List Byte → T (List Byte)
  | [] => do
    let _ ← T.br false
    pure []
  | c :: rev => do
    let _ ← T.br true
    let c ← (⟨.ok c, [.rd .ws rev.length 1]⟩ : T Byte)
    let zero ← T.rd .K alphabet 0
    let ne ← T.br (decide (c ≠ zero))
    if ne then pure (c :: rev) else do
      let pad ← T.rd .K alphabet alphabetSize
      let pad ← (⟨.ok pad, [.wr .ws rev.length 1]⟩ : T Byte)
      let r ← padLoop alphabet alphabetSize rev
      pure (pad :: r)

/-- `unittostr`, src/base_encoding/base-encoding-internal.c:50-75; with the `memcpy` to `out + sp`.  The model reads
the two elements of the alphabet before the loop and thus reports an alphabet that is too short earlier; the
alphabets of the library are not. -/
def unittostr (S : Slack) (P : BaseParams) (garbage alphabet unit : List Byte) (padding : Bool)
    (csOut : List Byte) (sp : Nat) : T (List Byte) := do
  let r ← transform (unit ++ S.behindUnit) P.unitSize P.bitSize (garbage.take P.chunkCount ++ S.behindSplit)
  let unitS ← lookups alphabet (r.2.take P.chunkCount) 0
  let pad ← T.br padding
  let unitS ← (if pad then do
      let r ← padLoop alphabet P.alphabetSize unitS.reverse
      pure r.reverse
    else pure unitS)
  let src ← (⟨.ok unitS, [.rd .ws 0 unitS.length]⟩ : T (List Byte))
  T.wrs .output csOut sp src

/-- `encode_base_generic`, src/base_encoding/base-encoding-internal.c:77-102. -/
def encodeBase (S : Slack) (P : BaseParams) (garbage alphabet input : List Byte)
    (inputLength : Nat) (csOut : List Byte) : T (Nat × List Byte) := do
  let s ← T.forN ((inputLength + P.unitSize - 1) / P.unitSize) (fun k (s : Nat × List Byte) => do
    let i := k * P.unitSize
    let part ← T.br (decide (inputLength - i < P.unitSize))
    let unit ← (if part then do
        let zeros ← (⟨.ok (List.replicate P.unitSize 0#8), [.wr .buf 0 P.unitSize]⟩ : T (List Byte))
        let b ← T.rds .input input i (inputLength - i)
        T.wrs .buf zeros 0 b
      else do
        let b ← T.rds .input input i P.unitSize
        let b ← (⟨.ok b, [.wr .buf 0 P.unitSize]⟩ : T (List Byte))
        pure b)
    let csOut ← unittostr S P garbage alphabet unit part s.2 s.1
    pure (s.1 + P.chunkCount, csOut)) (0, csOut)
  let csOut ← T.wr .output s.2 s.1 0#8
  pure (s.1, csOut)

/-- `pgfe_encode_base16` … `pgfe_encode_base64_url`; src/base_encoding/base16.c:35-37, base32.c:71-77,
base64.c:58-64. -/
def encode (a : BaseAlg) (S : Slack) (garbage input : List Byte) (n : Nat) (out : List Byte) : T (Nat × List Byte) :=
  encodeBase S a.params garbage a.alphabet input n out

end Tr.Text
end Pgfe.Model
