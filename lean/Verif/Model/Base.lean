import Verif.Model.Hex
/-!
# Model of `src/base_encoding/*.c`
-/
namespace Pgfe.Model

/-- `PGFE_BASE_PARAMS_DEF`, src/base_encoding/base-encoding-internal.h:27. -/
structure BaseParams where
  chunkCount : Nat
  unitSize : Nat
  bitSize : Nat
  alphabetSize : Nat

/-- include/libpgfe/base_encoding/base16.h:10-13. -/
def base16P : BaseParams := ⟨2, 1, 4, 16⟩
/-- include/libpgfe/base_encoding/base32.h:10-13. -/
def base32P : BaseParams := ⟨8, 5, 5, 32⟩
/-- include/libpgfe/base_encoding/base64.h:10-13. -/
def base64P : BaseParams := ⟨4, 3, 6, 64⟩

/-- `__mkmask(digit)`, src/base_encoding/base-encoding-internal.c:17 (`UINT8_MAX >> (8 - digit)`). -/
def mkmask (digit : Nat) : Byte := 0xFF#8 >>> (8 - digit)

/-- Memory lying directly behind the two scratch arrays of the encoder (`input_unit`,
`unit_split`), which the encoder overruns.  C gives it no meaning: with `slack = ⟨[], []⟩` (the
language's view) the overrun is undefined behaviour.  A compiler that rounds the arrays up to an
alignment of 16 bytes provides at least one readable and two writable bytes. -/
structure Slack where
  behindUnit : List Byte
  behindSplit : List Byte

/-- The language's view: nothing behind the arrays may be touched. -/
def strictC : Slack := ⟨[], []⟩

/-- The loop of `transform`, src/base_encoding/base-encoding-internal.c:26-45.  `inp`, `op` are
indices; the `inp--; inp++` of the first case is "stay".  The first argument bounds the number of
iterations (every second iteration advances `inp`). -/
def transformLoop (input : List Byte) (length chunkSize : Nat) :
    Nat → (low high inp op : Nat) → List Byte → C (Nat × List Byte)
  | 0, _, _, _, _, _ => .error .diverge
  | fuel + 1, low, high, inp, op, out =>
    if inp ≤ length then
      if low < high then do
        let b ← rd input inp
        let out ← wr out op ((b >>> (8 - high)) &&& mkmask chunkSize)
        transformLoop input length chunkSize fuel ((low + chunkSize) % 8) ((high + chunkSize) % 8)
          inp (op + 1) out
      else if high = 0 then do
        let b ← rd input inp
        let out ← wr out op (b &&& mkmask chunkSize)
        transformLoop input length chunkSize fuel ((low + chunkSize) % 8) ((high + chunkSize) % 8)
          (inp + 1) (op + 1) out
      else
        let szDiff := 8 - low
        let mvSz := chunkSize - szDiff
        if inp + 1 < length then do
          let b ← rd input inp
          let v := (b &&& mkmask szDiff) <<< mvSz
          let b' ← rd input (inp + 1)
          let out ← wr out op (v ||| ((b' >>> (8 - high)) &&& mkmask high))
          transformLoop input length chunkSize fuel ((low + chunkSize) % 8)
            ((high + chunkSize) % 8) (inp + 1) (op + 1) out
        else do
          let b ← rd input inp
          let out ← wr out op ((b &&& mkmask szDiff) <<< mvSz)
          transformLoop input length chunkSize fuel ((low + chunkSize) % 8)
            ((high + chunkSize) % 8) (inp + 1) (op + 1) out
    else .ok (op, out)

/-- `transform`, src/base_encoding/base-encoding-internal.c:19-48. -/
def transform (input : List Byte) (length chunkSize : Nat) (out : List Byte) :
    C (Nat × List Byte) :=
  transformLoop input length chunkSize (3 * (length + 2)) 0 (chunkSize % 8) 0 0 out

/-- The padding loop of `unittostr`, src/base_encoding/base-encoding-internal.c:64-70: from the
last character of `unit_s` downwards.  `rev` is the reversed remaining part. -/
def padLoop (zero pad : Byte) : List Byte → List Byte
  | [] => []
  | c :: rev => if c ≠ zero then c :: rev else pad :: padLoop zero pad rev

/-- `unittostr`, src/base_encoding/base-encoding-internal.c:50-75; returns the `chunk_count`
characters copied to `out`.  `garbage` is the initial contents of `unit_split`. -/
def unittostr (S : Slack) (P : BaseParams) (garbage alphabet unit : List Byte) (padding : Bool) :
    C (List Byte) := do
  let (_, split) ← transform (unit ++ S.behindUnit) P.unitSize P.bitSize
    (garbage.take P.chunkCount ++ S.behindSplit)
  let unitS ← (split.take P.chunkCount).mapM (fun v => rd alphabet v.toNat)
  if padding then do
    let zero ← rd alphabet 0
    let pad ← rd alphabet P.alphabetSize
    .ok (padLoop zero pad unitS.reverse).reverse
  else .ok unitS

/-- `encode_base_generic`, src/base_encoding/base-encoding-internal.c:77-102.  The loop variable `i`
takes the values `k * unit_size` below `input_length`.  Returns the length and the new contents of
`cs_out`. -/
def encodeBase (S : Slack) (P : BaseParams) (garbage alphabet input : List Byte)
    (inputLength : Nat) (csOut : List Byte) : C (Nat × List Byte) := do
  let (sp, csOut) ← forN ((inputLength + P.unitSize - 1) / P.unitSize) (fun k (sp, csOut) => do
    let i := k * P.unitSize
    let remain := inputLength - i
    let (unit, remain) ← if remain < P.unitSize then do
        let b ← rds input i remain
        .ok (splice (List.replicate P.unitSize 0#8) 0 b, remain)
      else do
        let b ← rds input i P.unitSize
        .ok (b, P.unitSize)
    let s ← unittostr S P garbage alphabet unit (P.unitSize - remain != 0)
    let csOut ← wrs csOut sp s
    .ok (sp + P.chunkCount, csOut)) (0, csOut)
  let csOut ← wr csOut sp 0#8
  .ok (sp, csOut)

/-- `UNKNOWN_CODE`, src/base_encoding/base-encoding-internal.h:22. -/
def unknownCode : Byte := 0xC0#8

/-- Inner loop of `decode_base_generic`, src/base_encoding/base-encoding-internal.c:115-126. -/
def decGroup (P : BaseParams) (func : Byte → Byte) :
    List Byte → Nat → W64 → C (List Byte × Nat × W64)
  | [], _, _ => .error .oobRead
  | c :: rest, i, u =>
    if c = 0#8 ∨ ¬ i < P.chunkCount then .ok (c :: rest, i, u)
    else
      let ch := func c
      if ch &&& 0xC0#8 = unknownCode then decGroup P func rest i u
      else decGroup P func rest (i + 1)
        ((u <<< P.bitSize) ||| (ch &&& mkmask P.bitSize).setWidth 64)

/-- The bytes of `o_unit`, src/base_encoding/base-encoding-internal.c:132-134. -/
def unitBytes (P : BaseParams) (u : W64) : List Byte :=
  (List.range P.unitSize).map (fun j => ((u >>> (8 * (P.unitSize - j - 1))) &&& 0xFF#64).setWidth 8)

/-- Outer loop of `decode_base_generic`, src/base_encoding/base-encoding-internal.c:114-138.  The
first argument bounds the number of iterations (each consumes a character).  Returns `op`, the
output array and `o_unit`. -/
def decLoop (P : BaseParams) (func : Byte → Byte) :
    Nat → List Byte → W64 → Nat → List Byte → Option (List Byte) →
      C (Nat × List Byte × Option (List Byte))
  | 0, _, _, _, _, _ => .error .diverge
  | _ + 1, [], _, _, _, _ => .error .oobRead
  | fuel + 1, c :: rest, u, op, out, oUnit =>
    if c = 0#8 then .ok (op, out, oUnit)
    else do
      let (sp, i, u) ← decGroup P func (c :: rest) 0 u
      let c' ← rd sp 0
      let u := if c' = 0#8 ∧ i < P.chunkCount then u <<< (P.bitSize * (P.chunkCount - i)) else u
      let unit := unitBytes P u
      let out ← wrs out op unit
      decLoop P func fuel sp u (op + P.unitSize) out (some unit)

/-- The loop of src/base_encoding/base-encoding-internal.c:142: count leading non-zero bytes of the
last unit in the output. -/
def countLoop (out oUnit : List Byte) (op : Nat) : Nat → Nat → C Nat
  | 0, i => .ok i
  | k + 1, i => do
    let b ← rd out (op + i)
    let o ← rd oUnit i
    if b = o ∧ b ≠ 0#8 then countLoop out oUnit op k (i + 1) else .ok i

/-- `decode_base_generic`, src/base_encoding/base-encoding-internal.c:104-147.  For the empty text
`op -= unit_size` leaves the output array and `op[0]` is read there. -/
def decodeBase (P : BaseParams) (func : Byte → Byte) (cs out : List Byte) :
    C (Nat × List Byte) := do
  let (op, out, oUnit) ← decLoop P func (cs.length + 1) cs 0#64 0 out none
  match oUnit with
  | none => .error .oobRead
  | some oUnit =>
    let op := op - P.unitSize
    let i ← countLoop out oUnit op P.unitSize 0
    let out ← wr out (op + i) 0#8
    .ok (op + i, out)

/-! ### The five encodings -/

/-- `BASE16_ALPHABET`, src/base_encoding/base16.c:13-14 (with the terminating NUL). -/
def base16Alphabet : List Byte := str "0123456789ABCDEF" ++ str "0" ++ [0#8]
/-- `BASE32_ALPHABET`, src/base_encoding/base32.c:17-19. -/
def base32Alphabet : List Byte := str "ABCDEFGHIJKLMNOP" ++ str "QRSTUVWXYZ234567" ++ str "=" ++ [0#8]
/-- `BASE32_ALPHABET_EXTHEX`, src/base_encoding/base32.c:23-25. -/
def base32HexAlphabet : List Byte :=
  str "0123456789ABCDEF" ++ str "GHIJKLMNOPQRSTUV" ++ str "=" ++ [0#8]
/-- `BASE64_ALPHABET`, src/base_encoding/base64.c:16-20. -/
def base64Alphabet : List Byte := str "ABCDEFGHIJKLMNOP" ++ str "QRSTUVWXYZabcdef" ++
  str "ghijklmnopqrstuv" ++ str "wxyz0123456789+/" ++ str "=" ++ [0#8]
/-- `BASE64_ALPHABET_FS`, src/base_encoding/base64.c:24-28. -/
def base64UrlAlphabet : List Byte := str "ABCDEFGHIJKLMNOP" ++ str "QRSTUVWXYZabcdef" ++
  str "ghijklmnopqrstuv" ++ str "wxyz0123456789-_" ++ str "=" ++ [0#8]

/-- `c >= lo && c <= hi` on characters (signed `char`; see `ch2hex`). -/
def inRange (c lo hi : Byte) : Bool := lo ≤ c && c ≤ hi

/-- `decode_base16_char`, src/base_encoding/base16.c:16-33. -/
def decodeBase16Char (c : Byte) : Byte :=
  if inRange c 0x30#8 0x39#8 then c - 0x30#8
  else if inRange c 0x41#8 0x46#8 then c - 0x41#8 + 10#8
  else if inRange c 0x61#8 0x66#8 then c - 0x61#8 + 10#8
  else unknownCode

/-- `decode_base32_char`, src/base_encoding/base32.c:27-47. -/
def decodeBase32Char (c : Byte) : Byte :=
  if inRange c 0x32#8 0x37#8 then c - 0x32#8 + 26#8
  else if inRange c 0x41#8 0x5A#8 then c - 0x41#8
  else if inRange c 0x61#8 0x7A#8 then c - 0x61#8
  else if c = 0x3D#8 then 0x00#8
  else unknownCode

/-- `decode_base32hex_char`, src/base_encoding/base32.c:49-69. -/
def decodeBase32HexChar (c : Byte) : Byte :=
  if inRange c 0x30#8 0x39#8 then c - 0x30#8
  else if inRange c 0x41#8 0x56#8 then c - 0x41#8 + 10#8
  else if inRange c 0x61#8 0x76#8 then c - 0x61#8 + 10#8
  else if c = 0x3D#8 then 0x00#8
  else unknownCode

/-- `decode_base64_char`, src/base_encoding/base64.c:30-56. -/
def decodeBase64Char (c : Byte) : Byte :=
  if inRange c 0x61#8 0x7A#8 then c - 0x61#8 + 26#8
  else if inRange c 0x30#8 0x39#8 then c - 0x30#8 + 52#8
  else if inRange c 0x41#8 0x5A#8 then c - 0x41#8
  else if c = 0x2B#8 ∨ c = 0x2D#8 then 62#8
  else if c = 0x2F#8 ∨ c = 0x5F#8 then 63#8
  else if c = 0x3D#8 then 0x00#8
  else unknownCode

/-- The five public encoder/decoder pairs. -/
inductive BaseAlg where
  | base16 | base32 | base32hex | base64 | base64url
  deriving DecidableEq, Repr

/-- src/base_encoding/base16.c:35-41, base32.c:71-85, base64.c:58-68: parameters. -/
def BaseAlg.params : BaseAlg → BaseParams
  | .base16 => base16P
  | .base32 | .base32hex => base32P
  | .base64 | .base64url => base64P

/-- Alphabets used by the encoders, same lines. -/
def BaseAlg.alphabet : BaseAlg → List Byte
  | .base16 => base16Alphabet
  | .base32 => base32Alphabet
  | .base32hex => base32HexAlphabet
  | .base64 => base64Alphabet
  | .base64url => base64UrlAlphabet

/-- Decoding functions used by the decoders, same lines (one decoder serves both base64 variants,
include/libpgfe/base_encoding/base64.h:23). -/
def BaseAlg.charFn : BaseAlg → Byte → Byte
  | .base16 => decodeBase16Char
  | .base32 => decodeBase32Char
  | .base32hex => decodeBase32HexChar
  | .base64 | .base64url => decodeBase64Char

/-- `pgfe_encode_base16` … `pgfe_encode_base64_url`. -/
def pgfeEncode (a : BaseAlg) (S : Slack) (garbage input : List Byte) (n : Nat) (out : List Byte) :=
  encodeBase S a.params garbage a.alphabet input n out

/-- `pgfe_decode_base16` … `pgfe_decode_base64`. -/
def pgfeDecode (a : BaseAlg) (cs out : List Byte) := decodeBase a.params a.charFn cs out

end Pgfe.Model
