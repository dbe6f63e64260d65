import Verif.Model.Base
import Verif.Model.Hex
/-!
# The decoders with input and output in the same array

`decode_base_generic` (src/base_encoding/base-encoding-internal.c:104-147) and `pgfe_hex_string_to_hash`
(src/core/utils.c:29-66), called with `output == input` (a buffer that holds the text and receives the bytes; nothing
in the interface forbids it).  Here there is one array: every write changes what later reads of the text see.
-/
namespace Pgfe.Model

/-- Outer loop of `decode_base_generic`, src/base_encoding/base-encoding-internal.c:114-138, on one array `mem`; `sp` and
`op` are indices into it.  The inner loop (115-126) only reads; it is the one of `Model/Base.lean` started on the array
from `sp` on, and leaves `sp` at the place where its remaining list starts.  The first argument bounds the number of
iterations. -/
def decLoopIn (P : BaseParams) (func : Byte → Byte) :
    Nat → Nat → W64 → Nat → List Byte → Option (List Byte) → C (Nat × List Byte × Option (List Byte))
  | 0, _, _, _, _, _ => .error .diverge
  | fuel + 1, sp, u, op, mem, oUnit => do
    let c ← rd mem sp
    if c = 0#8 then .ok (op, mem, oUnit)
    else do
      let (left, i, u) ← decGroup P func (mem.drop sp) 0 u
      let sp := mem.length - left.length
      let c' ← rd mem sp
      let u := if c' = 0#8 ∧ i < P.chunkCount then u <<< (P.bitSize * (P.chunkCount - i)) else u
      let unit := unitBytes P u
      let mem ← wrs mem op unit
      decLoopIn P func fuel sp u (op + P.unitSize) mem (some unit)

/-- `decode_base_generic`, src/base_encoding/base-encoding-internal.c:104-147, with `output == basexx_cs`. -/
def decodeBaseIn (P : BaseParams) (func : Byte → Byte) (mem : List Byte) : C (Nat × List Byte) := do
  let (op, mem, oUnit) ← decLoopIn P func (mem.length + 1) 0 0#64 0 mem none
  match oUnit with
  | none => .error .oobRead
  | some oUnit =>
    let op := op - P.unitSize
    let i ← countLoop mem oUnit op P.unitSize 0
    let mem ← wr mem (op + i) 0#8
    .ok (op + i, mem)

/-- `pgfe_decode_base16(mem, mem)` … `pgfe_decode_base64(mem, mem)`; lines as for `pgfeDecode`:
src/base_encoding/base16.c:39-41, src/base_encoding/base32.c:79-85, src/base_encoding/base64.c:66-68. -/
def pgfeDecodeIn (a : BaseAlg) (mem : List Byte) := decodeBaseIn a.params a.charFn mem

/-- The loop of `pgfe_hex_string_to_hash`, src/core/utils.c:46-63, on one array: `sp` and `op` are indices.  The first
argument bounds the number of iterations; it runs out only after `sp` left the array. -/
def hexLoopIn : Nat → Nat → Bool → Byte → Nat → List Byte → C (Nat × List Byte)
  | 0, _, _, _, _, _ => .error .oobRead
  | fuel + 1, sp, odd, hexu, op, mem => do
    let c ← rd mem sp
    if c = 0#8 then .ok (op, mem)
    else
      let t := ch2hex c
      if t = hexUnknown then hexLoopIn fuel (sp + 1) odd hexu op mem
      else
        let hexu := hexu ||| t
        if odd then do
          let mem ← wr mem op hexu
          hexLoopIn fuel (sp + 1) false 0 (op + 1) mem
        else hexLoopIn fuel (sp + 1) true (hexu <<< 4) op mem

/-- `pgfe_hex_string_to_hash(mem, mem)`, src/core/utils.c:29-66. -/
def hexStringToHashIn (mem : List Byte) : C (Nat × List Byte) := do
  let len ← strlen mem
  let tpc ← rd mem 1
  let (off, len) := if 2 ≤ len ∧ (tpc = 0x78#8 ∨ tpc = 0x58#8) then (2, len - 2) else (0, len)
  let tpc ← rdBefore mem (off + len)
  let len := if tpc = 0x68#8 ∨ tpc = 0x48#8 then len - 1 else len
  hexLoopIn (mem.length + 1) off (len % 2 == 1) 0 0 mem

end Pgfe.Model
