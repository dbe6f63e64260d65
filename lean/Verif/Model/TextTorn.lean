import Verif.Model.Base
import Verif.Model.Hex
/-!
# Texts that change while they are read

The functions that read a NUL-terminated text (src/base_encoding/base-encoding-internal.c:104-147,
src/core/utils.c:29-111, src/core/utils.cpp:29-37), with a memory that another thread may write between any two of
their reads.  Every function takes the number `t` of the reads made so far and returns the number of the reads made
then.  Every evaluation of `*sp` in the source is a read (an optimising compiler may merge some of them, but not
those of `strlen` and of the loops behind it); the order of the reads is that of the source.
-/
namespace Pgfe.Model
namespace Torn

/-- The memory of a text: `m t i` is the character at index `i` at the `t`-th read. -/
abbrev Mem := Nat → Nat → Byte

/-- The `t`-th read, of the character at index `i` of an array of `n + 1` characters. -/
def peek (n : Nat) (m : Mem) (t i : Nat) : C Byte := if i ≤ n then .ok (m t i) else .error .oobRead

/-- Inner loop of `decode_base_generic`, src/base_encoding/base-encoding-internal.c:115-126.  The first argument
bounds the number of iterations; it runs out only after `sp` has left the array.  Returns `sp`, `i`, `u`. -/
def decGroup (P : BaseParams) (func : Byte → Byte) (n : Nat) (m : Mem) :
    Nat → (sp i : Nat) → W64 → (t : Nat) → C (Nat × Nat × W64 × Nat)
  | 0, _, _, _, _ => .error .oobRead
  | fuel + 1, sp, i, u, t => do
    let c ← peek n m t sp
    if c = 0#8 ∨ ¬ i < P.chunkCount then .ok (sp, i, u, t + 1)
    else do
      let c ← peek n m (t + 1) sp
      let ch := func c
      let u' := (u <<< P.bitSize) ||| (ch &&& mkmask P.bitSize).setWidth 64
      if ch &&& 0xC0#8 = unknownCode then decGroup P func n m fuel (sp + 1) i u (t + 2)
      else decGroup P func n m fuel (sp + 1) (i + 1) u' (t + 2)

/-- Outer loop of `decode_base_generic`, src/base_encoding/base-encoding-internal.c:114-138.  The first argument
bounds the number of iterations (each writes a group). -/
def decLoop (P : BaseParams) (func : Byte → Byte) (n : Nat) (m : Mem) :
    Nat → (sp : Nat) → W64 → (op : Nat) → List Byte → Option (List Byte) → (t : Nat) →
      C (Nat × List Byte × Option (List Byte) × Nat)
  | 0, _, _, _, _, _, _ => .error .diverge
  | fuel + 1, sp, u, op, out, oUnit, t => do
    let c ← peek n m t sp
    if c = 0#8 then .ok (op, out, oUnit, t + 1)
    else do
      let (sp, i, u, t) ← decGroup P func n m (n + 2) sp 0 u (t + 1)
      let c' ← peek n m t sp
      let u := if c' = 0#8 ∧ i < P.chunkCount then u <<< (P.bitSize * (P.chunkCount - i)) else u
      let unit := unitBytes P u
      let out ← wrs out op unit
      decLoop P func n m fuel sp u (op + P.unitSize) out (some unit) (t + 1)

/-- `decode_base_generic`, src/base_encoding/base-encoding-internal.c:104-147. -/
def decodeBase (P : BaseParams) (func : Byte → Byte) (n : Nat) (m : Mem) (out : List Byte) :
    C (Nat × List Byte) := do
  let (op, out, oUnit, _) ← decLoop P func n m (n + out.length + 3) 0 0#64 0 out none 0
  match oUnit with
  | none => .error .oobRead
  | some oUnit =>
    let op := op - P.unitSize
    let i ← countLoop out oUnit op P.unitSize 0
    let out ← wr out (op + i) 0#8
    .ok (op + i, out)

/-- `pgfe_decode_base16` … `pgfe_decode_base64`; src/base_encoding/base16.c:39-41, base32.c:79-85,
base64.c:66-68. -/
def decode (a : BaseAlg) (n : Nat) (m : Mem) (out : List Byte) : C (Nat × List Byte) :=
  decodeBase a.params a.charFn n m out

/-- `strlen` of the C library (external), from index `sp` on; one read for each character. -/
def strlen (n : Nat) (m : Mem) : Nat → (sp t : Nat) → C (Nat × Nat)
  | 0, _, _ => .error .oobRead
  | fuel + 1, sp, t => do
    let c ← peek n m t sp
    if c = 0#8 then .ok (sp, t + 1) else strlen n m fuel (sp + 1) (t + 1)

/-- The loop of `pgfe_hex_string_to_hash`, src/core/utils.c:46-63. -/
def hexLoop (n : Nat) (m : Mem) : Nat → (sp : Nat) → Bool → Byte → (op : Nat) → List Byte → (t : Nat) →
    C (Nat × List Byte × Nat)
  | 0, _, _, _, _, _, _ => .error .oobRead
  | fuel + 1, sp, odd, hexu, op, out, t => do
    let c ← peek n m t sp
    if c = 0#8 then .ok (op, out, t + 1)
    else do
      let c ← peek n m (t + 1) sp
      let d := ch2hex c
      if d = hexUnknown then hexLoop n m fuel (sp + 1) odd hexu op out (t + 2)
      else
        let hexu := hexu ||| d
        if odd then do
          let out ← wr out op hexu
          hexLoop n m fuel (sp + 1) false 0 (op + 1) out (t + 2)
        else hexLoop n m fuel (sp + 1) true (hexu <<< 4) op out (t + 2)

/-- `pgfe_hex_string_to_hash`, src/core/utils.c:29-66. -/
def hexStringToHash (n : Nat) (m : Mem) (out : List Byte) (t : Nat) : C (Nat × List Byte × Nat) := do
  let (len, t) ← strlen n m (n + 2) 0 t
  let tpc ← peek n m t 1
  let (off, len) := if 2 ≤ len ∧ (tpc = 0x78#8 ∨ tpc = 0x58#8) then (2, len - 2) else (0, len)
  let tpc ← (if off + len = 0 then .error .oobRead else peek n m (t + 1) (off + len - 1))
  let len := if tpc = 0x68#8 ∨ tpc = 0x48#8 then len - 1 else len
  hexLoop n m (n + 2) off (len % 2 == 1) 0 0 out (t + 2)

/-- The test for a prefix in the loop of `pgfe_hash_string_clean`, src/core/utils.c:80-85. -/
def isPrefix (n : Nat) (m : Mem) (sp : Nat) (flag : Int) (t : Nat) : C (Bool × Nat) :=
  if flag < 2 ∧ flag + 1 = 1 then do
    let c ← peek n m t sp
    if c = 0x78#8 then .ok (true, t + 1)
    else do
      let c ← peek n m (t + 1) sp
      .ok (decide (c = 0x58#8), t + 2)
  else .ok (false, t)

/-- The loop of `pgfe_hash_string_clean`, src/core/utils.c:79-93, input and output arrays distinct. -/
def cleanLoop (n : Nat) (m : Mem) : Nat → (sp : Nat) → Int → (op : Nat) → List Byte → (t : Nat) →
    C (Nat × List Byte × Nat)
  | 0, _, _, _, _, _ => .error .oobRead
  | fuel + 1, sp, flag, op, out, t => do
    let c ← peek n m t sp
    if c = 0#8 then .ok (op, out, t + 1)
    else do
      let flag' := if flag < 2 then flag + 1 else flag
      let (pre, t) ← isPrefix n m sp flag (t + 1)
      if pre then cleanLoop n m fuel (sp + 1) flag' 0 out t
      else do
        let c ← peek n m t sp
        if ch2hex c = hexUnknown then cleanLoop n m fuel (sp + 1) flag' op out (t + 1)
        else do
          let c ← peek n m (t + 1) sp
          let out ← wr out op c
          cleanLoop n m fuel (sp + 1) flag' (op + 1) out (t + 2)

/-- `pgfe_hash_string_clean`, src/core/utils.c:74-97, distinct arrays. -/
def hashStringClean (n : Nat) (m : Mem) (out : List Byte) (t : Nat) : C (Nat × List Byte × Nat) := do
  let (op, out, t) ← cleanLoop n m (n + 2) 0 (-1) 0 out t
  let out ← wr out op 0#8
  .ok (op, out, t)

/-- `pgfe_hash_length`, src/core/utils.c:103-111.  `garbage` is the initial contents of the array `s`, of which
`len + 1` bytes exist; `s` is not shared. -/
def hashLength (garbage : List Byte) (n : Nat) (m : Mem) : C Nat := do
  let (len, t) ← strlen n m (n + 2) 0 0
  let s := garbage.take (len + 1)
  let (_, s, _) ← hashStringClean n m s t
  let len ← Model.strlen s
  .ok (len / 2 + len % 2)

/-- `sequential_data::from_hex_string`, src/core/utils.cpp:29-37.  `garbage` is the initial contents of `h_out`. -/
def fromHexString (garbage : List Byte) (n : Nat) (m : Mem) : C (List Byte) := do
  let (sSz, t) ← strlen n m (n + 2) 0 0
  let hOut := garbage.take (sSz / 2 + sSz % 2 + 1)
  let (sz, hOut, _) ← hexStringToHash n m hOut t
  let hOut ← wr hOut sz 0#8
  rds hOut 0 sz

end Torn
end Pgfe.Model
