import Verif.Model.Hash
/-!
# `pgfe_<name>_encode_f` on a stream that need not deliver a whole file

In `Verif.Model.Hash` the stream is a file that can be read to its end.  Here the results of the
successive `fread` calls are arbitrary: a read error, an interrupted or non-blocking stream makes
`fread` return fewer bytes than asked for although the data is not at its end.
-/
namespace Pgfe.Model.HashImpl
variable (I : HashImpl)

/-- The loop of `pgfe_<name>_encode_f`, src/hashes/templates.h:37-40 and 91-94; `reads` are the bytes
the successive `fread` calls deliver (after the last one, none). -/
def readLoop (ctx : I.Ctx) (buf : List Byte) : List (List Byte) → C I.Ctx
  | [] => I.update ctx (some buf) 0
  | r :: rs => do
    let buf ← wrs buf 0 r
    let ctx ← I.update ctx (some buf) r.length
    if r.length ≥ 1024 then readLoop ctx buf rs else .ok ctx

/-- `pgfe_<name>_encode_f`, src/hashes/templates.h:29-43 and 83-97. -/
def encodeStream (g : I.Ctx) (buf : List Byte) (reads : List (List Byte)) (output : List Byte) :
    C (List Byte) := do
  let ctx ← I.init g
  let ctx ← I.readLoop ctx buf reads
  let r ← I.digest ctx output
  .ok r.2

end Pgfe.Model.HashImpl
