import Verif.Model.Hmac
/-!
# Update and digest calls on an HMAC context, in any order
-/
namespace Pgfe.Model.HmacCtx
variable (I : HashImpl) (bs ds : Nat)

/-- A call of `pgfe_hmac_<name>_update` or `pgfe_hmac_<name>_digest`, include/libpgfe/hmac/hmac.h:73-100,
src/hmac/hmac.c:33-44; `mid` and `inner` are the contents of the locals that the digest function does not
initialise (src/hmac/hmac.c:39, src/hashes/templates.h:48). -/
inductive MacCall where
  | update (input : List Byte)
  | digest (mid : List Byte) (inner : I.Ctx) (output : List Byte)

/-- A client's sequence of such calls; returns what the digest calls write, in order. -/
def outputs (ctx : HmacCtx I) : List (MacCall I) → C (HmacCtx I × List (List Byte))
  | [] => .ok (ctx, [])
  | .update x :: rest => do
    let ctx ← update I ctx (some x) x.length
    outputs ctx rest
  | .digest mid inner out :: rest => do
    let r ← digest I bs ds mid inner ctx out
    let s ← outputs r.1 rest
    .ok (s.1, r.2 :: s.2)

end Pgfe.Model.HmacCtx
