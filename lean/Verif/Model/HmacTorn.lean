import Verif.Model.Hmac
/-!
# Setting an HMAC key that changes meanwhile

`pgfe_hmac_<name>_set_key` copies the key twice, src/hmac/hmac.c:24-25.  Here the array may hold `key` at the time of the
first copy and `key'` at the time of the second: another thread, or another process with the memory mapped, has written to it.
Each of the two copies is modelled as seeing one content of the array.
-/
namespace Pgfe.Model.HmacCtx
variable (I : HashImpl) (bs : Nat)

/-- `pgfe_hmac_<name>_set_key`, src/hmac/hmac.c:21-32, with a key that changes between lines 24 and 25. -/
def setKeyTorn (ctx : HmacCtx I) (key key' : List Byte) (keyLength : Nat) : C (HmacCtx I) := do
  let kIPad ← arrcpy ctx.kIPad bs key keyLength
  let kOPad ← arrcpy ctx.kOPad bs key' keyLength
  let p ← xorPads bs kIPad kOPad
  let hash ← I.init ctx.hash
  let hash ← I.update hash (some p.1) bs
  .ok ⟨hash, p.1, p.2⟩

end Pgfe.Model.HmacCtx
