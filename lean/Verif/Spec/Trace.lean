import Verif.Model.Hmac
/-!
# Specification: the public part of a call

What an observer may learn from a call, when keys, messages and digests are secret: which function was called
and with arrays of which sizes.
-/
namespace Pgfe.Spec
open Pgfe.Model

/-- The public part of a call. -/
inductive Shape where
  | init
  | setKey (keyLength : Nat)
  | update (length : Nat)
  | digest (outputSize : Nat)
  deriving DecidableEq, Repr

/-- The public part of a call on a hash context. -/
def callShape : HashImpl.Call → Shape
  | .update x => .update x.length
  | .digest o => .digest o.length

/-- The public part of a call on an HMAC context. -/
def macShape {I : HashImpl} : HmacCtx.Call I → Shape
  | .init => .init
  | .setKey k => .setKey k.length
  | .update x => .update x.length
  | .digest _ _ o => .digest o.length

end Pgfe.Spec
