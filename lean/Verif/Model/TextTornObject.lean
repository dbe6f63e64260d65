import Verif.Model.TextTorn
import Verif.Model.BaseObject
/-!
# `AbstractBaseEncoding::decode` of a text that changes meanwhile
-/
namespace Pgfe.Model
namespace Torn

/-- `AbstractBaseEncoding::decode(const char *)`, src/base_encoding/abstract_base_encoding.cpp:53-70, without the mutex, of an
array of `n + 1` characters: `strlen` on line 55, the decoder on line 64. -/
def objDecode (K : BaseClass) (n : Nat) (m : Mem) (o : BaseObj) : C (List Byte × BaseObj) := do
  let (len, t) ← strlen n m (n + 2) 0 0
  let sz := K.decEst len
  let o := if o.decsz ≤ sz then decSetSize sz (decAlloc sz o) else o
  let (k, b) ← decode K.alg n (fun t' => m (t + t')) o.deCache
  let o ← decNul k { o with deCache := b }
  let d ← rds o.deCache 0 k
  .ok (d, o)

end Torn
end Pgfe.Model
