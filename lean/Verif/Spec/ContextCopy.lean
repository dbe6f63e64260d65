import Verif.Spec.Alg
import Verif.Spec.Hmac
import Verif.Spec.Again
import Verif.Proofs.Alg
import Verif.Model.ContextCopy
/-!
# What a program with several contexts means

Each variable holds the message given so far, or nothing (before init, and after a digest).  Of the model only
the types of the steps and `memOK` are used.
-/
namespace Pgfe.Spec.Copy
open Pgfe.Model (Alg)
open Pgfe.Spec.Again (put)

/-- The message each variable holds. -/
abbrev Msgs := Nat → Option (List Byte)

/-- Variable `i` gets the value `v`. -/
def Msgs.set (s : Msgs) (i : Nat) (v : Option (List Byte)) : Msgs := fun j => if j = i then v else s j

open Pgfe.Model.HashImpl (Step) in
/-- `Means a bits s p os`: from variables that hold `s`, the program `p` uses the functions of algorithm `a` as
documented (no update or digest of a variable that holds nothing, lengths within the limits, room in the output
buffers), and its digest calls must produce `os`. -/
inductive Means (a : Alg) (bits : Nat) : Msgs → List Step → List (List Byte) → Prop
  | done (s : Msgs) : Means a bits s [] []
  | init (s : Msgs) (i : Nat) (p : List Step) (os : List (List Byte)) :
      Means a bits (s.set i (some [])) p os → Means a bits s (.init i :: p) os
  | update (s : Msgs) (i : Nat) (m x : List Byte) (p : List Step) (os : List (List Byte)) :
      s i = some m → okUpd a x.length → okTot a (m.length + x.length) →
      Means a bits (s.set i (some (m ++ x))) p os → Means a bits s (.update i x :: p) os
  | digest (s : Msgs) (i : Nat) (m out : List Byte) (p : List Step) (os : List (List Byte)) :
      s i = some m → outSize a bits ≤ out.length →
      Means a bits (s.set i none) p os →
      Means a bits s (.digest i out :: p) (put (libHash a (bits / 8) m) out :: os)
  | assign (s : Msgs) (d src : Nat) (p : List Step) (os : List (List Byte)) :
      Means a bits (s.set d (s src)) p os → Means a bits s (.assign d src :: p) os

/-- The key and message each HMAC variable holds. -/
abbrev Macs := Nat → Option (List Byte × List Byte)

/-- Variable `i` gets the value `v`. -/
def Macs.set (s : Macs) (i : Nat) (v : Option (List Byte × List Byte)) : Macs := fun j => if j = i then v else s j

open Pgfe.Model.HmacCtx (Step) in
/-- The same for HMAC: `init` gives the empty key, `setKey` a key, and both start a new message; the answer is the
HMAC with the key cut to the block size (C33, C34). -/
inductive MacMeans (a : Alg) : Macs → List (Step (a.impl 0)) → List (List Byte) → Prop
  | done (s : Macs) : MacMeans a s [] []
  | init (s : Macs) (i : Nat) (p : List (Step (a.impl 0))) (os : List (List Byte)) :
      MacMeans a (s.set i (some ([], []))) p os → MacMeans a s (.init i :: p) os
  | setKey (s : Macs) (i : Nat) (k : List Byte) (p : List (Step (a.impl 0))) (os : List (List Byte)) :
      MacMeans a (s.set i (some (k, []))) p os → MacMeans a s (.setKey i k :: p) os
  | update (s : Macs) (i : Nat) (k m x : List Byte) (p : List (Step (a.impl 0))) (os : List (List Byte)) :
      s i = some (k, m) → okUpd a x.length → okTot a (blockBytes a + m.length + x.length) →
      MacMeans a (s.set i (some (k, m ++ x))) p os → MacMeans a s (.update i x :: p) os
  | digest (s : Macs) (i : Nat) (k m mid : List Byte) (inner : (a.impl 0).Ctx) (out : List Byte)
      (p : List (Step (a.impl 0))) (os : List (List Byte)) :
      s i = some (k, m) → mid.length = outSize a 0 + 1 → memOK a 0 inner → outSize a 0 ≤ out.length →
      MacMeans a (s.set i none) p os →
      MacMeans a s (.digest i mid inner out :: p)
        (put (hmacShort (libHash a 0) (blockBytes a) (k.take (blockBytes a)) m) out :: os)
  | assign (s : Macs) (d src : Nat) (p : List (Step (a.impl 0))) (os : List (List Byte)) :
      MacMeans a (s.set d (s src)) p os → MacMeans a s (.assign d src :: p) os

end Pgfe.Spec.Copy
