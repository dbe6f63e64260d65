import Verif.Spec.Alg
/-!
# Collisions inside two sponge computations

Terms of the literature on sponges: the *inner* part of the state are the `c = 1600 - r` bits that no block
touches; an inner collision are two different sequences of blocks that lead to the same inner part.
-/
namespace Pgfe.Spec
open Pgfe.Model (Alg)
open Keccak

/-- The capacity in bits of the KECCAK functions, FIPS 202, 6.1 - 6.3. -/
def capacity : Alg → Nat
  | .SHA3_224 => 448
  | .SHA3_256 => 512
  | .SHA3_384 => 768
  | .SHA3_512 => 1024
  | .RawSHAKE128 | .SHAKE128 => 256
  | .RawSHAKE256 | .SHAKE256 => 512
  | _ => 0

/-- The bits appended to the message. -/
def suffix : Alg → List Bool
  | .SHA3_224 | .SHA3_256 | .SHA3_384 | .SHA3_512 => [false, true]
  | .RawSHAKE128 | .RawSHAKE256 => [true, true]
  | .SHAKE128 | .SHAKE256 => [true, true, true, true]
  | _ => []

/-- The blocks that are absorbed for the message `m`. -/
def spongeBlocks (a : Alg) (m : List Byte) : List (List Bool) :=
  bitBlocks (1600 - capacity a) ((bitsOf m ++ suffix a) ++ pad10star1 (1600 - capacity a) (bitsOf m ++ suffix a).length)

/-- The state after absorbing the blocks `l`. -/
def stateAfter (r : Nat) (l : List (List Bool)) : List Bool := l.foldl (absorbBlock r) (List.replicate 1600 false)

/-- Two different sequences of blocks, one from the start of each computation, after which the inner parts of
the states agree. -/
def InnerCollision (r : Nat) (l₁ l₂ : List (List Bool)) : Prop :=
  ∃ p₁ p₂, p₁ <+: l₁ ∧ p₂ <+: l₂ ∧ p₁ ≠ p₂ ∧ (stateAfter r p₁).drop r = (stateAfter r p₂).drop r

/-- Different final states from which the same `d` bits are squeezed. -/
def OutputCollision (r d : Nat) (l₁ l₂ : List (List Bool)) : Prop :=
  stateAfter r l₁ ≠ stateAfter r l₂ ∧ squeeze r (stateAfter r l₁) d = squeeze r (stateAfter r l₂) d

end Pgfe.Spec
