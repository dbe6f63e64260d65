import Verif.Spec.Sha
/-!
# Collisions of a compression function inside two hash computations

(By counting, every compression function has collisions; what matters is a collision among the values
that two given computations themselves produce.)
-/
namespace Pgfe.Spec
variable {H : Type}

/-- The (chaining value, block) pairs that a Merkle-Damgård iteration of `f` from `h` feeds to `f`. -/
def iterates (f : H → List Byte → H) (h : H) : List (List Byte) → List (H × List Byte)
  | [] => []
  | b :: r => (h, b) :: iterates f (f h b) r

/-- Two different pairs, one from each computation, with the same value under `f`. -/
def Collide (f : H → List Byte → H) (l₁ l₂ : List (H × List Byte)) : Prop :=
  ∃ x ∈ l₁, ∃ y ∈ l₂, x ≠ y ∧ f x.1 x.2 = f y.1 y.2

end Pgfe.Spec
