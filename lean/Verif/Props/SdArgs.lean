import Verif.Props.Totp
import Verif.Props.HmacEncoder
/-!
# C65: data passed as `SequentialData`

`HashEncoder::update`, `HMACEncoder::update`, the `HMACEncoder` constructor and `set_secret` of the OTP classes take a
`SequentialData`.  The caller relies on each of them doing what the same function does with the bytes as a
`std::string`.
-/
namespace Pgfe.Props
open Pgfe.Model Pgfe.Spec Pgfe.Proofs

/-- **C65, partial.** On an implementation that evaluates the arguments from left to right, for every object in
every state and all data (zero bytes included) the `SequentialData` overload does exactly what the `std::string`
overload does.  (Missing: implementations with the other order, for which the claim is false, see `C65_violation`.) -/
theorem C65_partial (s : List Byte) :
    (∀ o : HashEnc, HashEnc.updateSd .leftFirst o s = HashEnc.updateS o s) ∧
    (∀ o : HmacEnc, HmacEnc.updateSd .leftFirst o s = HmacEnc.updateS o s) ∧
    (∀ g a, HmacEnc.constructSd .leftFirst g a s = HmacEnc.constructS g a s) ∧
    (∀ a, ∀ o : Totp a, o.setSecretArg (.sd .leftFirst s) = o.setSecretArg (.str s)) :=
  ⟨fun _ => rfl, fun _ => rfl, fun _ _ => rfl, fun _ _ => rfl⟩

/-- **C65, violation.** On an implementation that evaluates the last argument first, which C++14 allows (and for
which widespread compilers exist), each of these calls reads an uninitialised variable as the length, for every
object in every state and all data; setting a secret from base32 text, which uses the same function, never
succeeds, whatever the text. -/
theorem C65_violation (s : List Byte) :
    (∀ o : HashEnc, HashEnc.updateSd .rightFirst o s = .error .uninit) ∧
    (∀ o : HmacEnc, HmacEnc.updateSd .rightFirst o s = .error .uninit) ∧
    (∀ (g : HmacEnc) (a : Alg), hmacGarbageOK g → HmacEnc.constructSd .rightFirst g a s = .error .uninit) ∧
    (∀ a, ∀ o : Totp a, o.setSecretArg (.sd .rightFirst s) = .error .uninit) ∧
    (∀ a, ∀ o : Totp a, ∀ o', o.setSecretArg (.base32Cs .rightFirst s) ≠ .ok o' ∧
      o.setSecretArg (.base32Str .rightFirst s) ≠ .ok o') := by
  refine ⟨fun _ => rfl, fun _ => rfl, ?_, fun _ _ => rfl, ?_⟩
  · intro g a hg
    cases ha : isShake a with
    | false =>
      obtain ⟨K, cf⟩ := exists_ok0 a
      obtain ⟨o, e, _⟩ := select_ok ha K cf g hg
      rw [HmacEnc.constructSd, e]
      rfl
    | true =>
      have : HmacEnc.selectAlgorithm a { g with output := none } = .ok { g with output := none, curAlg := some a } := by
        rw [HmacEnc.selectAlgorithm]
        by_cases h : g.curAlg = some a
        · rw [if_pos h, ← h]
        · rw [if_neg h, HmacEnc.afterChangeAlg]
          dsimp only
          rw [if_neg (by rw [spCase_eq, ha]; decide)]
      rw [HmacEnc.constructSd, this]
      rfl
  · intro a o o'
    constructor
    · intro h
      rw [Totp.setSecretArg, Totp.setSecretBase32Cs] at h
      generalize objDecodeArg _ _ _ = r at h
      cases r <;> cases h
    · intro h
      rw [Totp.setSecretArg, Totp.setSecretBase32Str] at h
      generalize objDecodeArg _ _ _ = r at h
      cases r <;> cases h

end Pgfe.Props
