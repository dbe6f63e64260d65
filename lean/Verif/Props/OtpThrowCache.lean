import Verif.Props.OtpThrow
/-!
# C77: when setting a base32 secret asks for a larger cache
-/
namespace Pgfe.Props
open Pgfe.Model Pgfe.Spec Pgfe.Proofs

/-- **C77 (cache).**  On an object at rest, setting a secret given as base32 text runs out of memory at the cache of the
decoder exactly if the text is so long that the estimate for it reaches the size of the cache (64 bytes at first), and
then the mutex stays locked; otherwise no memory is asked for there, and the call returns. -/
theorem C77_cache (a : Alg) (o : Totp a) (he : EncIdle o.base32) (hd : DecIdle o.base32) (hl : o.base32.decLock = none)
    (t : List Byte) (ht : t.takeWhile (fun b => b ≠ 0#8) ≠ []) :
    (o.base32.decsz ≤ (libBase .base32).decEst (t.takeWhile (fun b => b ≠ 0#8)).length →
      ∃ o', o.callF (.setSecretArg (.base32Str .leftFirst t)) (some .cache) = .ok (o', .outOfMemory) ∧
        o'.base32.decLock.isSome = true ∧ o'.secret = o.secret) ∧
    (¬ o.base32.decsz ≤ (libBase .base32).decEst (t.takeWhile (fun b => b ≠ 0#8)).length →
      ∃ o', o.callF (.setSecretArg (.base32Str .leftFirst t)) (some .cache) = .ok (o', .ret .unit)) := by
  have hz : cstr (t ++ [0#8]) = .ok (t.takeWhile (fun b => b ≠ 0#8)) := by
    obtain ⟨p1, p2, p3⟩ := strlen_take (t ++ [0#8]) (by simp)
    rw [cstr, p1, bind_ok, rds_ok (by omega), List.drop_zero, p3, takeWhile_nul]
  have hK : (BaseKind.b32 false).decClass.decEst = (libBase .base32).decEst := rfl
  obtain ⟨o', out, e, _, _, _, h⟩ := base32F_ok o (bresult (.b32 false) (.dec (.str t)))
    (t.takeWhile (fun b => b ≠ 0#8)) (some .cache) he hd (by
      intro b h1 h2
      obtain ⟨b', e, i⟩ := bcall_ok (.b32 false) (.dec (.str t)) ⟨trivial, ht⟩ b h1 h2
      have e : objDecodeArg _ b (.str t) = _ := e
      rw [objDecodeArg, hz, bind_ok] at e
      exact ⟨b', e, i⟩)
  rw [Totp.callF, Totp.setSecretF, hz, bind_ok]
  constructor
  · intro hc
    unfold Totp.setSecretBase32F
    dsimp only
    rw [hl, if_neg (by simp), hK, if_pos ⟨hc, rfl⟩]
    exact ⟨_, rfl, rfl, rfl⟩
  · intro hc
    rw [e]
    rcases h with ⟨rfl, _⟩ | ⟨rfl, _⟩ | ⟨rfl, h, _⟩
    · exact ⟨o', rfl⟩
    · exfalso
      unfold Totp.setSecretBase32F at e
      dsimp only at e
      rw [hl, if_neg (by simp), hK, if_neg (fun h => hc h.1)] at e
      cases hO : objDecode (BaseKind.b32 false).decClass (t.takeWhile (fun b => b ≠ 0#8)) { o.base32 with decLock := some 0 } with
      | error x => rw [hO] at e; cases e
      | ok r =>
        rw [hO, bind_ok, if_neg (by decide)] at e
        rw [if_neg (by decide)] at e
        revert e
        generalize Totp.setSecretSd _ _ _ = z
        intro e
        cases z with
        | error x => cases e
        | ok z => rw [bind_ok, if_neg (by decide)] at e; cases e
    · rw [hl] at h; cases h

/-- Cases of both: new objects are at rest; 84 letters fit, 85 do not. -/
theorem C77_cache_example : EncIdle (Totp.create Alg.SHA1 0#64 30).base32 ∧ DecIdle (Totp.create Alg.SHA1 0#64 30).base32 ∧
    (Totp.create Alg.SHA1 0#64 30).base32.decLock = none ∧ (Totp.create Alg.SHA1 0#64 30).base32.decsz = 64 ∧
    (libBase .base32).decEst 84 = 63 ∧ (libBase .base32).decEst 85 = 64 :=
  ⟨init_idle.1, init_idle.2, rfl, rfl, by decide +kernel, by decide +kernel⟩

end Pgfe.Props
