import Verif.Props.Totp
/-!
# C60: TOTP at times before T0

`C40_before` (Props/Totp.lean) is the counter computation less than one interval before T0; here the objects, and all
earlier times.
-/
namespace Pgfe.Props
open Pgfe.Model Pgfe.Spec Pgfe.Proofs Pgfe.Proofs.Hash Pgfe.Proofs.Hmac Pgfe.Proofs.Otp

/-- **C60, every time before T0.** With `k` complete intervals and `r` seconds to go until T0 the counter is -k modulo
2^64, and the remaining time reported is the interval and `r` seconds. -/
theorem C60_exact (now t0 : Int) (x k r : Nat) (hx2 : x < 2 ^ 30) (hr : r < x) (hk : t0 - now = k * x + r)
    (hn : t0 - now < 2 ^ 62) : calcPeriodicCounter now x t0 = .ok (BitVec.ofInt 64 (-k), x + r) := by
  have hx0 : (0 : Int) < x := by omega
  have hkx : 0 ≤ (k : Int) * x := Int.mul_nonneg (by omega) (by omega)
  have e : now - t0 = -(k * x + r) := by omega
  have e1 : (now - t0).tmod (x : Int) = -r := by
    rw [e, Int.neg_tmod, Int.tmod_eq_emod_of_nonneg (by omega), Int.add_comm, Int.add_mul_emod_self_right,
      Int.emod_eq_of_lt (by omega) (by omega)]
  have e2 : (now - t0).tdiv (x : Int) = -k := by
    rw [e, Int.neg_tdiv, Int.tdiv_eq_ediv_of_nonneg (by omega), Int.add_comm, Int.add_mul_ediv_right _ _ (by omega),
      Int.ediv_eq_zero_of_lt (by omega) (by omega), Int.zero_add]
  rw [calcPeriodicCounter, chk, if_pos ⟨by omega, by omega⟩, bind_ok, if_neg (by omega), chk, e1, e2,
    if_pos ⟨by omega, by omega⟩, bind_ok]
  have hb : ((x : Int) - -(r : Int)).bmod (2 ^ 32) = x + r := by
    rw [show (x : Int) - -(r : Int) = x + r by omega]
    apply Int.bmod_eq_of_le <;> omega
  rw [hb]

/-- **C60, earlier than one interval before T0** the remaining time reported is too long: the counter changes before
it has run out, one second after the whole number of intervals is reached. -/
theorem C60_early (now t0 : Int) (x k r : Nat) (hx : 1 < x) (hx2 : x < 2 ^ 30) (hr : r < x) (hk0 : 0 < k)
    (hk : t0 - now = k * x + r) (hn : t0 - now < 2 ^ 62) :
    ∃ c c' d d', calcPeriodicCounter now x t0 = .ok (c, d) ∧ calcPeriodicCounter (now + (r + 1)) x t0 = .ok (c', d') ∧
      r + 1 < d ∧ c ≠ c' := by
  obtain ⟨j, rfl⟩ : ∃ j, k = j + 1 := ⟨k - 1, by omega⟩
  have h1 : (0 : Int) ≤ j * x := Int.mul_nonneg (by omega) (by omega)
  have h2 : (j : Int) ≤ j * x := by
    calc (j : Int) = j * 1 := (Int.mul_one _).symm
      _ ≤ j * x := Int.mul_le_mul_of_nonneg_left (by omega) (by omega)
  have hk' : t0 - now = (j : Int) * x + x + r := by
    rw [hk, Int.natCast_add, Int.add_mul]; omega
  refine ⟨_, _, _, _, C60_exact now t0 x (j + 1) r hx2 hr hk hn,
    C60_exact (now + (r + 1)) t0 x j (x - 1) hx2 (by omega) (by omega) (by omega), by omega, ?_⟩
  intro h
  have h3 := congrArg BitVec.toInt h
  rw [BitVec.toInt_ofInt, BitVec.toInt_ofInt, Int.bmod_eq_of_le (by omega) (by omega),
    Int.bmod_eq_of_le (by omega) (by omega)] at h3
  omega

/-- **C60, objects.** A call of generate that reads the clock anew less than one interval before T0 returns the code of
counter 0; the remaining time reported from then on is that until the end of the first interval after T0; every later
call returns the code of counter 0 as long as that has not run out, and then the code of the clock. -/
theorem C60_object (a : Alg) (ha : isShake a = false) (h5 : a ≠ .MD5) (o : Totp a) (s : List Byte)
    (hs : o.secret = some s) (m : Totp.Stack a) (hm : otpStackOK a m) (d : Nat) (u1 u2 : Int)
    (hd : deltaOK o.delta) (hu : near o.updateTime) (hu1 : near u1) (hu2 : near u2) (hi : near o.initialTime)
    (hx2 : o.interval < 2 ^ 30) (h0 : o.initialTime - o.interval < u2) (h1 : u2 < o.initialTime)
    (hold : o.updateTime + o.delta ≤ u1) :
    ∃ o1, o.generate u1 u2 m d = .ok (o1, stdHotp a (s.take (blockBytes a)) 0 d) ∧
      (∀ t, near t → o1.remainingTime t = .ok (o.initialTime + o.interval - t)) ∧
      (∀ (m' : Totp.Stack a) (_ : otpStackOK a m') (d' : Nat) (t1 t2 : Int) (_ : near t1) (_ : near t2)
        (_ : t1 ≤ t2), ∃ o2, o1.generate t1 t2 m' d' = .ok (o2, stdHotp a (s.take (blockBytes a))
          (if o.initialTime + o.interval ≤ t1 then (timeStep t2 o.initialTime o.interval).toNat else 0) d')) := by
  have hx : 0 < o.interval := by omega
  have hdl : deltaOK ((o.interval : Int) + (o.initialTime - u2)) := ⟨by omega, by omega⟩
  refine ⟨{ o with updateTime := u2, co := 0#64, delta := o.interval + (o.initialTime - u2) }, ?_, ?_, ?_⟩
  · rw [Totp.generate, Totp.refresh, remaining_ok a o u1 hd hu hu1, bind_ok, if_pos (by omega), Totp.updateCounter,
      C40_before u2 o.initialTime o.interval hx2 h0 h1, bind_ok, bind_ok, hotpGenerate_ok a ha h5 _ s (by exact hs) m hm d,
      bind_ok]
    rfl
  · intro t ht
    rw [remaining_ok a _ t hdl hu2 ht]
    dsimp only
    congr 1
    omega
  · intro m' hm' d' t1 t2 ht1 ht2 h12
    have hr := remaining_ok a { o with updateTime := u2, co := 0#64, delta := o.interval + (o.initialTime - u2) } t1
      hdl hu2 ht1
    dsimp only at hr
    by_cases h : o.initialTime + o.interval ≤ t1
    · have h02 : o.initialTime ≤ t2 := by omega
      obtain ⟨o2, e⟩ := C42_exact a ha h5
        { o with updateTime := u2, co := 0#64, delta := o.interval + (o.initialTime - u2) } s hs m' hm' d' t1 t2
        hdl hu2 ht1 ht2 hi hx (by dsimp only; omega) h02
      refine ⟨o2, ?_⟩
      rw [e, if_pos h, if_pos (by dsimp only; omega)]
    · refine ⟨{ o with updateTime := u2, co := 0#64, delta := o.interval + (o.initialTime - u2) }, ?_⟩
      rw [Totp.generate, Totp.refresh, hr, bind_ok, if_neg (by omega), bind_ok,
        hotpGenerate_ok a ha h5 _ s (by exact hs) m' hm' d', bind_ok, if_neg h]
      rfl

/-- For example T0 = 100, interval 30: five seconds before T0 an object for the secret of RFC 4226 gives 755224, which
stays until 130; and with two intervals and five seconds to go the counter is -2, 35 seconds are reported, but six
seconds later it is -1. -/
theorem C60_object_example :
    (∃ o1, (exObj.setInitialTime 100).generate 95 95 sha1Stack 6 = .ok (o1, 755224) ∧ o1.remainingTime 95 = .ok 35 ∧
      ∃ o2, o1.generate 129 129 sha1Stack 6 = .ok (o2, 755224)) ∧
    calcPeriodicCounter 35 30 100 = .ok (0xFFFFFFFFFFFFFFFE#64, 35) ∧
    calcPeriodicCounter 41 30 100 = .ok (0xFFFFFFFFFFFFFFFF#64, 59) := by
  refine ⟨?_, by decide, by decide⟩
  obtain ⟨o1, h1, h2, h3⟩ := C60_object .SHA1 rfl (by decide) (exObj.setInitialTime 100) rfcSecret rfl sha1Stack
    sha1Stack_ok 6 95 95 ⟨by decide, by decide⟩ ⟨by decide, by decide⟩ ⟨by decide, by decide⟩ ⟨by decide, by decide⟩
    ⟨by decide, by decide⟩ (by decide) (by decide) (by decide) (by decide)
  obtain ⟨o2, h4⟩ := h3 sha1Stack sha1Stack_ok 6 129 129 ⟨by decide, by decide⟩ ⟨by decide, by decide⟩ (by decide)
  rw [show rfcSecret.take (blockBytes .SHA1) = rfcSecret by decide] at h1 h4
  refine ⟨o1, ?_, h2 95 ⟨by decide, by decide⟩, o2, ?_⟩
  · rw [h1, rfcCode0]
  · rw [h4, if_neg (by decide), rfcCode0]

end Pgfe.Props
