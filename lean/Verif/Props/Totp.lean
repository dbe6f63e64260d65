import Verif.Props.Otp
import Verif.Props.BaseClasses
/-!
# C40 - C42, C57 - C59, C67, C70: TOTP and OTP objects

`timeStep now t0 x` is RFC 6238's T = floor((now - T0) / X) (Verif/Spec/Otp.lean).
-/
namespace Pgfe.Spec
open Pgfe.Model

/-- Times within 2^61 seconds (73 billion years) of 1970. -/
def near (t : Int) : Prop := -2 ^ 61 ≤ t ∧ t ≤ 2 ^ 61

/-- The secret a call of `set_secret` (or a constructor) sets; for base32 text see C59. -/
def SecretArg.secret : Totp.SecretArg → List Byte
  | .seq mem n => mem.take n
  | .cs mem => mem.takeWhile (fun b => b ≠ 0#8)
  | .str s => s
  | .sd _ s => s
  | .base32Cs _ mem => rfcBase32.libDecode code32 (mem.takeWhile (fun b => b ≠ 0#8))
  | .base32Str _ s => rfcBase32.libDecode code32 (s.takeWhile (fun b => b ≠ 0#8))

/-- Arrays are long enough, C strings terminated, base32 texts not empty (C12); for the order of evaluation see
C65. -/
def SecretArg.ok : Totp.SecretArg → Prop
  | .seq mem n => n ≤ mem.length
  | .cs mem => 0#8 ∈ mem
  | .str _ => True
  | .sd ord _ => ord = .leftFirst
  | .base32Cs ord mem => ord = .leftFirst ∧ 0#8 ∈ mem ∧ mem.takeWhile (fun b => b ≠ 0#8) ≠ []
  | .base32Str ord s => ord = .leftFirst ∧ s.takeWhile (fun b => b ≠ 0#8) ≠ []

/-- A history of calls that change neither the interval, T0 nor the counter, whose clock readings never
decrease, start at `lo` or later and stay below 2^61, and whose stack memory is arbitrary.  Each generate call
reads the clock once or twice. -/
def clockOK {a : Alg} : Int → List (Totp.Call a) → Prop
  | _, [] => True
  | lo, .generate t1 t2 mem _ :: l | lo, .generateStr t1 t2 mem _ :: l =>
    lo ≤ t1 ∧ t1 ≤ t2 ∧ t2 ≤ 2 ^ 61 ∧ otpStackOK a mem ∧ clockOK t2 l
  | lo, .remaining t :: l => lo ≤ t ∧ t ≤ 2 ^ 61 ∧ clockOK t l
  | lo, .setSecret _ :: l => clockOK lo l
  | lo, .setSecretArg arg :: l => SecretArg.ok arg ∧ clockOK lo l
  | lo, .interval :: l | lo, .initialTime :: l | lo, .updateTime :: l => clockOK lo l
  | _, .setCounter _ :: _ | _, .setInterval _ :: _ | _, .setInitialTime _ :: _ => False

/-- The results of the history are right.  Every code is the RFC 6238 value, with the secret set last, for a
moment inside the call; `interval()` and `initial_time()` return what was set, `update_time()` a moment of that time
step (0 before the first code); when a code has been generated (`last` is its time step) and the interval is below 2^31,
the remaining time `r` reported at `t` is such that `t + r` is exactly the moment at which that step ends. -/
def resultsOK {a : Alg} (x : Nat) (t0 : Int) : List Byte → Option Int → List (Totp.Call a) → List Totp.Res → Prop
  | _, _, [], [] => True
  | s, _, .generate t1 t2 _ d :: l, .code v :: r =>
    ∃ t, t1 ≤ t ∧ t ≤ t2 ∧ v = stdHotp a (s.take (blockBytes a)) (timeStep t t0 x).toNat d ∧
      resultsOK x t0 s (some (timeStep t t0 x)) l r
  | s, _, .generateStr t1 t2 _ d :: l, .text w :: r =>
    ∃ t, t1 ≤ t ∧ t ≤ t2 ∧
      (1 ≤ d → w = decDigits d (stdHotp a (s.take (blockBytes a)) (timeStep t t0 x).toNat d)) ∧
      resultsOK x t0 s (some (timeStep t t0 x)) l r
  | s, last, .remaining t :: l, .time q :: r =>
    (x < 2 ^ 31 → ∀ k, last = some k → timeStep (t + q - 1) t0 x = k ∧ timeStep (t + q) t0 x = k + 1) ∧
      resultsOK x t0 s last l r
  | _, last, .setSecret s :: l, .unit :: r => resultsOK x t0 s last l r
  | _, last, .setSecretArg arg :: l, .unit :: r => resultsOK x t0 (SecretArg.secret arg) last l r
  | s, last, .interval :: l, .time q :: r => q = x ∧ resultsOK x t0 s last l r
  | s, last, .initialTime :: l, .time q :: r => q = t0 ∧ resultsOK x t0 s last l r
  | s, last, .updateTime :: l, .time q :: r =>
    (last = none → q = 0) ∧ (∀ k, last = some k → timeStep q t0 x = k) ∧ resultsOK x t0 s last l r
  | _, _, _, _ => False

end Pgfe.Spec

namespace Pgfe.Props
open Pgfe.Model Pgfe.Spec Pgfe.Proofs Pgfe.Proofs.Hash Pgfe.Proofs.Hmac Pgfe.Proofs.Otp

/-! ## C40 -/

theorem ofInt_toNat (x : Int) (h0 : 0 ≤ x) (h1 : x < 2 ^ 64) : ((BitVec.ofInt 64 x).toNat : Int) = x := by
  rw [BitVec.toNat_ofInt, Int.toNat_of_nonneg (Int.emod_nonneg _ (by decide)), show (((2 ^ 64 : Nat) : Int)) = 2 ^ 64 from rfl, Int.emod_eq_of_lt h0 h1]

theorem timeStep_eq (t t0 : Int) (x : Nat) (_h : 0 < x) : timeStep t t0 x = (t - t0) / (x : Int) := by
  rw [timeStep, Int.fdiv_eq_ediv_of_nonneg _ (by omega)]

/-- What the counter computation returns when it does not overflow, at or after T0. -/
theorem calc_ok (now t0 : Int) (x : Nat) (hx : 0 < x) (hx2 : x < 2 ^ 32) (h0 : t0 ≤ now) (h1 : now - t0 < 2 ^ 63) :
    calcPeriodicCounter now x t0
      = .ok (BitVec.ofInt 64 (timeStep now t0 x), (x - (now - t0) % (x : Int)).bmod (2 ^ 32)) := by
  have hm := Int.emod_nonneg (now - t0) (b := (x : Int)) (by omega)
  have hm2 := Int.emod_lt_of_pos (now - t0) (b := (x : Int)) (by omega)
  rw [calcPeriodicCounter, chk, if_pos ⟨by omega, by omega⟩, bind_ok, if_neg (by omega), chk,
    Int.tmod_eq_emod_of_nonneg (by omega), if_pos ⟨by omega, by omega⟩, bind_ok, timeStep_eq _ _ _ hx,
    Int.tdiv_eq_ediv_of_nonneg (by omega)]

theorem timeStep_nonneg (t t0 : Int) (x : Nat) (hx : 0 < x) (h : t0 ≤ t) : 0 ≤ timeStep t t0 x := by
  rw [timeStep_eq _ _ _ hx]; exact Int.ediv_nonneg (by omega) (by omega)

theorem timeStep_le (t t0 : Int) (x : Nat) (hx : 0 < x) (h : t0 ≤ t) : timeStep t t0 x ≤ t - t0 := by
  rw [timeStep_eq _ _ _ hx]
  exact Int.ediv_le_self _ (by omega)

/-- The step is constant until the end of the current interval. -/
theorem timeStep_const (u t t0 : Int) (x : Nat) (hx : 0 < x) (h1 : u ≤ t)
    (h2 : t < u + (x - (u - t0) % (x : Int))) : timeStep t t0 x = timeStep u t0 x := by
  rw [timeStep_eq _ _ _ hx, timeStep_eq _ _ _ hx]
  have hd := Int.mul_ediv_add_emod (u - t0) x
  have hm := Int.emod_nonneg (u - t0) (b := (x : Int)) (by omega)
  have e : t - t0 = ((u - t0) % (x : Int) + (t - u)) + (x : Int) * ((u - t0) / x) := by omega
  rw [e, Int.add_mul_ediv_left _ _ (by omega), Int.ediv_eq_zero_of_lt (by omega) (by omega)]
  omega

theorem timeStep_next (u t0 : Int) (x : Nat) (hx : 0 < x) :
    timeStep (u + (x - (u - t0) % (x : Int))) t0 x = timeStep u t0 x + 1 := by
  rw [timeStep_eq _ _ _ hx, timeStep_eq _ _ _ hx]
  have hd := Int.mul_ediv_add_emod (u - t0) x
  have e : u + (x - (u - t0) % (x : Int)) - t0 = (x : Int) * ((u - t0) / x + 1) := by
    rw [Int.mul_add, Int.mul_one]; omega
  rw [e, Int.mul_ediv_cancel_left _ (by omega)]

/-- **C40.** For every interval 1..2^31-1, every T0 and every time from T0 on: the counter is
floor((time - T0) / interval); the remaining time `d` is between 1 and the interval, the counter stays the same
before time + d and is one more at time + d. -/
theorem C40 (now t0 : Int) (x : Nat) (hx : 0 < x) (hx2 : x < 2 ^ 31) (h0 : t0 ≤ now) (h1 : now - t0 < 2 ^ 63) :
    ∃ c d, calcPeriodicCounter now x t0 = .ok (c, d) ∧ (c.toNat : Int) = timeStep now t0 x ∧ 1 ≤ d ∧ d ≤ x ∧
      (∀ t, now ≤ t → t < now + d → timeStep t t0 x = timeStep now t0 x) ∧
      timeStep (now + d) t0 x = timeStep now t0 x + 1 := by
  have hm := Int.emod_nonneg (now - t0) (b := (x : Int)) (by omega)
  have hm2 := Int.emod_lt_of_pos (now - t0) (b := (x : Int)) (by omega)
  have hb : (x - (now - t0) % (x : Int)).bmod (2 ^ 32) = x - (now - t0) % (x : Int) := by
    apply Int.bmod_eq_of_le <;> omega
  have h3 := timeStep_nonneg now t0 x hx h0
  have h4 := timeStep_le now t0 x hx h0
  refine ⟨_, _, by rw [calc_ok now t0 x hx (by omega) h0 h1, hb], ofInt_toNat _ h3 (by omega), by omega, by omega, ?_,
    timeStep_next now t0 x hx⟩
  intro t ht1 ht2
  exact timeStep_const now t t0 x hx ht1 ht2

/-- **C40.** The counter is right for all intervals an `uint32_t` can hold; from 2^31 on the reported
remaining time may be off by 2^32 (then it is negative). -/
theorem C40_large (now t0 : Int) (x : Nat) (hx : 0 < x) (hx2 : x < 2 ^ 32) (h0 : t0 ≤ now) (h1 : now - t0 < 2 ^ 63) :
    ∃ c d, calcPeriodicCounter now x t0 = .ok (c, d) ∧ (c.toNat : Int) = timeStep now t0 x ∧
      ((1 ≤ d ∧ timeStep (now + d) t0 x = timeStep now t0 x + 1) ∨
        (d < 0 ∧ timeStep (now + (d + 2 ^ 32)) t0 x = timeStep now t0 x + 1)) := by
  have hm := Int.emod_nonneg (now - t0) (b := (x : Int)) (by omega)
  have hm2 := Int.emod_lt_of_pos (now - t0) (b := (x : Int)) (by omega)
  have h3 := timeStep_nonneg now t0 x hx h0
  have h4 := timeStep_le now t0 x hx h0
  have h5 := timeStep_next now t0 x hx
  refine ⟨_, _, calc_ok now t0 x hx (by omega) h0 h1, ofInt_toNat _ h3 (by omega), ?_⟩
  generalize (now - t0) % (x : Int) = r at *
  by_cases hr : (x : Int) - r < 2 ^ 31
  · have hb : (x - r : Int).bmod (2 ^ 32) = x - r := by apply Int.bmod_eq_of_le <;> omega
    rw [hb]; exact .inl ⟨by omega, h5⟩
  · have hb : (x - r : Int).bmod (2 ^ 32) = x - r - 2 ^ 32 := by
      have h6 := Int.sub_bmod_right (x - r : Int) (2 ^ 32)
      have h7 : ((x - r : Int) - ((2 ^ 32 : Nat) : Int)).bmod (2 ^ 32) = (x - r : Int) - ((2 ^ 32 : Nat) : Int) := by
        apply Int.bmod_eq_of_le <;> omega
      rw [← h6, h7]; rfl
    rw [hb, show (x - r - 2 ^ 32 + 2 ^ 32 : Int) = x - r by omega]
    exact .inr ⟨by omega, h5⟩

/-- An interval of 0 divides by zero at every time. -/
theorem C40_zero (now t0 : Int) (h : timeOK (now - t0)) : calcPeriodicCounter now 0 t0 = .error .divZero := by
  rw [calcPeriodicCounter, chk, if_pos h, bind_ok, if_pos rfl]

/-- Concrete: RFC 6238 appendix B, 20000000000 seconds is step 0x27BC86AA; 10 seconds remain. -/
theorem C40_example : calcPeriodicCounter 20000000000 30 0 = .ok (0x27BC86AA#64, 10) := by decide

/-- Times before T0 round towards zero: throughout the interval before T0 the counter is 0, as in the first
interval after it (floor gives -1), and the remaining time exceeds the interval. -/
theorem C40_before (now t0 : Int) (x : Nat) (hx : x < 2 ^ 30) (h0 : t0 - x < now) (h1 : now < t0) :
    calcPeriodicCounter now x t0 = .ok (0#64, x + (t0 - now)) := by
  have hx0 : 0 < x := by omega
  have e : now - t0 = -(t0 - now) := by omega
  have e1 : (now - t0).tmod (x : Int) = -(t0 - now) := by
    rw [e, Int.neg_tmod, Int.tmod_eq_of_lt (by omega) (by omega)]
  have e2 : (now - t0).tdiv (x : Int) = 0 := by
    rw [e, Int.neg_tdiv, Int.tdiv_eq_ediv_of_nonneg (by omega), Int.ediv_eq_zero_of_lt (by omega) (by omega)]; rfl
  rw [calcPeriodicCounter, chk, if_pos ⟨by omega, by omega⟩, bind_ok, if_neg (by omega), chk, e1, e2,
    if_pos ⟨by omega, by omega⟩, bind_ok]
  have hb : ((x : Int) - -(t0 - now)).bmod (2 ^ 32) = x + (t0 - now) := by
    rw [show (x : Int) - -(t0 - now) = x + (t0 - now) by omega]
    apply Int.bmod_eq_of_le <;> omega
  rw [hb]; rfl

/-- **C40** for `pgfe_totp_generic`: the code is the RFC 6238 value of the moment the clock is read. -/
theorem C40_totp (now : Int) (a : Alg) (ha : isShake a = false) (h5 : a ≠ .MD5) (m : Totp.Stack a)
    (hm : otpStackOK a m) (secret : List Byte) (hs : secret.length ≤ blockBytes a) (d x : Nat) (t0 : Int)
    (hx : 0 < x) (hx2 : x < 2 ^ 32) (h0 : t0 ≤ now) (h1 : now - t0 < 2 ^ 63) :
    ∃ delta, totpGeneric now a m.hmac m.counterH m.outHash secret secret.length d x t0
      = .ok (stdHotp a secret (timeStep now t0 x).toNat d, delta) := by
  have h3 := timeStep_nonneg now t0 x hx h0
  have h4 := timeStep_le now t0 x hx h0
  have h6 := ofInt_toNat (timeStep now t0 x) h3 (by omega)
  refine ⟨(x - (now - t0) % (x : Int)).bmod (2 ^ 32), ?_⟩
  rw [totpGeneric, calc_ok now t0 x hx hx2 h0 h1, bind_ok]
  dsimp only
  rw [C37 a ha h5 m hm secret hs, bind_ok]
  rw [show (BitVec.ofInt 64 (timeStep now t0 x)).toNat = (timeStep now t0 x).toNat by omega]

theorem calcNull_eq (now : Int) (x : Nat) (t0 : Int) (r : W64 × Int) (h : calcPeriodicCounter now x t0 = .ok r) :
    calcPeriodicCounterNull now x t0 = .ok r.1 := by
  rw [calcPeriodicCounter] at h
  rw [calcPeriodicCounterNull]
  cases hc : chk (now - t0) with
  | error e => rw [hc] at h; cases h
  | ok o =>
    rw [hc, bind_ok] at h
    rw [bind_ok]
    split at h
    · cases h
    · next hx =>
      rw [if_neg hx]
      cases hd : chk (↑x - o.tmod ↑x) with
      | error e => rw [hd] at h; cases h
      | ok d => rw [hd, bind_ok] at h; cases h; rfl

/-- **C40.** Without a place for the remaining time (`delta_out` = NULL) the code is the same. -/
theorem C40_null (now : Int) (a : Alg) (m : Totp.Stack a) (secret : List Byte) (n d x : Nat) (t0 : Int) (v : Nat) (delta : Int)
    (h : totpGeneric now a m.hmac m.counterH m.outHash secret n d x t0 = .ok (v, delta)) :
    totpGenericNull now a m.hmac m.counterH m.outHash secret n d x t0 = .ok v := by
  rw [totpGeneric] at h
  cases hc : calcPeriodicCounter now x t0 with
  | error e => rw [hc] at h; cases h
  | ok r =>
    rw [hc, bind_ok] at h
    rw [totpGenericNull, calcNull_eq now x t0 r hc, bind_ok]
    cases hv : hotpGeneric a m.hmac m.counterH m.outHash secret n r.1 d with
    | error e => rw [hv] at h; cases h
    | ok w => rw [hv, bind_ok] at h; cases h; rfl

/-- The number of digits of `pgfe_hotp_4digits`, `pgfe_hotp_6digits`, `pgfe_hotp_8digits`. -/
def digitsOf : Fin 3 → Nat
  | 0 => 4
  | 1 => 6
  | 2 => 8

/-- **C37.** `pgfe_hotp_4digits`, `pgfe_hotp_6digits`, `pgfe_hotp_8digits` are RFC 4226 codes with that many digits. -/
theorem C37_digits (m : Totp.Stack .SHA1) (hm : otpStackOK .SHA1 m) (secret : List Byte) (hs : secret.length ≤ 64)
    (c : W64) (i : Fin 3) :
    hotpDigits m.hmac m.counterH m.outHash secret secret.length c i = .ok (stdHotp .SHA1 secret c.toNat (digitsOf i)) := by
  match i with
  | 0 => exact C37_hotp m hm secret hs c 4
  | 1 => exact C37_hotp m hm secret hs c 6
  | 2 => exact C37_hotp m hm secret hs c 8

/-- **C40.** `pgfe_totp_4digits`, `pgfe_totp_6digits`, `pgfe_totp_8digits` are RFC 6238 codes with SHA-1 and T0 = 0. -/
theorem C40_digits (now : Int) (m : Totp.Stack .SHA1) (hm : otpStackOK .SHA1 m) (secret : List Byte)
    (hs : secret.length ≤ 64) (x : Nat) (hx : 0 < x) (hx2 : x < 2 ^ 32) (h0 : 0 ≤ now) (h1 : now < 2 ^ 63) (i : Fin 3) :
    ∃ delta, totpDigits now m.hmac m.counterH m.outHash secret secret.length x i
      = .ok (stdHotp .SHA1 secret (timeStep now 0 x).toNat (digitsOf i), delta) := by
  have h := fun d => C40_totp now .SHA1 rfl (by decide) m hm secret hs d x 0 hx hx2 h0 (by omega)
  match i with
  | 0 => exact h 4
  | 1 => exact h 6
  | 2 => exact h 8

/-! ## C41, C42, C57 -/

theorem hotpGenerate_ok (a : Alg) (ha : isShake a = false) (h5 : a ≠ .MD5) (o : Totp a) (s : List Byte)
    (hs : o.secret = some s) (m : Totp.Stack a) (hm : otpStackOK a m) (d : Nat) :
    o.hotpGenerate m d = .ok (stdHotp a (s.take (blockBytes a)) o.co.toNat d) := by
  rw [Totp.hotpGenerate, hs]
  exact C37_long a ha h5 m hm s o.co d

theorem updateCounter_ok (a : Alg) (o : Totp a) (now : Int) (hx : 0 < o.interval) (hx2 : o.interval < 2 ^ 32)
    (h0 : o.initialTime ≤ now) (h1 : now - o.initialTime < 2 ^ 63) :
    o.updateCounter now = .ok { o with
      updateTime := now
      co := BitVec.ofInt 64 (timeStep now o.initialTime o.interval)
      delta := (o.interval - (now - o.initialTime) % (o.interval : Int)).bmod (2 ^ 32) } := by
  rw [Totp.updateCounter, calc_ok now o.initialTime o.interval hx hx2 h0 h1, bind_ok]

/-- The values `delta` can have. -/
def deltaOK (d : Int) : Prop := -2 ^ 31 ≤ d ∧ d < 2 ^ 31

theorem bmod_deltaOK (y : Int) : deltaOK (y.bmod (2 ^ 32)) := by
  have h1 := Int.le_bmod (x := y) (m := 2 ^ 32) (by decide)
  have h2 := Int.bmod_lt (x := y) (m := 2 ^ 32) (by decide)
  constructor <;> omega

theorem remaining_ok (a : Alg) (o : Totp a) (t : Int) (hd : deltaOK o.delta) (hu : near o.updateTime) (ht : near t) :
    o.remainingTime t = .ok (o.delta - (t - o.updateTime)) := by
  obtain ⟨_, _⟩ := hd
  obtain ⟨_, _⟩ := hu
  obtain ⟨_, _⟩ := ht
  rw [Totp.remainingTime, chk, if_pos ⟨by omega, by omega⟩, bind_ok, chk, if_pos ⟨by omega, by omega⟩]

/-- **C42, exact.** In every state of the object: when the remaining time has run out at the first reading of the
clock, the code is that of the current settings at the second reading; otherwise it is that of the stored counter,
whatever the settings are.  In both cases with the secret set last. -/
theorem C42_exact (a : Alg) (ha : isShake a = false) (h5 : a ≠ .MD5) (o : Totp a) (s : List Byte)
    (hs : o.secret = some s) (m : Totp.Stack a) (hm : otpStackOK a m) (d : Nat) (t1 t2 : Int)
    (hd : deltaOK o.delta) (hu : near o.updateTime) (ht1 : near t1) (ht2 : near t2) (hi : near o.initialTime)
    (hx : 0 < o.interval) (hx2 : o.interval < 2 ^ 32) (h0 : o.initialTime ≤ t2) :
    ∃ o', o.generate t1 t2 m d = .ok (o', stdHotp a (s.take (blockBytes a))
      (if o.updateTime + o.delta ≤ t1 then (timeStep t2 o.initialTime o.interval).toNat else o.co.toNat) d) := by
  obtain ⟨i1, i2⟩ := hi
  obtain ⟨j1, j2⟩ := ht2
  have h3 := timeStep_nonneg t2 o.initialTime o.interval hx h0
  have h4 := timeStep_le t2 o.initialTime o.interval hx h0
  have h6 := ofInt_toNat (timeStep t2 o.initialTime o.interval) h3 (by omega)
  by_cases h : o.updateTime + o.delta ≤ t1
  · refine ⟨{ o with
      updateTime := t2
      co := BitVec.ofInt 64 (timeStep t2 o.initialTime o.interval)
      delta := (o.interval - (t2 - o.initialTime) % (o.interval : Int)).bmod (2 ^ 32) }, ?_⟩
    rw [Totp.generate, Totp.refresh, remaining_ok a o t1 hd hu ht1, bind_ok, if_pos (by omega), if_pos h,
      updateCounter_ok a o t2 hx hx2 h0 (by omega), bind_ok, hotpGenerate_ok a ha h5 _ s (by exact hs) m hm d, bind_ok]
    dsimp only
    rw [show (BitVec.ofInt 64 (timeStep t2 o.initialTime o.interval)).toNat
      = (timeStep t2 o.initialTime o.interval).toNat by omega]
  · refine ⟨o, ?_⟩
    rw [Totp.generate, Totp.refresh, remaining_ok a o t1 hd hu ht1, bind_ok, if_neg (by omega), if_neg h, bind_ok,
      hotpGenerate_ok a ha h5 o s hs m hm d, bind_ok]

/-- **C42, partial.** Settings changed at any moment are used from the moment the remaining time reported for the
old ones has run out (missing: earlier codes, for which the claim is false, see `C42_violation`). -/
theorem C42_partial (a : Alg) (ha : isShake a = false) (h5 : a ≠ .MD5) (o : Totp a) (s : List Byte)
    (hs : o.secret = some s) (m : Totp.Stack a) (hm : otpStackOK a m) (d : Nat) (t1 t2 : Int)
    (hd : deltaOK o.delta) (hu : near o.updateTime) (ht1 : near t1) (ht2 : near t2)
    (x : Nat) (hx : 0 < x) (hx2 : x < 2 ^ 32) (t0 : Int) (hi : near t0) (h0 : t0 ≤ t2)
    (r : Int) (hr : o.remainingTime t1 = .ok r) (hr0 : r ≤ 0) :
    ∃ o', ((o.setInterval x).setInitialTime t0).generate t1 t2 m d
      = .ok (o', stdHotp a (s.take (blockBytes a)) (timeStep t2 t0 x).toNat d) := by
  obtain ⟨o', h⟩ := C42_exact a ha h5 ((o.setInterval x).setInitialTime t0) s hs m hm d t1 t2 hd hu ht1 ht2 hi hx hx2 h0
  rw [remaining_ok a o t1 hd hu ht1, Except.ok.injEq] at hr
  refine ⟨o', ?_⟩
  have hle : ((o.setInterval x).setInitialTime t0).updateTime + ((o.setInterval x).setInitialTime t0).delta ≤ t1 := by
    show o.updateTime + o.delta ≤ t1; omega
  rw [h, if_pos hle]
  rfl

/-- The object of the examples, and what two calls of generate return. -/
def exObj : Totp .SHA1 := (Totp.create .SHA1 0xdeadbeef#64 30).setSecret rfcSecret

theorem exGen30 : exObj.generate 30 30 sha1Stack 6
    = .ok ({ exObj with updateTime := 30, co := 1#64, delta := 30 }, 287082) := by
  have hr : exObj.remainingTime 30 = .ok (-30) := by decide
  have hu : exObj.updateCounter 30 = .ok { exObj with updateTime := 30, co := 1#64, delta := 30 } := rfl
  rw [Totp.generate, Totp.refresh, hr, bind_ok, if_pos (by decide), hu, bind_ok,
    hotpGenerate_ok .SHA1 rfl (by decide) _ rfcSecret rfl sha1Stack sha1Stack_ok 6, bind_ok,
    show rfcSecret.take (blockBytes .SHA1) = rfcSecret by decide, show (1#64).toNat = 1 from rfl, rfcCode1]

/-- **C42, violation.** A code is generated at time 30 with interval 30 (step 1); the interval is set to 60; at
time 31 the code of step 1 is returned again, although 31 is in step 0 of the new interval, whose code is
different. -/
theorem C42_violation : ∃ o o' : Totp .SHA1, exObj.generate 30 30 sha1Stack 6 = .ok (o, 287082) ∧
    (o.setInterval 60).generate 31 31 sha1Stack 6 = .ok (o', 287082) ∧
    stdHotp .SHA1 rfcSecret (timeStep 31 0 60).toNat 6 = 755224 := by
  refine ⟨_, ({ exObj with updateTime := 30, co := 1#64, delta := 30 } : Totp .SHA1).setInterval 60, exGen30, ?_, ?_⟩
  · have hr : (({ exObj with updateTime := 30, co := 1#64, delta := 30 } : Totp .SHA1).setInterval 60).remainingTime 31
        = .ok 29 := by decide
    rw [Totp.generate, Totp.refresh, hr, bind_ok, if_neg (by decide), bind_ok,
      hotpGenerate_ok .SHA1 rfl (by decide) _ rfcSecret rfl sha1Stack sha1Stack_ok 6, bind_ok,
      show rfcSecret.take (blockBytes .SHA1) = rfcSecret by decide]
    show Except.ok (_, stdHotp .SHA1 rfcSecret 1 6) = _
    rw [rfcCode1]
  · rw [show (timeStep 31 0 60).toNat = 0 by decide, rfcCode0]

/-- **C57.** A new secret is used by the next code, in every state of the object. -/
theorem C57 (a : Alg) (ha : isShake a = false) (h5 : a ≠ .MD5) (o : Totp a) (s : List Byte)
    (m m' : Totp.Stack a) (hm : otpStackOK a m) (hm' : otpStackOK a m') (d d' : Nat) (t1 t2 : Int) (o1 : Totp a) (v : Nat)
    (h : (o.setSecret s).generate t1 t2 m d = .ok (o1, v)) :
    v = stdHotp a (s.take (blockBytes a)) o1.co.toNat d ∧
    ∀ old, ∃ v', (o.setSecret old).generate t1 t2 m' d' = .ok (o1.setSecret old, v') ∧
      v' = stdHotp a (old.take (blockBytes a)) o1.co.toNat d' := by
  have e : ∀ q, (o.setSecret q).refresh t1 t2 = ((o.setSecret s).refresh t1 t2 >>= fun p => .ok (p.setSecret q)) := by
    intro q
    simp only [Totp.refresh, Totp.remainingTime, Totp.updateCounter, Totp.setSecret, bind, Except.bind]
    cases chk (t1 - o.updateTime) with
    | error x => rfl
    | ok y =>
      dsimp only
      cases chk (o.delta - y) with
      | error x => rfl
      | ok z =>
        dsimp only
        by_cases hz : z ≤ 0
        · rw [if_pos hz, if_pos hz]
          cases calcPeriodicCounter t2 o.interval o.initialTime with
          | error x => rfl
          | ok w => rfl
        · rw [if_neg hz, if_neg hz]
  have hsec : ∀ p, (o.setSecret s).refresh t1 t2 = .ok p → p.secret = some s := by
    intro p hp
    have := e s
    rw [hp, bind_ok, Except.ok.injEq] at this
    rw [this]; rfl
  rw [Totp.generate] at h
  cases hr : (o.setSecret s).refresh t1 t2 with
  | error x => rw [hr] at h; exact absurd h (by simp)
  | ok p =>
    rw [hr, bind_ok, hotpGenerate_ok a ha h5 p s (hsec p hr) m hm d, bind_ok, Except.ok.injEq, Prod.mk.injEq] at h
    obtain ⟨rfl, rfl⟩ := h
    refine ⟨rfl, fun old => ⟨_, ?_, rfl⟩⟩
    rw [Totp.generate, e old, hr, bind_ok, bind_ok, hotpGenerate_ok a ha h5 _ old rfl m' hm' d', bind_ok]
    rfl

theorem setSecretSeq_ok {a : Alg} (o : Totp a) (mem : List Byte) (n : Nat) (h : n ≤ mem.length) :
    o.setSecretSeq mem n = .ok { o with secret := some (mem.take n) } := by
  rw [Totp.setSecretSeq, rds_ok (by omega), bind_ok]; rfl

theorem setSecretSd_ok {a : Alg} (o : Totp a) (s : List Byte) :
    o.setSecretSd .leftFirst s = .ok { o with secret := some s } := by
  rw [Totp.setSecretSd, sdArgs, bind_ok, setSecretSeq_ok o (s ++ [0#8]) s.length (by simp), List.take_left' rfl]

/-- Every way to set the secret. -/
theorem setSecretArg_ok {a : Alg} (o : Totp a) (he : EncIdle o.base32) (hd : DecIdle o.base32) (arg : Totp.SecretArg)
    (ha : SecretArg.ok arg) :
    ∃ b, o.setSecretArg arg = .ok { o with secret := some (SecretArg.secret arg), base32 := b } ∧ EncIdle b ∧ DecIdle b := by
  cases arg with
  | seq mem n => exact ⟨o.base32, setSecretSeq_ok o mem n ha, he, hd⟩
  | cs mem =>
    obtain ⟨q1, q2, q3⟩ := strlen_take mem ha
    refine ⟨o.base32, ?_, he, hd⟩
    rw [Totp.setSecretArg, Totp.setSecretCs, q1, bind_ok, setSecretSeq_ok o mem _ q2, q3]
    rfl
  | str s =>
    refine ⟨o.base32, ?_, he, hd⟩
    rw [Totp.setSecretArg, Totp.setSecretStr, setSecretSeq_ok o _ _ (by simp), List.take_left' rfl]
    rfl
  | sd ord s =>
    cases (show ord = .leftFirst from ha)
    exact ⟨o.base32, setSecretSd_ok o s, he, hd⟩
  | base32Cs ord mem =>
    obtain ⟨rfl, h1, h2⟩ := ha
    obtain ⟨b, e, i1, i2⟩ := bcall_ok (.b32 false) (.dec (.cs mem)) ⟨h1, h2⟩ o.base32 he hd
    refine ⟨b, ?_, i1, i2⟩
    have e : objDecodeArg (BaseKind.b32 false).decClass o.base32 (.cs mem) = _ := e
    rw [Totp.setSecretArg, Totp.setSecretBase32Cs, e, bind_ok, setSecretSd_ok]
    rfl
  | base32Str ord s =>
    obtain ⟨rfl, h2⟩ := ha
    obtain ⟨b, e, i1, i2⟩ := bcall_ok (.b32 false) (.dec (.str s)) ⟨trivial, h2⟩ o.base32 he hd
    refine ⟨b, ?_, i1, i2⟩
    have e : objDecodeArg (BaseKind.b32 false).decClass o.base32 (.str s) = _ := e
    rw [Totp.setSecretArg, Totp.setSecretBase32Str, e, bind_ok, setSecretSd_ok]
    rfl

/-- Between calls: the stored counter is the step of the last update, `last` is that step. -/
structure TInv (a : Alg) (x : Nat) (t0 lo : Int) (s : List Byte) (last : Option Int) (o : Totp a) : Prop where
  iv : o.interval = x
  it : o.initialTime = t0
  sec : o.secret = some s
  u0 : 0 ≤ o.updateTime
  u1 : o.updateTime ≤ lo
  ei : EncIdle o.base32
  di : DecIdle o.base32
  st : match last with
    | none => o.updateTime = 0 ∧ o.delta = 0
    | some k => t0 ≤ o.updateTime ∧ k = timeStep o.updateTime t0 x ∧ (o.co.toNat : Int) = k ∧
      o.delta = (x - (o.updateTime - t0) % (x : Int)).bmod (2 ^ 32)

theorem TInv.delta_ok {a : Alg} {x : Nat} {t0 lo : Int} {s : List Byte} {last : Option Int} {o : Totp a}
    (h : TInv a x t0 lo s last o) : deltaOK o.delta := by
  have := h.st
  cases last with
  | none => rw [this.2]; exact ⟨by decide, by decide⟩
  | some k => rw [this.2.2.2]; exact bmod_deltaOK _

/-- The generate step. -/
theorem refresh_ok (a : Alg) (x : Nat) (hx : 0 < x) (hx2 : x < 2 ^ 32) (t0 lo : Int) (ht0 : near t0) (hlo : t0 ≤ lo)
    (s : List Byte) (last : Option Int) (o : Totp a) (h : TInv a x t0 lo s last o) (t1 t2 : Int)
    (h1 : lo ≤ t1) (h2 : t1 ≤ t2) (h3 : t2 ≤ 2 ^ 61) :
    ∃ o' t, o.refresh t1 t2 = .ok o' ∧ t1 ≤ t ∧ t ≤ t2 ∧ TInv a x t0 t2 s (some (timeStep t t0 x)) o' := by
  have hd := h.delta_ok
  obtain ⟨iv, it, sec, u0, u1, ei, di, st⟩ := h
  obtain ⟨b1, b2⟩ := ht0
  have hrem := remaining_ok a o t1 hd ⟨by omega, by omega⟩ ⟨by omega, by omega⟩
  rw [Totp.refresh, hrem, bind_ok]
  by_cases hc : o.delta - (t1 - o.updateTime) ≤ 0
  · rw [if_pos hc, updateCounter_ok a o t2 (by omega) (by omega) (by omega) (by omega)]
    refine ⟨_, t2, rfl, h2, Int.le_refl _, iv, it, sec, by show 0 ≤ t2; omega, Int.le_refl _, ei, di, ?_⟩
    have h3 := timeStep_nonneg t2 t0 x hx (by omega)
    have h4 := timeStep_le t2 t0 x hx (by omega)
    rw [iv, it]
    exact ⟨by show t0 ≤ t2; omega, rfl, ofInt_toNat _ h3 (by omega), rfl⟩
  · rw [if_neg hc]
    cases last with
    | none => obtain ⟨e1, e2⟩ := st; omega
    | some k =>
      obtain ⟨e1, e2, e3, e4⟩ := st
      have hm := Int.emod_nonneg (o.updateTime - t0) (b := (x : Int)) (by omega)
      have hm2 := Int.emod_lt_of_pos (o.updateTime - t0) (b := (x : Int)) (by omega)
      have hpos : 0 < o.delta := by omega
      have hdd : o.delta = x - (o.updateTime - t0) % (x : Int) := by
        rw [e4] at hpos ⊢
        generalize (o.updateTime - t0) % (x : Int) = r at *
        by_cases hr : (x : Int) - r < 2 ^ 31
        · apply Int.bmod_eq_of_le <;> omega
        · exfalso
          have h6 := Int.sub_bmod_right (x - r : Int) (2 ^ 32)
          have h7 : ((x - r : Int) - ((2 ^ 32 : Nat) : Int)).bmod (2 ^ 32) = (x - r : Int) - ((2 ^ 32 : Nat) : Int) := by
            apply Int.bmod_eq_of_le <;> omega
          rw [← h6, h7] at hpos
          omega
      have hst := timeStep_const o.updateTime t1 t0 x hx (by omega) (by omega)
      refine ⟨o, t1, rfl, Int.le_refl _, h2, iv, it, sec, u0, by omega, ei, di, e1, by rw [hst], by rw [hst, ← e2, e3], e4⟩

theorem calls_results (a : Alg) (ha : isShake a = false) (h5 : a ≠ .MD5) (x : Nat) (hx : 0 < x) (hx2 : x < 2 ^ 32)
    (t0 : Int) (ht0 : near t0) (l : List (Totp.Call a)) :
    ∀ lo s last o, t0 ≤ lo → TInv a x t0 lo s last o → clockOK lo l →
    ∃ o' r, o.calls l = .ok (o', r) ∧ resultsOK x t0 s last l r := by
  induction l with
  | nil => intro lo s last o _ _ _; exact ⟨o, [], rfl, trivial⟩
  | cons c l ih =>
    intro lo s last o hlo hi hc
    cases c with
    | generate t1 t2 mem d =>
      obtain ⟨c1, c2, c3, c4, c5⟩ := hc
      obtain ⟨o1, t, e1, e2, e3, i1⟩ := refresh_ok a x hx hx2 t0 lo ht0 hlo s last o hi t1 t2 c1 c2 c3
      obtain ⟨o2, r, e4, e5⟩ := ih t2 s _ o1 (by omega) i1 c5
      have hco : o1.co.toNat = (timeStep t t0 x).toNat := by have := i1.st.2.2.1; omega
      refine ⟨o2, .code (stdHotp a (s.take (blockBytes a)) (timeStep t t0 x).toNat d) :: r, ?_, t, e2, e3, rfl, e5⟩
      rw [Totp.calls, Totp.call, Totp.generate, e1, bind_ok, hotpGenerate_ok a ha h5 o1 s i1.sec mem c4 d, bind_ok, bind_ok,
        bind_ok, hco, e4, bind_ok]
    | generateStr t1 t2 mem d =>
      obtain ⟨c1, c2, c3, c4, c5⟩ := hc
      obtain ⟨o1, t, e1, e2, e3, i1⟩ := refresh_ok a x hx hx2 t0 lo ht0 hlo s last o hi t1 t2 c1 c2 c3
      obtain ⟨o2, r, e4, e5⟩ := ih t2 s _ o1 (by omega) i1 c5
      have hco : o1.co.toNat = (timeStep t t0 x).toNat := by have := i1.st.2.2.1; omega
      refine ⟨o2, .text (generateStr (stdHotp a (s.take (blockBytes a)) (timeStep t t0 x).toNat d) d) :: r, ?_, t, e2, e3,
        fun hd => generateStr_eq _ _ hd (Nat.mod_lt _ (Nat.pow_pos (by decide))), e5⟩
      rw [Totp.calls, Totp.call, Totp.generateStr, e1, bind_ok, hotpGenerate_ok a ha h5 o1 s i1.sec mem c4 d, bind_ok, bind_ok,
        bind_ok, hco, e4, bind_ok]
    | remaining t =>
      obtain ⟨c1, c2, c3⟩ := hc
      have hd := hi.delta_ok
      obtain ⟨b1, b2⟩ := ht0
      have hu0 := hi.u0
      have hu1 := hi.u1
      have hrem := remaining_ok a o t hd ⟨by omega, by omega⟩ ⟨by omega, by omega⟩
      obtain ⟨o2, r, e4, e5⟩ := ih t s last o (by omega) ⟨hi.iv, hi.it, hi.sec, hi.u0, by omega, hi.ei, hi.di, hi.st⟩ c3
      refine ⟨o2, .time (o.delta - (t - o.updateTime)) :: r, ?_, ?_, e5⟩
      · rw [Totp.calls, Totp.call, hrem, bind_ok, bind_ok, e4, bind_ok]
      · intro hx31 k hk
        subst hk
        obtain ⟨g1, g2, g3, g4⟩ := hi.st
        have hm := Int.emod_nonneg (o.updateTime - t0) (b := (x : Int)) (by omega)
        have hm2 := Int.emod_lt_of_pos (o.updateTime - t0) (b := (x : Int)) (by omega)
        have hdd : o.delta = x - (o.updateTime - t0) % (x : Int) := by
          rw [g4]; apply Int.bmod_eq_of_le <;> omega
        have hn := timeStep_next o.updateTime t0 x hx
        rw [show t + (o.delta - (t - o.updateTime)) = o.updateTime + (x - (o.updateTime - t0) % (x : Int)) by omega, hn, g2]
        exact ⟨timeStep_const o.updateTime _ t0 x hx (by omega) (by omega), rfl⟩
    | setSecret s' =>
      have hc : clockOK lo l := hc
      obtain ⟨o2, r, e4, e5⟩ := ih lo s' last (o.setSecret s') hlo
        ⟨hi.iv, hi.it, rfl, hi.u0, hi.u1, hi.ei, hi.di, hi.st⟩ hc
      refine ⟨o2, .unit :: r, ?_, e5⟩
      rw [Totp.calls, Totp.call, bind_ok, e4, bind_ok]
    | setSecretArg arg =>
      obtain ⟨hok, hc⟩ := hc
      obtain ⟨b, e1, b1, b2⟩ := setSecretArg_ok o hi.ei hi.di arg hok
      obtain ⟨o2, r, e4, e5⟩ := ih lo (SecretArg.secret arg) last
        { o with secret := some (SecretArg.secret arg), base32 := b } hlo
        ⟨hi.iv, hi.it, rfl, hi.u0, hi.u1, b1, b2, hi.st⟩ hc
      refine ⟨o2, .unit :: r, ?_, e5⟩
      rw [Totp.calls, Totp.call, e1, bind_ok, bind_ok, e4, bind_ok]
    | interval =>
      obtain ⟨o2, r, e4, e5⟩ := ih lo s last o hlo hi hc
      exact ⟨o2, .time o.interval :: r, by rw [Totp.calls, Totp.call, bind_ok, e4, bind_ok], by rw [hi.iv], e5⟩
    | initialTime =>
      obtain ⟨o2, r, e4, e5⟩ := ih lo s last o hlo hi hc
      exact ⟨o2, .time o.initialTime :: r, by rw [Totp.calls, Totp.call, bind_ok, e4, bind_ok], hi.it, e5⟩
    | updateTime =>
      obtain ⟨o2, r, e4, e5⟩ := ih lo s last o hlo hi hc
      refine ⟨o2, .time o.updateTime :: r, by rw [Totp.calls, Totp.call, bind_ok, e4, bind_ok], ?_, ?_, e5⟩
      · intro h; have := hi.st; rw [h] at this; exact this.1
      · intro k h; have := hi.st; rw [h] at this; exact this.2.1.symm
    | setCounter c => exact hc.elim
    | setInterval i => exact hc.elim
    | setInitialTime t => exact hc.elim

/-- **C41.** For SHA-1, SHA-2 and SHA-3, every interval 1..2^32-1, every T0, every secret, any content of the
uninitialised counter, and every history of generate, generate_str, remaining_time and set_secret calls under a
clock that never goes back (starting at or after T0 and 1970): all calls succeed and every result is right in the
sense of `resultsOK`. -/
theorem C41 (a : Alg) (ha : isShake a = false) (h5 : a ≠ .MD5) (co : W64) (x : Nat) (hx : 0 < x) (hx2 : x < 2 ^ 32)
    (t0 : Int) (ht0 : near t0) (s : List Byte) (lo : Int) (h0 : 0 ≤ lo) (hlo : t0 ≤ lo)
    (l : List (Totp.Call a)) (hc : clockOK lo l) :
    ∃ o r, (((Totp.create a co x).setInitialTime t0).setSecret s).calls l = .ok (o, r) ∧
      resultsOK x t0 s none l r :=
  calls_results a ha h5 x hx hx2 t0 ht0 l lo s none _ hlo ⟨rfl, rfl, rfl, Int.le_refl _, h0, init_idle.1, init_idle.2, rfl, rfl⟩ hc

/-- **C41, constructors.** The same for an object constructed with its secret, in any form. -/
theorem C41_construct (a : Alg) (ha : isShake a = false) (h5 : a ≠ .MD5) (co : W64) (x : Nat) (hx : 0 < x)
    (hx2 : x < 2 ^ 32) (t0 : Int) (ht0 : near t0) (arg : Totp.SecretArg) (harg : SecretArg.ok arg) (lo : Int) (h0 : 0 ≤ lo)
    (hlo : t0 ≤ lo) (l : List (Totp.Call a)) (hc : clockOK lo l) :
    ∃ o₀ o r, Totp.createWith a co x arg = .ok o₀ ∧ (o₀.setInitialTime t0).calls l = .ok (o, r) ∧
      resultsOK x t0 (SecretArg.secret arg) none l r := by
  obtain ⟨b, e, b1, b2⟩ := setSecretArg_ok (Totp.create a co x) init_idle.1 init_idle.2 arg harg
  obtain ⟨o, r, e1, e2⟩ := calls_results a ha h5 x hx hx2 t0 ht0 l lo (SecretArg.secret arg) none
    (Totp.setInitialTime { (Totp.create a co x) with secret := some (SecretArg.secret arg), base32 := b } t0) hlo
    ⟨rfl, rfl, rfl, Int.le_refl _, h0, b1, b2, rfl, rfl⟩ hc
  refine ⟨_, o, r, ?_, e1, e2⟩
  rw [Totp.createWith, e, bind_ok]
  rfl

/-- A concrete history: codes around the end of the first interval, with the remaining time between them. -/
theorem C41_example :
    clockOK (a := .SHA1) 0 [.generate 29 29 sha1Stack 6, .remaining 29, .setSecret (str "x"), .generateStr 30 31 sha1Stack 8,
      .remaining 45] ∧
    ∃ o, exObj.calls [.generate 29 29 sha1Stack 6, .remaining 29] = .ok (o, [.code 755224, .time 1]) := by
  refine ⟨⟨by decide, by decide, by decide, sha1Stack_ok, by decide, by decide, by decide, by decide, by decide,
    sha1Stack_ok, by decide, by decide, trivial⟩, ?_⟩
  have hr : exObj.remainingTime 29 = .ok (-29) := by decide
  have hu : exObj.updateCounter 29 = .ok { exObj with updateTime := 29, co := 0#64, delta := 1 } := rfl
  have hr2 : ({ exObj with updateTime := 29, co := 0#64, delta := 1 } : Totp .SHA1).remainingTime 29 = .ok 1 := by decide
  refine ⟨{ exObj with updateTime := 29, co := 0#64, delta := 1 }, ?_⟩
  rw [Totp.calls, Totp.call, Totp.generate, Totp.refresh, hr, bind_ok, if_pos (by decide), hu, bind_ok,
    hotpGenerate_ok .SHA1 rfl (by decide) _ rfcSecret rfl sha1Stack sha1Stack_ok 6, bind_ok, bind_ok, bind_ok,
    show rfcSecret.take (blockBytes .SHA1) = rfcSecret by decide, show (0#64).toNat = 0 from rfl, rfcCode0]
  rw [Totp.calls, Totp.call, hr2, bind_ok, bind_ok, Totp.calls]
  rfl

/-! ## C58: HOTP objects -/

end Pgfe.Props

namespace Pgfe.Spec
open Pgfe.Model

/-- What a history of calls on a HOTP object should return, given the secret and the counter set before. -/
def hotpResults (a : Alg) : Option (List Byte) → W64 → List (Totp.HCall a) → C (List Totp.Res)
  | _, _, [] => .ok []
  | _, c, .setSecret s :: l => do .ok (.unit :: (← hotpResults a (some s) c l))
  | _, c, .setSecretArg arg :: l => do .ok (.unit :: (← hotpResults a (some (SecretArg.secret arg)) c l))
  | s, _, .setCounter c :: l => do .ok (.unit :: (← hotpResults a s c l))
  | none, _, .generate _ _ :: _ | none, _, .generateStr _ _ :: _ => .error .thrown
  | some s, c, .generate _ d :: l => do
    .ok (.code (stdHotp a (s.take (blockBytes a)) c.toNat d) :: (← hotpResults a (some s) c l))
  | some s, c, .generateStr _ d :: l => do
    .ok (.text (decDigits (max d 1) (stdHotp a (s.take (blockBytes a)) c.toNat d)) :: (← hotpResults a (some s) c l))

/-- The stack memory of the calls has the declared sizes; arguments are well-formed. -/
def hstackOK (a : Alg) : Totp.HCall a → Prop
  | .setSecretArg arg => SecretArg.ok arg
  | .generate mem _ | .generateStr mem _ => otpStackOK a mem
  | _ => True

end Pgfe.Spec

namespace Pgfe.Props
open Pgfe.Model Pgfe.Spec Pgfe.Proofs Pgfe.Proofs.Hash Pgfe.Proofs.Hmac Pgfe.Proofs.Otp

theorem generateStr_max (v d : Nat) (h : v < 10 ^ d) : generateStr v d = decDigits (max d 1) v := by
  by_cases hd : 1 ≤ d
  · rw [generateStr_eq v d hd h, Nat.max_eq_left hd]
  · have : d = 0 := by omega
    subst this
    have : v = 0 := by simpa using h
    subst this
    rw [generateStr, zeroPadLoop, if_neg (by omega), stdToString, if_pos (by decide)]
    rfl

/-- **C58.** For SHA-1, SHA-2 and SHA-3 and every history of set_secret, set_counter, generate and generate_str
calls on a new HOTP object: every code is the RFC 4226 value for the secret and the counter set last (generating
does not advance the counter), and without a secret generating throws.  `co` is the content of the uninitialised
counter, used when none was set. -/
theorem C58 (a : Alg) (ha : isShake a = false) (h5 : a ≠ .MD5) (co : W64) (x : Nat) (l : List (Totp.HCall a))
    (hl : ∀ c ∈ l, hstackOK a c) :
    (do let r ← (Totp.create a co x).hcalls l
        (.ok r.2 : C (List Totp.Res))) = hotpResults a none co l := by
  have key : ∀ (l : List (Totp.HCall a)), (∀ c ∈ l, hstackOK a c) → ∀ o : Totp a, EncIdle o.base32 → DecIdle o.base32 →
      (do let r ← o.hcalls l
          (.ok r.2 : C (List Totp.Res))) = hotpResults a o.secret o.co l := by
    intro l
    induction l with
    | nil => intro _ o _ _; rw [hotpResults]; rfl
    | cons c l ih =>
      intro hl o he hd
      have ih := ih (fun c h => hl c (List.mem_cons_of_mem _ h))
      have hc := hl c (List.mem_cons_self ..)
      cases c with
      | setSecret s =>
        have := ih (o.setSecret s) he hd
        rw [Totp.hcalls, Totp.hcall, bind_ok, hotpResults, ← show (o.setSecret s).hcalls l >>= _ = hotpResults a (some s) o.co l from this]
        cases (o.setSecret s).hcalls l <;> rfl
      | setSecretArg arg =>
        obtain ⟨b, e, b1, b2⟩ := setSecretArg_ok o he hd arg hc
        have := ih { o with secret := some (SecretArg.secret arg), base32 := b } b1 b2
        rw [Totp.hcalls, Totp.hcall, e, bind_ok, bind_ok, hotpResults, ← this]
        dsimp only
        generalize Totp.hcalls _ l = z
        cases z <;> rfl
      | setCounter c =>
        have := ih (o.setCounter c) he hd
        rw [Totp.hcalls, Totp.hcall, bind_ok, hotpResults, ← show (o.setCounter c).hcalls l >>= _ = hotpResults a o.secret c l from this]
        cases (o.setCounter c).hcalls l <;> rfl
      | generate mem d =>
        have := ih o he hd
        cases hs : o.secret with
        | none => rw [Totp.hcalls, Totp.hcall, Totp.hotpGenerate, hs, hotpResults]; rfl
        | some s =>
          rw [hs] at this
          rw [Totp.hcalls, Totp.hcall, hotpGenerate_ok a ha h5 o s hs mem hc d, bind_ok, bind_ok, hotpResults, ← this]
          cases o.hcalls l <;> rfl
      | generateStr mem d =>
        have := ih o he hd
        cases hs : o.secret with
        | none => rw [Totp.hcalls, Totp.hcall, Totp.hotpGenerate, hs, hotpResults]; rfl
        | some s =>
          rw [hs] at this
          rw [Totp.hcalls, Totp.hcall, hotpGenerate_ok a ha h5 o s hs mem hc d, bind_ok, bind_ok, hotpResults, ← this,
            generateStr_max (stdHotp a (s.take (blockBytes a)) o.co.toNat d) d (Nat.mod_lt _ (Nat.pow_pos (by decide)))]
          cases o.hcalls l <;> rfl
  exact key l hl _ init_idle.1 init_idle.2

/-- A concrete history. -/
theorem C58_example : (do
      let r ← (Totp.create .SHA1 0xdeadbeef#64 0).hcalls [.setSecret rfcSecret, .setCounter 0#64, .generate sha1Stack 6,
        .setCounter 1#64, .generateStr sha1Stack 6, .generate sha1Stack 6]
      (.ok r.2 : C (List Totp.Res)))
    = .ok [.unit, .unit, .code 755224, .unit, .text (str "287082"), .code 287082] := by
  rw [C58 .SHA1 rfl (by decide) _ _ _ (by
    intro c hc
    simp only [List.mem_cons, List.not_mem_nil, or_false] at hc
    rcases hc with rfl | rfl | rfl | rfl | rfl | rfl <;> first | exact trivial | exact sha1Stack_ok)]
  simp only [hotpResults, bind_ok, show rfcSecret.take (blockBytes .SHA1) = rfcSecret by decide,
    show (0#64).toNat = 0 from rfl, show (1#64).toNat = 1 from rfl, rfcCode0, rfcCode1]
  decide

/-! ## C59: secrets given as base32 text -/

/-- **C59, exact.** Setting the secret from the RFC 4648 base32 text of `x` (with any number of its trailing
padding characters removed), as C string or as `std::string`, in any state of the object succeeds, and the secret
is `x` with its last group of five bytes cut at its first zero byte; everything else except the decoder's cache is
unchanged.  (For implementations that evaluate the arguments of C65 in the good order.) -/
theorem C59_exact (a : Alg) (o : Totp a) (he : EncIdle o.base32) (hd : DecIdle o.base32) (x t : List Byte) (k : Nat)
    (hx : x ≠ []) (ht : rfcBase32.encode x = t ++ List.replicate k padChar)
    (hk : (rfcBase32.digits x).length ≤ t.length) (arg : Totp.SecretArg)
    (harg : (∃ rest, arg = .base32Cs .leftFirst (t ++ 0#8 :: rest)) ∨ arg = .base32Str .leftFirst t) :
    ∃ b, o.setSecretArg arg = .ok { o with secret := some (cutLast 5 x), base32 := b } ∧ EncIdle b ∧ DecIdle b := by
  have hB := good .base32
  obtain ⟨hc, hl⟩ := carries_encode .base32 x t k ht hk
  have hz := carries_nozero hc
  have hne : t ≠ [] := by
    have := bdigits_pos hB x hx
    intro h; rw [h, List.length_nil] at hk
    have hk : ((specOf .base32).digits x).length ≤ 0 := hk
    omega
  let out : List Byte := List.replicate ((specOf .base32).unit * ceilDiv t.length (specOf .base32).chars + 1) 0#8
  have hfit : DecFits .base32 t.length out := by
    show _ ≤ out.length
    rw [List.length_replicate]
  have h1 := C09 .base32 x t [] out k hx ht hk hfit
  have h2 := isResult_dec ⟨.base32, fun _ => 0, fun _ => 0⟩ t ⟨hz, hne⟩ out hfit
  have hdec : rfcBase32.libDecode code32 t = cutLast 5 x := decoded_unique h2 h1
  have hw : ∀ rest, (t ++ 0#8 :: rest).takeWhile (fun b => b ≠ 0#8) = t := by
    intro rest
    rw [List.takeWhile_append_of_pos (by
      intro b hb
      simp only [ne_eq, decide_not, Bool.not_eq_eq_eq_not, Bool.not_true, decide_eq_false_iff_not]
      intro h; exact hz (h ▸ hb))]
    simp
  have hw' : t.takeWhile (fun b => b ≠ 0#8) = t := by
    have h := List.takeWhile_append_of_pos (p := fun b : Byte => decide (b ≠ 0#8)) (l₁ := t) (l₂ := []) (by
      intro b hb
      simp only [ne_eq, decide_not, Bool.not_eq_eq_eq_not, Bool.not_true, decide_eq_false_iff_not]
      intro h; exact hz (h ▸ hb))
    rw [List.append_nil, List.takeWhile_nil, List.append_nil] at h
    exact h
  have hok : SecretArg.ok arg ∧ SecretArg.secret arg = cutLast 5 x := by
    rcases harg with ⟨rest, rfl⟩ | rfl
    · exact ⟨⟨rfl, by simp, by rw [hw]; exact hne⟩, by rw [SecretArg.secret, hw, hdec]⟩
    · exact ⟨⟨rfl, by rw [hw']; exact hne⟩, by rw [SecretArg.secret, hw', hdec]⟩
  obtain ⟨b, e, i⟩ := setSecretArg_ok o he hd arg hok.1
  exact ⟨b, by rw [e, hok.2], i⟩

/-- A new object is in such a state. -/
theorem C59_init (a : Alg) (co : W64) (x : Nat) :
    EncIdle (Totp.create a co x).base32 ∧ DecIdle (Totp.create a co x).base32 := init_idle

/-- **C59, partial.** Secrets whose last group contains no zero byte are set correctly (missing: the others, for
which the claim is false, see `C59_violation`). -/
theorem C59_partial (a : Alg) (o : Totp a) (he : EncIdle o.base32) (hd : DecIdle o.base32) (x t : List Byte) (k : Nat)
    (hx : x ≠ []) (ht : rfcBase32.encode x = t ++ List.replicate k padChar)
    (hk : (rfcBase32.digits x).length ≤ t.length) (hlast : 0#8 ∉ x.drop ((x.length - 1) / 5 * 5)) (arg : Totp.SecretArg)
    (harg : (∃ rest, arg = .base32Cs .leftFirst (t ++ 0#8 :: rest)) ∨ arg = .base32Str .leftFirst t) :
    ∃ o', o.setSecretArg arg = .ok o' ∧ o'.secret = some x := by
  obtain ⟨b, h, _⟩ := C59_exact a o he hd x t k hx ht hk arg harg
  refine ⟨_, h, ?_⟩
  have : cutLast 5 x = x := by
    unfold cutLast
    dsimp only
    rw [takeWhile_nozero _ hlast, List.take_append_drop]
  rw [this]

/-- A ten-byte secret with a zero byte in its last group. -/
def zsec : List Byte := str "12345" ++ [0x36#8, 0#8, 0x37#8, 0x38#8, 0x39#8]

theorem zsecCode : stdHotp .SHA1 zsec 0 6 = 939646 := by
  have h1 : Sha.sha1 (xorPad 64 zsec 0x36#8 ++ bytesBE 8 0) = [0x9a#8, 0xf0#8, 0x0e#8, 0x64#8, 0xa4#8, 0xc1#8, 0xf2#8, 0x3f#8, 0x07#8, 0x1f#8, 0x72#8, 0xf7#8, 0xe0#8, 0x73#8, 0xa4#8, 0xd1#8, 0x0f#8, 0xcc#8, 0xf0#8, 0x41#8] := by
    rw [sha1_eval]; decide +kernel
  have h2 : Sha.sha1 (xorPad 64 zsec 0x5c#8 ++ [0x9a#8, 0xf0#8, 0x0e#8, 0x64#8, 0xa4#8, 0xc1#8, 0xf2#8, 0x3f#8, 0x07#8, 0x1f#8, 0x72#8, 0xf7#8, 0xe0#8, 0x73#8, 0xa4#8, 0xd1#8, 0x0f#8, 0xcc#8, 0xf0#8, 0x41#8]) = [0xf6#8, 0x12#8, 0xbd#8, 0x7e#8, 0x33#8, 0x85#8, 0xeb#8, 0x21#8, 0xb7#8, 0x02#8, 0xc9#8, 0xec#8, 0x6b#8, 0x40#8, 0xfe#8, 0x8c#8, 0xa5#8, 0x8c#8, 0x9b#8, 0x20#8] := by
    rw [sha1_eval]; decide +kernel
  have h : hmac (stdHash .SHA1 0) (blockBytes .SHA1) zsec (bytesBE 8 0) = [0xf6#8, 0x12#8, 0xbd#8, 0x7e#8, 0x33#8, 0x85#8, 0xeb#8, 0x21#8, 0xb7#8, 0x02#8, 0xc9#8, 0xec#8, 0x6b#8, 0x40#8, 0xfe#8, 0x8c#8, 0xa5#8, 0x8c#8, 0x9b#8, 0x20#8] := by
    show hmac Sha.sha1 64 zsec (bytesBE 8 0) = _
    rw [hmac, if_neg (by decide), hmacShort, h1, h2]
  rw [stdHotp, rfcHotp, h]
  decide +kernel

theorem zsecCutCode : stdHotp .SHA1 (str "123456") 0 6 = 186818 := by
  have h1 : Sha.sha1 (xorPad 64 (str "123456") 0x36#8 ++ bytesBE 8 0) = [0xdd#8, 0xa9#8, 0xee#8, 0xcc#8, 0xac#8, 0xb7#8, 0x7a#8, 0xf7#8, 0x87#8, 0x97#8, 0x18#8, 0xbb#8, 0x71#8, 0x19#8, 0x47#8, 0xe6#8, 0xa3#8, 0xbc#8, 0x32#8, 0xb6#8] := by
    rw [sha1_eval]; decide +kernel
  have h2 : Sha.sha1 (xorPad 64 (str "123456") 0x5c#8 ++ [0xdd#8, 0xa9#8, 0xee#8, 0xcc#8, 0xac#8, 0xb7#8, 0x7a#8, 0xf7#8, 0x87#8, 0x97#8, 0x18#8, 0xbb#8, 0x71#8, 0x19#8, 0x47#8, 0xe6#8, 0xa3#8, 0xbc#8, 0x32#8, 0xb6#8]) = [0xa6#8, 0xd1#8, 0x23#8, 0x8b#8, 0xa9#8, 0x72#8, 0xff#8, 0x87#8, 0x9f#8, 0x75#8, 0xb7#8, 0x37#8, 0x7d#8, 0x80#8, 0x3f#8, 0xe2#8, 0xc2#8, 0x87#8, 0xcf#8, 0x5d#8] := by
    rw [sha1_eval]; decide +kernel
  have h : hmac (stdHash .SHA1 0) (blockBytes .SHA1) (str "123456") (bytesBE 8 0) = [0xa6#8, 0xd1#8, 0x23#8, 0x8b#8, 0xa9#8, 0x72#8, 0xff#8, 0x87#8, 0x9f#8, 0x75#8, 0xb7#8, 0x37#8, 0x7d#8, 0x80#8, 0x3f#8, 0xe2#8, 0xc2#8, 0x87#8, 0xcf#8, 0x5d#8] := by
    show hmac Sha.sha1 64 (str "123456") (bytesBE 8 0) = _
    rw [hmac, if_neg (by decide), hmacShort, h1, h2]
  rw [stdHotp, rfcHotp, h]
  decide +kernel

/-- **C59, violation.** The text "GEZDGNBVGYADOOBZ" of that secret gives, at counter 0, the code 186818 (that of
the secret "123456") instead of 939646. -/
theorem C59_violation :
    rfcBase32.encode zsec = str "GEZDGNBVGYADOOBZ" ∧ stdHotp .SHA1 zsec 0 6 = 939646 ∧
    (do let o ← (Totp.create .SHA1 0#64 0).setSecretArg (.base32Str .leftFirst (str "GEZDGNBVGYADOOBZ"))
        o.hotpGenerate sha1Stack 6) = .ok 186818 := by
  have henc : rfcBase32.encode zsec = str "GEZDGNBVGYADOOBZ" := by decide +kernel
  refine ⟨henc, zsecCode, ?_⟩
  obtain ⟨b, h, _⟩ := C59_exact .SHA1 (Totp.create .SHA1 0#64 0) init_idle.1 init_idle.2 zsec
    (str "GEZDGNBVGYADOOBZ") 0 (by decide) (by rw [henc]; decide) (by decide +kernel) _ (.inr rfl)
  rw [h, bind_ok, hotpGenerate_ok .SHA1 rfl (by decide) _ _ rfl sha1Stack sha1Stack_ok 6,
    show (cutLast 5 zsec).take (blockBytes .SHA1) = str "123456" by decide]
  show Except.ok (stdHotp .SHA1 (str "123456") 0 6) = _
  rw [zsecCutCode]

/-! ## C67: TOTP objects used through references to their base classes -/

/-- **C67** (partial: through the class itself). -/
theorem C67_partial (a : Alg) (o : Totp a) (t1 t2 : Int) (mem : Totp.Stack a) (d : Nat) :
    o.generateVia .TOTP t1 t2 mem d = o.generate t1 t2 mem d ∧
    o.generateStrVia .TOTP t1 t2 mem d = o.generateStr t1 t2 mem d := ⟨rfl, rfl⟩

/-- **C67, violation.** Through a reference to `HOTP` or `AbstractOTP` the clock is not read: in every state of the
object the code is that of the counter stored last (the uninitialised one in a new object), at every time, and the
object does not change. -/
theorem C67_violation (a : Alg) (ha : isShake a = false) (h5 : a ≠ .MD5) (st : Totp.Cls) (hst : st ≠ .TOTP) (o : Totp a)
    (s : List Byte) (hs : o.secret = some s) (mem : Totp.Stack a) (hm : otpStackOK a mem) (d : Nat) (t1 t2 : Int) :
    o.generateVia st t1 t2 mem d = .ok (o, stdHotp a (s.take (blockBytes a)) o.co.toNat d) ∧
    (1 ≤ d → o.generateStrVia st t1 t2 mem d
      = .ok (o, decDigits d (stdHotp a (s.take (blockBytes a)) o.co.toNat d))) := by
  have h := hotpGenerate_ok a ha h5 o s hs mem hm d
  have hr : st.runs = .HOTP := by cases st <;> first | rfl | exact absurd rfl hst
  constructor
  · rw [Totp.generateVia, hr]
    dsimp only
    rw [h, bind_ok]
  · intro hd
    rw [Totp.generateStrVia, hr]
    dsimp only
    rw [h, bind_ok, generateStr_eq (stdHotp a (s.take (blockBytes a)) o.co.toNat d) d hd (Nat.mod_lt _ (Nat.pow_pos (by decide)))]

/-- For example, in memory filled with zeros: at 30 seconds a new TOTP object for the secret of RFC 4226 gives 287082,
through a reference to `HOTP` 755224. -/
theorem C67_example : ∃ o', ((Totp.create .SHA1 0#64 30).setSecret rfcSecret).generateVia .TOTP 30 30 sha1Stack 6
      = .ok (o', 287082) ∧
    ((Totp.create .SHA1 0#64 30).setSecret rfcSecret).generateVia .HOTP 30 30 sha1Stack 6
      = .ok ((Totp.create .SHA1 0#64 30).setSecret rfcSecret, 755224) := by
  refine ⟨{ (Totp.create .SHA1 0#64 30).setSecret rfcSecret with updateTime := 30, co := 1#64, delta := 30 }, ?_, ?_⟩
  · rw [(C67_partial _ _ _ _ _ _).1]
    have hr : ((Totp.create .SHA1 0#64 30).setSecret rfcSecret).remainingTime 30 = .ok (-30) := by decide
    have hu : ((Totp.create .SHA1 0#64 30).setSecret rfcSecret).updateCounter 30
        = .ok { (Totp.create .SHA1 0#64 30).setSecret rfcSecret with updateTime := 30, co := 1#64, delta := 30 } := rfl
    rw [Totp.generate, Totp.refresh, hr, bind_ok, if_pos (by decide), hu, bind_ok,
      hotpGenerate_ok .SHA1 rfl (by decide) _ rfcSecret rfl sha1Stack sha1Stack_ok 6, bind_ok,
      show rfcSecret.take (blockBytes .SHA1) = rfcSecret by decide, show (1#64).toNat = 1 from rfl, rfcCode1]
  · rw [(C67_violation .SHA1 rfl (by decide) .HOTP (by decide) _ rfcSecret rfl sha1Stack sha1Stack_ok 6 30 30).1,
      show rfcSecret.take (blockBytes .SHA1) = rfcSecret by decide]
    show Except.ok (_, stdHotp .SHA1 rfcSecret 0 6) = _
    rw [rfcCode0]

/-! ## C70: the clock is set back -/

/-- **C70, exact.** A call of generate that reads the clock anew, at `u2`, returns the code of the step of `u2`.
Any later call, whatever the clock shows then, returns the code of that same step as long as its first reading of
the clock lies before the end of that step, and the code of the clock otherwise. -/
theorem C70_exact (a : Alg) (ha : isShake a = false) (h5 : a ≠ .MD5) (o : Totp a) (s : List Byte)
    (hs : o.secret = some s) (m : Totp.Stack a) (hm : otpStackOK a m) (d : Nat) (u1 u2 : Int)
    (hd : deltaOK o.delta) (hu : near o.updateTime) (hu1 : near u1) (hu2 : near u2) (hi : near o.initialTime)
    (hx : 0 < o.interval) (hx2 : o.interval < 2 ^ 31) (h0 : o.initialTime ≤ u2) (hold : o.updateTime + o.delta ≤ u1) :
    ∃ o1, o.generate u1 u2 m d = .ok (o1, stdHotp a (s.take (blockBytes a))
        (timeStep u2 o.initialTime o.interval).toNat d) ∧
      ∀ (m' : Totp.Stack a) (_ : otpStackOK a m') (d' : Nat) (t1 t2 : Int) (_ : near t1) (_ : near t2)
        (_ : o.initialTime ≤ t2), ∃ o2, o1.generate t1 t2 m' d' = .ok (o2, stdHotp a (s.take (blockBytes a))
          (if o.initialTime + o.interval * (timeStep u2 o.initialTime o.interval + 1) ≤ t1
            then (timeStep t2 o.initialTime o.interval).toNat
            else (timeStep u2 o.initialTime o.interval).toNat) d') := by
  obtain ⟨i1, i2⟩ := hi
  obtain ⟨j1, j2⟩ := hu2
  have h3 := timeStep_nonneg u2 o.initialTime o.interval hx h0
  have h4 := timeStep_le u2 o.initialTime o.interval hx h0
  have h6 := ofInt_toNat (timeStep u2 o.initialTime o.interval) h3 (by omega)
  have hm0 : 0 ≤ (u2 - o.initialTime) % (o.interval : Int) := Int.emod_nonneg _ (by omega)
  have hm1 : (u2 - o.initialTime) % (o.interval : Int) < o.interval := Int.emod_lt_of_pos _ (by omega)
  have hm2 := Int.mul_ediv_add_emod (u2 - o.initialTime) (o.interval : Int)
  have hb : ((o.interval : Int) - (u2 - o.initialTime) % (o.interval : Int)).bmod (2 ^ 32)
      = o.interval - (u2 - o.initialTime) % (o.interval : Int) := by
    apply Int.bmod_eq_of_le <;> omega
  refine ⟨{ o with
      updateTime := u2
      co := BitVec.ofInt 64 (timeStep u2 o.initialTime o.interval)
      delta := (o.interval - (u2 - o.initialTime) % (o.interval : Int)).bmod (2 ^ 32) }, ?_, ?_⟩
  · rw [Totp.generate, Totp.refresh, remaining_ok a o u1 hd hu hu1, bind_ok, if_pos (by omega),
      updateCounter_ok a o u2 hx (by omega) h0 (by omega), bind_ok, hotpGenerate_ok a ha h5 _ s (by exact hs) m hm d,
      bind_ok]
    dsimp only
    rw [show (BitVec.ofInt 64 (timeStep u2 o.initialTime o.interval)).toNat
      = (timeStep u2 o.initialTime o.interval).toNat by omega]
  · intro m' hm' d' t1 t2 ht1 ht2 h02
    obtain ⟨o2, h⟩ := C42_exact a ha h5 { o with
      updateTime := u2
      co := BitVec.ofInt 64 (timeStep u2 o.initialTime o.interval)
      delta := (o.interval - (u2 - o.initialTime) % (o.interval : Int)).bmod (2 ^ 32) } s hs m' hm' d' t1 t2
      (bmod_deltaOK _) ⟨j1, j2⟩ ht1 ht2 ⟨i1, i2⟩ hx (by dsimp only; omega) h02
    refine ⟨o2, ?_⟩
    rw [h]
    dsimp only
    rw [hb, show (BitVec.ofInt 64 (timeStep u2 o.initialTime o.interval)).toNat
      = (timeStep u2 o.initialTime o.interval).toNat by omega]
    have e : u2 + (o.interval - (u2 - o.initialTime) % (o.interval : Int))
        = o.initialTime + o.interval * (timeStep u2 o.initialTime o.interval + 1) := by
      rw [timeStep_eq u2 o.initialTime o.interval hx, Int.mul_add, Int.mul_one]
      omega
    rw [e]

/-- **C70, partial.** As long as the clock is not set back behind the beginning of the time step for which the last
code was made, the code is that of the clock (missing: a clock set back further, for which the claim is false, see
`C70_violation`). -/
theorem C70_partial (a : Alg) (ha : isShake a = false) (h5 : a ≠ .MD5) (o : Totp a) (s : List Byte)
    (hs : o.secret = some s) (m : Totp.Stack a) (hm : otpStackOK a m) (d : Nat) (u : Int)
    (hd : deltaOK o.delta) (hu : near o.updateTime) (hu2 : near u) (hi : near o.initialTime)
    (hx : 0 < o.interval) (hx2 : o.interval < 2 ^ 31) (h0 : o.initialTime ≤ u) (hold : o.updateTime + o.delta ≤ u) :
    ∃ o1, o.generate u u m d = .ok (o1, stdHotp a (s.take (blockBytes a))
        (timeStep u o.initialTime o.interval).toNat d) ∧
      ∀ (m' : Totp.Stack a) (_ : otpStackOK a m') (d' : Nat) (t : Int) (_ : near t)
        (_ : o.initialTime + o.interval * timeStep u o.initialTime o.interval ≤ t),
        ∃ o2, o1.generate t t m' d' = .ok (o2, stdHotp a (s.take (blockBytes a))
          (timeStep t o.initialTime o.interval).toNat d') := by
  obtain ⟨o1, h1, h2⟩ := C70_exact a ha h5 o s hs m hm d u u hd hu hu2 hu2 hi hx hx2 h0 hold
  refine ⟨o1, h1, ?_⟩
  intro m' hm' d' t ht hst
  have h3 := timeStep_nonneg u o.initialTime o.interval hx h0
  have h4 : 0 ≤ (o.interval : Int) * timeStep u o.initialTime o.interval := Int.mul_nonneg (by omega) h3
  obtain ⟨o2, h⟩ := h2 m' hm' d' t t ht ht (by omega)
  refine ⟨o2, ?_⟩
  rw [h]
  by_cases hc : o.initialTime + o.interval * (timeStep u o.initialTime o.interval + 1) ≤ t
  · rw [if_pos hc]
  · rw [if_neg hc]
    have : timeStep t o.initialTime o.interval = timeStep u o.initialTime o.interval := by
      rw [timeStep_eq t o.initialTime o.interval hx]
      rw [Int.mul_add, Int.mul_one] at hc
      generalize timeStep u o.initialTime o.interval = k at *
      generalize o.initialTime = t0 at *
      have hxi : (0 : Int) < o.interval := by omega
      generalize (o.interval : Int) = x at *
      apply Int.le_antisymm
      · exact Int.lt_add_one_iff.mp (Int.ediv_lt_of_lt_mul hxi (by rw [Int.add_mul, Int.one_mul, Int.mul_comm]; omega))
      · exact Int.le_ediv_of_mul_le hxi (by rw [Int.mul_comm]; omega)
    rw [this]

/-- **C70, violation.** A code is generated at time 30 (step 1 of interval 30); the clock is set back to 29 (step
0): the code of step 1 is returned again, not that of step 0. -/
theorem C70_violation : ∃ o o' : Totp .SHA1, exObj.generate 30 30 sha1Stack 6 = .ok (o, 287082) ∧
    o.generate 29 29 sha1Stack 6 = .ok (o', 287082) ∧ stdHotp .SHA1 rfcSecret (timeStep 29 0 30).toNat 6 = 755224 := by
  refine ⟨_, ({ exObj with updateTime := 30, co := 1#64, delta := 30 } : Totp .SHA1), exGen30, ?_, ?_⟩
  · have hr : ({ exObj with updateTime := 30, co := 1#64, delta := 30 } : Totp .SHA1).remainingTime 29
        = .ok 31 := by decide
    rw [Totp.generate, Totp.refresh, hr, bind_ok, if_neg (by decide), bind_ok,
      hotpGenerate_ok .SHA1 rfl (by decide) _ rfcSecret rfl sha1Stack sha1Stack_ok 6, bind_ok,
      show rfcSecret.take (blockBytes .SHA1) = rfcSecret by decide]
    show Except.ok (_, stdHotp .SHA1 rfcSecret 1 6) = _
    rw [rfcCode1]
  · rw [show (timeStep 29 0 30).toNat = 0 by decide, rfcCode0]

/-- The hypotheses are met by a new object with the secret of RFC 4226 at 59 seconds; the clock may then be set back to
30. -/
theorem C70_example : ∃ o1, exObj.generate 59 59 sha1Stack 6 = .ok (o1, 287082) ∧
    ∃ o2, o1.generate 30 30 sha1Stack 6 = .ok (o2, 287082) := by
  have n (t : Int) (h : 0 ≤ t ∧ t < 100) : near t := ⟨by omega, by omega⟩
  obtain ⟨o1, h1, h2⟩ := C70_partial .SHA1 rfl (by decide) exObj rfcSecret rfl sha1Stack sha1Stack_ok 6 59
    ⟨by decide, by decide⟩ (n 0 (by decide)) (n 59 (by decide)) (n 0 (by decide)) (by decide) (by decide) (by decide)
    (by decide)
  obtain ⟨o2, h3⟩ := h2 sha1Stack sha1Stack_ok 6 30 (n 30 (by decide)) (by decide)
  rw [show rfcSecret.take (blockBytes .SHA1) = rfcSecret by decide] at h1 h3
  rw [show (timeStep 59 exObj.initialTime exObj.interval).toNat = 1 by decide, rfcCode1] at h1
  rw [show (timeStep 30 exObj.initialTime exObj.interval).toNat = 1 by decide, rfcCode1] at h3
  exact ⟨o1, h1, o2, h3⟩

end Pgfe.Props
