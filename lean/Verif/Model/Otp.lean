import Verif.Model.Hmac
import Verif.Model.BaseClasses
import Verif.Model.SdArgs
/-!
# Model of the one-time password code

`src/otp/*`, and `reverse` of `src/core/generic-internal.c`.
-/
namespace Pgfe.Model

/-- `reverse`, src/core/generic-internal.c:40-48; `low` and `high` are positions in the array. -/
def reverse (b : List Byte) (low high : Nat) : C (List Byte) :=
  if _h : low < high then do
    let tmp ← rd b low
    let x ← rd b high
    let b ← wr b low x
    let b ← wr b high tmp
    reverse b (low + 1) (high - 1)
  else .ok b
termination_by high - low

/-- `dynamically_truncate`, src/otp/otp-generic.c:12-22 (`length - 1` wraps for `length` = 0). -/
def dynTruncate (hash : List Byte) (length : Nat) : C W32 := do
  let last ← rd hash ((length + 2 ^ 64 - 1) % 2 ^ 64)
  let offset := (last &&& 0x0F#8).toNat
  let code ← forN 4 (fun i (code : W32) => do
    let code := code <<< 8
    let b ← rd hash (offset + i)
    .ok (code ||| b.setWidth 32)) 0#32
  .ok (code <<< 1 >>> 1)

/-- `DIGITS_POW`, src/otp/hotp.c:23. -/
def digitsPow : List Nat :=
  [1, 10, 100, 1000, 10000, 100000, 1000000, 10000000, 100000000, 1000000000]

/-- `_10pow`, src/otp/hotp.c:27-29. -/
def tenPow (p : Nat) : C Nat := rd digitsPow p

/-- The bytes of a 64-bit variable in memory, least significant byte first: `memcpy(counter_h, &counter,
counter_len)`, src/otp/hotp.c:42, on a little-endian machine. -/
def memBytes8 (c : W64) : List Byte := (List.range 8).map (fun i => (c >>> (8 * i)).setWidth 8)

/-- `pgfe_hotp_generic`, src/otp/hotp.c:31-53.  `g` is the memory of `pgfe_hmac`'s locals, `outHash` the
content of the uninitialised array `out_hash[digest_size]`, `counterH` that of `counter_h[8]`. -/
def hotpGeneric (a : Alg) (g : HmacCtx.Mem (a.impl 0)) (counterH outHash : List Byte) (secret : List Byte)
    (secretLength : Nat) (counter : W64) (digitC : Nat) : C Nat := do
  let digestSize := a.digestSize
  let counterH ← wrs counterH 0 (memBytes8 counter)
  let counterH ← reverse counterH 0 7
  let outHash ← pgfeHmac a g secret secretLength counterH 8 outHash
  let result ← dynTruncate outHash digestSize
  if digitC < 10 then do
    let p ← tenPow digitC
    .ok (result.toNat % p)
  else .ok result.toNat

/-- `pgfe_hotp`, src/otp/hotp.c:55-58. -/
def hotp (g : HmacCtx.Mem (Alg.impl .SHA1 0)) (counterH outHash : List Byte) (secret : List Byte)
    (secretLength : Nat) (counter : W64) (digitC : Nat) : C Nat :=
  hotpGeneric .SHA1 g counterH outHash secret secretLength counter digitC

/-- The loop of `otp_to_string`, src/otp/otp-generic.c:28-31; `sp` is the position plus one (the code compares
pointers; forming the pointer before the array at the end of the loop is not modelled as an error). -/
def otpToStringLoop : Nat → Nat → List Byte → C (List Byte)
  | 0, _, cs => .ok cs
  | sp + 1, otp, cs => do
    let cs ← wr cs sp (BitVec.ofNat 8 (otp % 10 + 0x30))
    otpToStringLoop sp (otp / 10) cs

/-- `otp_to_string`, src/otp/otp-generic.c:25-34. -/
def otpToString (otp : W32) (csOut : List Byte) (digitC : Nat) : C (List Byte) := do
  let cs ← otpToStringLoop digitC otp.toNat csOut
  wr cs digitC 0#8

/-- `std::to_string(unsigned)` (C++ library): the decimal digits without leading zeros. -/
def stdToString (n : Nat) : List Byte :=
  if n < 10 then [BitVec.ofNat 8 (0x30 + n)] else stdToString (n / 10) ++ [BitVec.ofNat 8 (0x30 + n % 10)]

/-- The loop of `AbstractOTP::generate_str`, src/otp/abstract_otp.cpp:29-31. -/
def zeroPadLoop (digitCount : Nat) (s : List Byte) : List Byte :=
  if s.length < digitCount then zeroPadLoop digitCount (0x30#8 :: s) else s
termination_by digitCount - s.length

/-- `AbstractOTP::generate_str`, src/otp/abstract_otp.cpp:27-34, given what `generate` returned. -/
def generateStr (otp : Nat) (digitCount : Nat) : List Byte := zeroPadLoop digitCount (stdToString otp)

/-! ## TOTP -/

/-- Values a `time_t` (64 bits) can have. -/
def timeOK (t : Int) : Prop := -2 ^ 63 ≤ t ∧ t < 2 ^ 63
instance (t : Int) : Decidable (timeOK t) := by unfold timeOK; infer_instance

/-- A signed 64-bit operation whose exact result is `t`. -/
def chk (t : Int) : C Int := if timeOK t then .ok t else .error .intOverflow

/-- `calc_periodic_counter`, src/otp/totp-internal.c:3-11, with `delta_out` not NULL: the counter and the
delta.  `/` and `%` round towards zero; the conversion to `int32_t` reduces modulo 2^32 (gcc, clang, C23). -/
def calcPeriodicCounter (realtime : Int) (interval : Nat) (initialTime : Int) : C (W64 × Int) := do
  let timeOffset ← chk (realtime - initialTime)
  if interval = 0 then .error .divZero
  else do
    let d ← chk ((interval : Int) - timeOffset.tmod interval)
    .ok (BitVec.ofInt 64 (timeOffset.tdiv interval), d.bmod (2 ^ 32))

/-- `pgfe_totp_generic`, src/otp/totp.c:17-23, when the clock shows `now`; returns the code and the delta. -/
def totpGeneric (now : Int) (a : Alg) (g : HmacCtx.Mem (a.impl 0)) (counterH outHash : List Byte)
    (secret : List Byte) (secretLength digitC interval : Nat) (initialTime : Int) : C (Nat × Int) := do
  let r ← calcPeriodicCounter now interval initialTime
  let code ← hotpGeneric a g counterH outHash secret secretLength r.1 digitC
  .ok (code, r.2)

/-- `pgfe_hotp_4digits`, `_6digits`, `_8digits`, src/otp/hotp.c:60-70, with the number of digits as argument. -/
def hotpDigits (g : HmacCtx.Mem (Alg.impl .SHA1 0)) (counterH outHash : List Byte) (secret : List Byte)
    (secretLength : Nat) (counter : W64) : Fin 3 → C Nat
  | 0 => hotp g counterH outHash secret secretLength counter 4
  | 1 => hotp g counterH outHash secret secretLength counter 6
  | 2 => hotp g counterH outHash secret secretLength counter 8

/-- `calc_periodic_counter` with `delta_out` = NULL, src/otp/totp-internal.c:3-11. -/
def calcPeriodicCounterNull (realtime : Int) (interval : Nat) (initialTime : Int) : C W64 := do
  let timeOffset ← chk (realtime - initialTime)
  if interval = 0 then .error .divZero
  else .ok (BitVec.ofInt 64 (timeOffset.tdiv interval))

/-- `pgfe_totp_generic` with `delta_out` = NULL, src/otp/totp.c:17-23. -/
def totpGenericNull (now : Int) (a : Alg) (g : HmacCtx.Mem (a.impl 0)) (counterH outHash : List Byte)
    (secret : List Byte) (secretLength digitC interval : Nat) (initialTime : Int) : C Nat := do
  let c ← calcPeriodicCounterNull now interval initialTime
  hotpGeneric a g counterH outHash secret secretLength c digitC

/-- `pgfe_totp`, src/otp/totp.c:25-30. -/
def totp (now : Int) (g : HmacCtx.Mem (Alg.impl .SHA1 0)) (counterH outHash : List Byte) (secret : List Byte)
    (secretLength digitC interval : Nat) : C (Nat × Int) :=
  totpGeneric now .SHA1 g counterH outHash secret secretLength digitC interval 0

/-- `pgfe_totp_4digits`, `_6digits`, `_8digits`, src/otp/totp.c:32-48. -/
def totpDigits (now : Int) (g : HmacCtx.Mem (Alg.impl .SHA1 0)) (counterH outHash : List Byte) (secret : List Byte)
    (secretLength interval : Nat) : Fin 3 → C (Nat × Int)
  | 0 => totp now g counterH outHash secret secretLength 4 interval
  | 1 => totp now g counterH outHash secret secretLength 6 interval
  | 2 => totp now g counterH outHash secret secretLength 8 interval

/-- The members of `HOTP` and `TOTP` objects with `cur_alg` = `a` that are used,
include/libpgfe/otp/hotp.hpp:23-30 and totp.hpp:22-26; `secret` = none is the null `unique_ptr`.  Not
modelled: the members `digsz`, `blocksz`, which nothing reads.  `cur_alg` never changes after construction:
`select_algorithm` is only called by the constructors and leaves `cur_alg` = algorithm whatever it was
before (src/core/algorithm_selectable.cpp:12-18). -/
structure Totp (a : Alg) where
  secret : Option (List Byte)
  co : W64
  interval : Nat
  initialTime : Int
  updateTime : Int
  delta : Int
  base32 : BaseObj

namespace Totp
variable {a : Alg}

/-- `HOTP::HOTP(algorithm)` and `TOTP::TOTP(interval, algorithm)`, src/otp/hotp.cpp:19-21,
src/otp/totp.cpp:17-19, include/libpgfe/otp/totp.hpp:22-26; `co` is the content of the uninitialised
member. -/
def create (a : Alg) (co : W64) (interval : Nat) : Totp a :=
  { secret := none, co, interval, initialTime := 0, updateTime := 0, delta := 0, base32 := baseObjInit }

/-- The assignment in `HOTP::set_secret(seq, length)`, src/otp/hotp.cpp:43-45, for an array of exactly `length`
elements. -/
def setSecret (o : Totp a) (s : List Byte) : Totp a := { o with secret := some s }
/-- `HOTP::set_secret(seq, length)`, src/otp/hotp.cpp:43-45: `SequentialData(seq, length)` copies `length`
bytes. -/
def setSecretSeq (o : Totp a) (seq : List Byte) (length : Nat) : C (Totp a) := do
  let s ← rds seq 0 length
  .ok (setSecret o s)
/-- `HOTP::set_secret(cs, false)`, src/otp/hotp.cpp:47-54, and `AbstractOTP::set_secret(const char *)`,
src/otp/abstract_otp.cpp:14-16. -/
def setSecretCs (o : Totp a) (mem : List Byte) : C (Totp a) := do
  let n ← strlen mem
  setSecretSeq o mem n
/-- `HOTP::set_secret(cpp_s, false)`, src/otp/hotp.cpp:56-63, and `AbstractOTP::set_secret(const std::string &)`,
src/otp/abstract_otp.cpp:18-20. -/
def setSecretStr (o : Totp a) (s : List Byte) : C (Totp a) := setSecretSeq o (s ++ [0#8]) s.length
/-- `HOTP::set_secret(const SequentialData &)`, src/otp/hotp.cpp:65-67, and
`AbstractOTP::set_secret(const SequentialData &)`, src/otp/abstract_otp.cpp:22-25. -/
def setSecretSd (ord : ArgOrder) (o : Totp a) (s : List Byte) : C (Totp a) := do
  let x ← sdArgs ord s
  setSecretSeq o x.1 x.2
/-- `HOTP::set_secret(cs, true)` and `HOTP::set_secret_from_base32(cs)`, src/otp/hotp.cpp:47-54 and 85-88: the member
`base32`, a `Base32()`, decodes the text, and the `SequentialData` is set as secret. -/
def setSecretBase32Cs (ord : ArgOrder) (o : Totp a) (mem : List Byte) : C (Totp a) := do
  let r ← objDecodeArg (BaseKind.b32 false).decClass o.base32 (.cs mem)
  setSecretSd ord { o with base32 := r.2 } r.1
/-- `HOTP::set_secret(cpp_s, true)` and `HOTP::set_secret_from_base32(cpp_s)`, src/otp/hotp.cpp:56-63 and 90-93. -/
def setSecretBase32Str (ord : ArgOrder) (o : Totp a) (s : List Byte) : C (Totp a) := do
  let r ← objDecodeArg (BaseKind.b32 false).decClass o.base32 (.str s)
  setSecretSd ord { o with base32 := r.2 } r.1

/-- The ways to give a secret. -/
inductive SecretArg where
  | seq (mem : List Byte) (length : Nat)
  | cs (mem : List Byte)
  | str (s : List Byte)
  | sd (ord : ArgOrder) (s : List Byte)
  | base32Cs (ord : ArgOrder) (mem : List Byte)
  | base32Str (ord : ArgOrder) (s : List Byte)

/-- `set_secret` and `set_secret_from_base32`. -/
def setSecretArg (o : Totp a) : SecretArg → C (Totp a)
  | .seq mem n => setSecretSeq o mem n
  | .cs mem => setSecretCs o mem
  | .str s => setSecretStr o s
  | .sd ord s => setSecretSd ord o s
  | .base32Cs ord mem => setSecretBase32Cs ord o mem
  | .base32Str ord s => setSecretBase32Str ord o s

/-- The constructors of `HOTP` and `TOTP` with a secret, src/otp/hotp.cpp:23-37, src/otp/totp.cpp:21-39, for the
first four kinds of argument: `set_secret`, then `set_interval`. -/
def createWith (a : Alg) (co : W64) (interval : Nat) (arg : SecretArg) : C (Totp a) := do
  let o ← setSecretArg (create a co interval) arg
  .ok { o with interval := interval }

/-- `HOTP::set_counter`, src/otp/hotp.cpp:69-71. -/
def setCounter (o : Totp a) (c : W64) : Totp a := { o with co := c }
/-- `TOTP::set_interval`, src/otp/totp.cpp:43-45. -/
def setInterval (o : Totp a) (i : Nat) : Totp a := { o with interval := i }
/-- `TOTP::set_initial_time`, src/otp/totp.cpp:55-57. -/
def setInitialTime (o : Totp a) (t : Int) : Totp a := { o with initialTime := t }

/-- The uninitialised local variables of the functions a `generate` call runs: those of `pgfe_hmac`
(src/hmac/hmac.c:39,49), and `counter_h`, `out_hash` (src/otp/hotp.c:39). -/
structure Stack (a : Alg) where
  hmac : HmacCtx.Mem (a.impl 0)
  counterH : List Byte
  outHash : List Byte

/-- `HOTP::generate`, src/otp/hotp.cpp:73-79. -/
def hotpGenerate (o : Totp a) (mem : Stack a) (digitCount : Nat) : C Nat :=
  match o.secret with
  | none => .error .thrown
  | some s => hotpGeneric a mem.hmac mem.counterH mem.outHash s s.length o.co digitCount

/-- `TOTP::update_counter`, src/otp/totp.cpp:63-66, when the clock shows `now`. -/
def updateCounter (o : Totp a) (now : Int) : C (Totp a) := do
  let r ← calcPeriodicCounter now o.interval o.initialTime
  .ok { o with updateTime := now, co := r.1, delta := r.2 }

/-- `TOTP::remaining_time`, src/otp/totp.cpp:68-70. -/
def remainingTime (o : Totp a) (now : Int) : C Int := do
  let e ← chk (now - o.updateTime)
  chk (o.delta - e)

/-- The first statement of `TOTP::generate` and `TOTP::generate_str`, src/otp/totp.cpp:73 and 78: the clock is
read a first time (`t1`) and, if the counter is updated, a second time (`t2`). -/
def refresh (o : Totp a) (t1 t2 : Int) : C (Totp a) := do
  let r ← remainingTime o t1
  if r ≤ 0 then updateCounter o t2 else .ok o

/-- `TOTP::generate`, src/otp/totp.cpp:72-75. -/
def generate (o : Totp a) (t1 t2 : Int) (mem : Stack a) (digitCount : Nat) : C (Totp a × Nat) := do
  let o ← refresh o t1 t2
  let v ← hotpGenerate o mem digitCount
  .ok (o, v)

/-- `TOTP::generate_str`, src/otp/totp.cpp:77-80, and `HOTP::generate_str`, src/otp/hotp.cpp:81-83: the virtual
call of `generate` in `AbstractOTP::generate_str` reaches `HOTP::generate` (`TOTP::generate` is not const and
does not override it). -/
def generateStr (o : Totp a) (t1 t2 : Int) (mem : Stack a) (digitCount : Nat) : C (Totp a × List Byte) := do
  let o ← refresh o t1 t2
  let v ← hotpGenerate o mem digitCount
  .ok (o, Pgfe.Model.generateStr v digitCount)

/-! ### Calls through references to base classes -/

/-- The classes. -/
inductive Cls where
  | AbstractOTP | HOTP | TOTP
  deriving DecidableEq, Repr

/-- The base classes of an object of class `TOTP`, most derived first: include/libpgfe/otp/totp.hpp:19,
include/libpgfe/otp/hotp.hpp:21. -/
def Cls.chain : List Cls := [.TOTP, .HOTP, .AbstractOTP]

/-- Is the class's `generate` (and `generate_str`) a `const` member function?
include/libpgfe/otp/abstract_otp.hpp:33-37, hotp.hpp:51-52, totp.hpp:47-49. -/
def Cls.constGenerate : Cls → Bool
  | .AbstractOTP => true
  | .HOTP => true
  | .TOTP => false

/-- Is it virtual: declared so, or overriding (same signature and `const`) a virtual function of a base class. -/
def Cls.virtualGenerate : Cls → Bool
  | .AbstractOTP => true
  | c => c.constGenerate == Cls.AbstractOTP.constGenerate

/-- The class whose `generate` runs when it is called through a reference to `st` on an object of class `TOTP`:
the name is looked up in `st`; if the function found is virtual, its final overrider, the most derived function of
the same signature. -/
def Cls.runs (st : Cls) : Cls :=
  if st.virtualGenerate then (Cls.chain.find? (fun c => c.constGenerate == st.constGenerate)).getD st else st

/-- `r.generate(digit_count)` for a reference `r` of class `st` to a `TOTP` object; `AbstractOTP::generate`,
include/libpgfe/otp/abstract_otp.hpp:33-35, returns 0. -/
def generateVia (st : Cls) (o : Totp a) (t1 t2 : Int) (mem : Stack a) (digitCount : Nat) : C (Totp a × Nat) :=
  match st.runs with
  | .TOTP => generate o t1 t2 mem digitCount
  | .HOTP => do
    let v ← hotpGenerate o mem digitCount
    .ok (o, v)
  | .AbstractOTP => .ok (o, 0)

/-- The same for `generate_str` (the `const` functions all end in `AbstractOTP::generate_str`,
src/otp/abstract_otp.cpp:27-34, whose virtual call reaches `HOTP::generate`). -/
def generateStrVia (st : Cls) (o : Totp a) (t1 t2 : Int) (mem : Stack a) (digitCount : Nat) :
    C (Totp a × List Byte) :=
  match st.runs with
  | .TOTP => generateStr o t1 t2 mem digitCount
  | _ => do
    let v ← hotpGenerate o mem digitCount
    .ok (o, Pgfe.Model.generateStr v digitCount)

/-- A call on a TOTP object, with the times its clock readings return. -/
inductive Call (a : Alg) where
  | generate (t1 t2 : Int) (mem : Stack a) (digits : Nat)
  | generateStr (t1 t2 : Int) (mem : Stack a) (digits : Nat)
  | remaining (t : Int)
  | setSecret (s : List Byte)
  | setSecretArg (arg : SecretArg)
  | setCounter (c : W64)
  | setInterval (i : Nat)
  | setInitialTime (t : Int)
  | interval
  | initialTime
  | updateTime

/-- What it returns. -/
inductive Res where
  | code (v : Nat)
  | text (s : List Byte)
  | time (t : Int)
  | unit
  deriving DecidableEq

/-- One call. -/
def call (o : Totp a) : Call a → C (Totp a × Res)
  | .generate t1 t2 mem d => do
    let r ← generate o t1 t2 mem d
    .ok (r.1, .code r.2)
  | .generateStr t1 t2 mem d => do
    let r ← generateStr o t1 t2 mem d
    .ok (r.1, .text r.2)
  | .remaining t => do
    let r ← remainingTime o t
    .ok (o, .time r)
  | .setSecret s => .ok (o.setSecret s, .unit)
  | .setSecretArg arg => do
    let o ← o.setSecretArg arg
    .ok (o, .unit)
  | .setCounter c => .ok (o.setCounter c, .unit)
  | .setInterval i => .ok (o.setInterval i, .unit)
  | .setInitialTime t => .ok (o.setInitialTime t, .unit)
  -- `interval()`, `initial_time()`, `update_time()`, src/otp/totp.cpp:47-53, 59-61
  | .interval => .ok (o, .time o.interval)
  | .initialTime => .ok (o, .time o.initialTime)
  | .updateTime => .ok (o, .time o.updateTime)

/-- A history of calls. -/
def calls (o : Totp a) : List (Call a) → C (Totp a × List Res)
  | [] => .ok (o, [])
  | x :: l => do
    let r ← call o x
    let s ← calls r.1 l
    .ok (s.1, r.2 :: s.2)

/-- A call on an `HOTP` object (src/otp/hotp.cpp); the members `interval`, `initialTime`, `updateTime`, `delta`
do not exist in it and are not used. -/
inductive HCall (a : Alg) where
  | setSecret (s : List Byte)
  | setSecretArg (arg : SecretArg)
  | setCounter (c : W64)
  | generate (mem : Stack a) (digits : Nat)
  | generateStr (mem : Stack a) (digits : Nat)

/-- One call on an `HOTP` object, src/otp/hotp.cpp:43-83. -/
def hcall (o : Totp a) : HCall a → C (Totp a × Res)
  | .setSecret s => .ok (o.setSecret s, .unit)
  | .setSecretArg arg => do
    let o ← o.setSecretArg arg
    .ok (o, .unit)
  | .setCounter c => .ok (o.setCounter c, .unit)
  | .generate mem d => do
    let v ← hotpGenerate o mem d
    .ok (o, .code v)
  | .generateStr mem d => do
    let v ← hotpGenerate o mem d
    .ok (o, .text (Pgfe.Model.generateStr v d))

/-- A history of calls on an `HOTP` object. -/
def hcalls (o : Totp a) : List (HCall a) → C (Totp a × List Res)
  | [] => .ok (o, [])
  | x :: l => do
    let r ← hcall o x
    let s ← hcalls r.1 l
    .ok (s.1, r.2 :: s.2)

end Totp
end Pgfe.Model
