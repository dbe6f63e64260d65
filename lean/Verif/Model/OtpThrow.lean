import Verif.Model.Otp
/-!
# Exceptions in the member functions of `HOTP` and `TOTP`

`src/otp/hotp.cpp`, `src/otp/totp.cpp`, `src/otp/abstract_otp.cpp` and, for secrets given as base32 text,
`src/base_encoding/abstract_base_encoding.cpp`, where an exception leaves `decode` without unlocking `dec_mutex`.
-/
namespace Pgfe.Model.Totp
variable {a : Alg}

/-- The places where these functions allocate memory; an allocation may throw.  (A short string may in fact need no
memory; the model lets it throw all the same.) -/
inductive Point where
  | cache     -- `make_unique` in `decode`, src/base_encoding/abstract_base_encoding.cpp:59, with the mutex locked
  | decoded   -- `SequentialData sd(p, sz)`, src/base_encoding/abstract_base_encoding.cpp:67, with the mutex locked
  | returned  -- the copy that `return sd` may make, line 69 and src/core/sequential_data.cpp:22, after `unlock()`
  | secret    -- `make_unique` in `set_secret`, src/otp/hotp.cpp:44, before the assignment
  | text      -- the strings of `generate_str`, src/otp/abstract_otp.cpp:28-30
  deriving DecidableEq

/-- How a call ends: it returns, it throws (`std::bad_alloc`; `NotInitializedException`, src/otp/hotp.cpp:74-76), or
it waits for ever for a mutex that is never unlocked. -/
inductive Out where
  | ret (r : Res)
  | outOfMemory
  | notInitialized
  | hang
  deriving DecidableEq

/-- `HOTP::set_secret_from_base32`, src/otp/hotp.cpp:85-93, with `decode` of the member `base32`,
src/base_encoding/abstract_base_encoding.cpp:53-70; `s` is the text up to the first NUL, `f` the allocation that
fails. -/
def setSecretBase32F (ord : ArgOrder) (o : Totp a) (s : List Byte) (f : Option Point) : C (Totp a × Out) :=
  let K := (BaseKind.b32 false).decClass
  if o.base32.decLock.isSome then .ok (o, .hang)                                  -- line 57
  else
    let b := { o.base32 with decLock := some 0 }
    if b.decsz ≤ K.decEst s.length ∧ f = some .cache then                          -- lines 58-59
      .ok ({ o with base32 := b }, .outOfMemory)
    else do
      let r ← objDecode K s b                                                      -- lines 58-67
      if f = some .decoded then .ok ({ o with base32 := r.2 }, .outOfMemory)       -- line 67
      else
        let o := { o with base32 := { r.2 with decLock := none } }                 -- line 68
        if f = some .returned then .ok (o, .outOfMemory)                           -- line 69
        else do
          let o' ← setSecretSd ord o r.1
          if f = some .secret then .ok (o, .outOfMemory) else .ok (o', .ret .unit)

/-- `set_secret` and `set_secret_from_base32`, src/otp/hotp.cpp:43-67, 85-93: `make_unique` throws before the member
is assigned to.  (Reading the argument is checked even if the allocation, which comes first, fails.) -/
def setSecretF (o : Totp a) (arg : SecretArg) (f : Option Point) : C (Totp a × Out) :=
  match arg with
  | .base32Cs ord mem => do
    let s ← cstr mem
    setSecretBase32F ord o s f
  | .base32Str ord s => do
    let s ← cstr (s ++ [0#8])
    setSecretBase32F ord o s f
  | arg => do
    let o' ← o.setSecretArg arg
    if f = some .secret then .ok (o, .outOfMemory) else .ok (o', .ret .unit)

/-- `HOTP::generate` and `HOTP::generate_str`, src/otp/hotp.cpp:73-83, src/otp/abstract_otp.cpp:27-34. -/
def hotpGenerateF (o : Totp a) (mem : Stack a) (d : Nat) (text : Bool) (f : Option Point) : C Out :=
  match o.secret with
  | none => .ok .notInitialized
  | some _ => do
    let v ← hotpGenerate o mem d
    if text then
      if f = some .text then .ok .outOfMemory else .ok (.ret (.text (Pgfe.Model.generateStr v d)))
    else .ok (.ret (.code v))

/-- One call on an `HOTP` object, src/otp/hotp.cpp:43-83. -/
def hcallF (o : Totp a) (x : HCall a) (f : Option Point) : C (Totp a × Out) :=
  match x with
  | .setSecret s => if f = some .secret then .ok (o, .outOfMemory) else .ok (o.setSecret s, .ret .unit)
  | .setSecretArg arg => o.setSecretF arg f
  | .setCounter c => .ok (o.setCounter c, .ret .unit)
  | .generate mem d => do
    let r ← hotpGenerateF o mem d false f
    .ok (o, r)
  | .generateStr mem d => do
    let r ← hotpGenerateF o mem d true f
    .ok (o, r)

/-- A history of calls on an `HOTP` object by one thread, which catches every exception; it ends when a call hangs. -/
def hcallsF (o : Totp a) : List (HCall a × Option Point) → C (Totp a × List Out)
  | [] => .ok (o, [])
  | x :: l => do
    let r ← hcallF o x.1 x.2
    if r.2 = .hang then .ok (r.1, [.hang])
    else do
      let s ← hcallsF r.1 l
      .ok (s.1, r.2 :: s.2)

/-- One call on a `TOTP` object, src/otp/totp.cpp:43-80: `generate` and `generate_str` first update the counter. -/
def callF (o : Totp a) (x : Call a) (f : Option Point) : C (Totp a × Out) :=
  match x with
  | .generate t1 t2 mem d => do
    let o ← refresh o t1 t2
    let r ← hotpGenerateF o mem d false f
    .ok (o, r)
  | .generateStr t1 t2 mem d => do
    let o ← refresh o t1 t2
    let r ← hotpGenerateF o mem d true f
    .ok (o, r)
  | .setSecret s => if f = some .secret then .ok (o, .outOfMemory) else .ok (o.setSecret s, .ret .unit)
  | .setSecretArg arg => o.setSecretF arg f
  | x => do
    let r ← o.call x
    .ok (r.1, .ret r.2)

end Pgfe.Model.Totp
