import Verif.Model.Otp
/-!
# `generate` called by several threads on one HOTP or TOTP object

The classes contain no lock (include/libpgfe/otp/hotp.hpp:23-30, totp.hpp:22-28; the locks inside the member `base32`
are not reached by `generate`).  A thread makes one access to the members of the object, or one reading of the clock, at a
time; between two of them the other threads run.  (Accesses to one member happen one after the other, as on the usual
machines; the C++ standard calls concurrent unsynchronised writes undefined altogether.)
-/
namespace Pgfe.Model.Totp
variable {a : Alg}

/-- A call: `HOTP::generate(digits)` or `TOTP::generate(digits)`, with the thread's uninitialised stack memory. -/
structure GCall (a : Alg) where
  hotp : Bool
  mem : Stack a
  digits : Nat

/-- How far a call has got. -/
inductive Pc where
  | start                                  -- `remaining_time()` is about to read `delta`
  | gotDelta (d : Int)                     -- ... the clock
  | gotNow (d t : Int)                     -- ... `_update_time`
  | update                                 -- `update_counter()` is about to read the clock
  | gotClock (t : Int)                     -- ... to write `_update_time`
  | wroteTime                              -- ... to read `_update_time`, `_interval`, `_initial_time`
  | args (rt : Int) (iv : Nat) (it : Int)  -- ... to write `delta`
  | wroteDelta (c : W64)                   -- ... to write `co`
  | hotp                                   -- `HOTP::generate` is about to read `secret`
  | gotSecret (s : List Byte)              -- ... `co`
  deriving DecidableEq

/-- A thread: the calls it will make, the one it is executing (with the time at which it began), and those it has
finished, with the times of beginning and end and the result. -/
structure GThread (a : Alg) where
  todo : List (GCall a)
  cur : Option (GCall a × Int × Pc)
  done : List (GCall a × Int × Int × Nat)

/-- One step of a thread when the clock shows `now`: `TOTP::generate`, src/otp/totp.cpp:72-75, with `remaining_time`
(68-70), `update_counter` (63-66) and `calc_periodic_counter` (src/otp/totp-internal.c:3-11), and `HOTP::generate`,
src/otp/hotp.cpp:73-79.  The three operands of `remaining_time` are read from left to right (C++ leaves the order
open). -/
def gstep (o : Totp a) (th : GThread a) (now : Int) : C (Totp a × GThread a) :=
  match th.cur with
  | none =>
    match th.todo with
    | [] => .ok (o, th)
    | c :: rest => .ok (o, { th with todo := rest, cur := some (c, now, if c.hotp then .hotp else .start) })
  | some (c, t1, pc) =>
    match pc with
    | .start => .ok (o, { th with cur := some (c, t1, .gotDelta o.delta) })
    | .gotDelta d => .ok (o, { th with cur := some (c, t1, .gotNow d now) })
    | .gotNow d t => do
      let e ← chk (t - o.updateTime)
      let r ← chk (d - e)
      .ok (o, { th with cur := some (c, t1, if r ≤ 0 then .update else .hotp) })
    | .update => .ok (o, { th with cur := some (c, t1, .gotClock now) })
    | .gotClock t => .ok ({ o with updateTime := t }, { th with cur := some (c, t1, .wroteTime) })
    | .wroteTime => .ok (o, { th with cur := some (c, t1, .args o.updateTime o.interval o.initialTime) })
    | .args rt iv it => do
      let r ← calcPeriodicCounter rt iv it
      .ok ({ o with delta := r.2 }, { th with cur := some (c, t1, .wroteDelta r.1) })
    | .wroteDelta v => .ok ({ o with co := v }, { th with cur := some (c, t1, .hotp) })
    | .hotp =>
      match o.secret with
      | none => .error .thrown
      | some s => .ok (o, { th with cur := some (c, t1, .gotSecret s) })
    | .gotSecret s => do
      let v ← hotpGeneric a c.mem.hmac c.mem.counterH c.mem.outHash s s.length o.co c.digits
      .ok (o, { th with cur := none, done := th.done ++ [(c, t1, now, v)] })

/-- The object and all threads. -/
structure GSys (a : Alg) where
  obj : Totp a
  threads : Nat → GThread a

/-- Before the first step. -/
def gInit (o : Totp a) (work : Nat → List (GCall a)) : GSys a := ⟨o, fun i => ⟨work i, none, []⟩⟩

/-- The threads run as the schedule says: which thread makes the next step, and what the clock shows then. -/
def grun (s : GSys a) : List (Nat × Int) → C (GSys a)
  | [] => .ok s
  | (i, now) :: rest => do
    let r ← gstep s.obj (s.threads i) now
    grun ⟨r.1, fun j => if j = i then r.2 else s.threads j⟩ rest

end Pgfe.Model.Totp
