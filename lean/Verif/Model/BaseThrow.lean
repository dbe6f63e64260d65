import Verif.Model.BaseObject
/-!
# Exceptions in `encode` and `decode` (`src/base_encoding/abstract_base_encoding.cpp`)

`std::make_unique` (lines 28, 59), `std::string str(p)` (line 36) and `SequentialData sd(p, sz)`
(line 67) allocate memory and may throw (`std::bad_alloc`, `std::bad_array_new_length`,
`std::length_error`).  They stand between `lock()` (lines 26, 57) and `unlock()` (lines 37, 68); the
lock is not held by a guard object, so an exception leaves the function without `unlock()`.
-/
namespace Pgfe.Model

/-- A call of `encode`, abstract_base_encoding.cpp:23, not of `decode`, line 53. -/
def isEnc : BaseCall → Bool
  | .enc _ _ _ => true
  | .dec _ => false

/-- Is the thread about to evaluate an expression that may throw?  abstract_base_encoding.cpp:28, 36,
59, 67.  (A short result may in fact need no memory; the model lets it throw all the same.) -/
def mayThrow (K : BaseClass) (o : BaseObj) (t : Thread) : Bool :=
  match t.cur with
  | some (.enc _ _ x, .locked) => o.encsz ≤ K.encEst x.length
  | some (.enc _ _ _, .closed _) => true
  | some (.dec s, .locked) => o.decsz ≤ K.decEst s.length
  | some (.dec _, .closed _) => true
  | _ => false

/-- An object, its threads, and the calls that have ended with an exception (latest first), each with
its thread. -/
structure TSystem where
  sys : System
  thrown : List (Nat × BaseCall)

/-- What happens next: a thread makes a step, or the allocation it is about to make fails. -/
inductive Ev where
  | step (i : Nat)
  | throw (i : Nat)

/-- The exception leaves the call and is caught by the caller, who goes on with his next call.
`make_unique` throws before the assignment to the member, so the object is unchanged; the mutex stays
locked.  abstract_base_encoding.cpp:26-38, 57-69. -/
def sysThrow (K : BaseClass) (i : Nat) (s : TSystem) : TSystem :=
  if mayThrow K s.sys.obj (s.sys.threads i) then
    match (s.sys.threads i).cur with
    | some (c, _) =>
      ⟨⟨s.sys.obj, fun j => if j = i then { s.sys.threads i with cur := none } else s.sys.threads j⟩,
        (i, c) :: s.thrown⟩
    | none => s
  else s

/-- One event. -/
def evStep (K : BaseClass) (e : Ev) (s : TSystem) : C TSystem :=
  match e with
  | .step i => do let s' ← sysStep K i s.sys; .ok ⟨s', s.thrown⟩
  | .throw i => .ok (sysThrow K i s)

/-- A history of events. -/
def evRun (K : BaseClass) : List Ev → TSystem → C TSystem
  | [], s => .ok s
  | e :: es, s => do evRun K es (← evStep K e s)

/-- Before the first call. -/
def evInit (work : Nat → List BaseCall) : TSystem := ⟨sysInit work, []⟩

end Pgfe.Model
