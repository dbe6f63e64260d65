import Verif.Model.Base
/-!
# Model of `src/base_encoding/abstract_base_encoding.cpp` (classes `Base16`, `Base32`, `Base64`)

The floating-point size estimates (lines 24 and 54-55) are a parameter here; their values in IEEE
double precision are in Verif/Model/Double.lean.
-/
namespace Pgfe.Model

/-- Which C functions the object uses and which size estimates the floating-point unit returns.
base16.cpp:14-30, base32.cpp:14-37, base64.cpp:14-36 and abstract_base_encoding.cpp:18-21, 24,
54-55. -/
structure BaseClass where
  alg : BaseAlg
  encEst : Nat → Nat
  decEst : Nat → Nat

/-- Members `en_cache`, `encsz`, `de_cache`, `decsz` and the owners of the two mutexes,
include/libpgfe/base_encoding/abstract_base_encoding.hpp:31-35. -/
structure BaseObj where
  enCache : List Byte
  encsz : Nat
  deCache : List Byte
  decsz : Nat
  encLock : Option Nat
  decLock : Option Nat

/-- Member initialisers, include/libpgfe/base_encoding/abstract_base_encoding.hpp:31-35. -/
def baseObjInit : BaseObj :=
  ⟨List.replicate 128 0#8, 127, List.replicate 64 0#8, 64, none, none⟩

/-- `std::string str(p)`: the characters before the first NUL. -/
def cstr (b : List Byte) : C (List Byte) := do
  let n ← strlen b
  rds b 0 n

/-- A member call.  `slack` and `garbage` are the memory contents the encoder happens to find
behind and inside its scratch arrays. -/
inductive BaseCall where
  | enc (slack : Slack) (garbage input : List Byte)
  | dec (text : List Byte)

/-- abstract_base_encoding.cpp:27-30: enlarge the cache. -/
def encAlloc (sz : Nat) (o : BaseObj) : BaseObj :=
  { o with enCache := List.replicate (sz + 1) 0#8 }
def encSetSize (sz : Nat) (o : BaseObj) : BaseObj := { o with encsz := sz }
/-- abstract_base_encoding.cpp:32-33: call the C encoder on the cache. -/
def encRun (K : BaseClass) (S : Slack) (g x : List Byte) (o : BaseObj) : C (Nat × BaseObj) := do
  let (n, b) ← pgfeEncode K.alg S g x x.length o.enCache
  .ok (n, { o with enCache := b })
/-- abstract_base_encoding.cpp:34. -/
def encNul (n : Nat) (o : BaseObj) : C BaseObj := do
  let b ← wr o.enCache n 0#8
  .ok { o with enCache := b }

/-- abstract_base_encoding.cpp:58-61. -/
def decAlloc (sz : Nat) (o : BaseObj) : BaseObj :=
  { o with deCache := List.replicate sz 0#8 }
def decSetSize (sz : Nat) (o : BaseObj) : BaseObj := { o with decsz := sz }
/-- abstract_base_encoding.cpp:63-64 (the argument is a NUL-terminated string). -/
def decRun (K : BaseClass) (s : List Byte) (o : BaseObj) : C (Nat × BaseObj) := do
  let (n, b) ← pgfeDecode K.alg (s ++ [0#8]) o.deCache
  .ok (n, { o with deCache := b })
/-- abstract_base_encoding.cpp:65. -/
def decNul (n : Nat) (o : BaseObj) : C BaseObj := do
  let b ← wr o.deCache n 0#8
  .ok { o with deCache := b }

/-- `AbstractBaseEncoding::encode`, abstract_base_encoding.cpp:23-39, without the mutex. -/
def objEncode (K : BaseClass) (S : Slack) (g x : List Byte) (o : BaseObj) :
    C (List Byte × BaseObj) := do
  let sz := K.encEst x.length
  let o := if o.encsz ≤ sz then encSetSize sz (encAlloc sz o) else o
  let (n, o) ← encRun K S g x o
  let o ← encNul n o
  let s ← cstr o.enCache
  .ok (s, o)

/-- `AbstractBaseEncoding::decode`, abstract_base_encoding.cpp:53-70, without the mutex. -/
def objDecode (K : BaseClass) (s : List Byte) (o : BaseObj) : C (List Byte × BaseObj) := do
  let sz := K.decEst s.length
  let o := if o.decsz ≤ sz then decSetSize sz (decAlloc sz o) else o
  let (n, o) ← decRun K s o
  let o ← decNul n o
  let d ← rds o.deCache 0 n
  .ok (d, o)

/-- One member call by the only user of the object. -/
def objCall (K : BaseClass) (c : BaseCall) (o : BaseObj) : C (List Byte × BaseObj) :=
  match c with
  | .enc S g x => objEncode K S g x o
  | .dec s => objDecode K s o

/-- A history of member calls by the only user; the results in order. -/
def objCalls (K : BaseClass) : List BaseCall → BaseObj → C (List (List Byte) × BaseObj)
  | [], o => .ok ([], o)
  | c :: cs, o => do
    let (r, o) ← objCall K c o
    let (rs, o) ← objCalls K cs o
    .ok (r :: rs, o)

/-! ### Threads

A thread executes member calls one after the other.  Steps: take the mutex; test (and allocate);
store the new size; run the C function; store NUL; build the result; release the mutex and return.
The mutual exclusion proved for this machine is what makes a finer division of the steps between
lock and unlock unobservable. -/

/-- Program counter inside a call. -/
inductive Phase where
  | start               -- before `lock()`
  | locked              -- before the size test
  | alloc (sz : Nat)    -- allocated, size member not yet stored
  | ready               -- before the C function
  | ran (n : Nat)       -- before `cache[sz] = 0`
  | closed (n : Nat)    -- before the result is built
  | built (r : List Byte)  -- before `unlock()`

/-- A thread: the call in progress, the calls still to do, the results so far (latest first). -/
structure Thread where
  cur : Option (BaseCall × Phase)
  todo : List BaseCall
  done : List (BaseCall × List Byte)

/-- One step of thread `me`; `none` if it is finished or blocked on the mutex. -/
def threadStep (K : BaseClass) (me : Nat) (o : BaseObj) (t : Thread) :
    Option (C (BaseObj × Thread)) :=
  match t.cur with
  | none =>
    match t.todo with
    | [] => none
    | c :: cs => some (.ok (o, { t with cur := some (c, .start), todo := cs }))
  | some (.enc S g x, ph) =>
    let next (p : Phase) (o : BaseObj) : BaseObj × Thread :=
      (o, { t with cur := some (.enc S g x, p) })
    match ph with
    | .start => match o.encLock with
      | none => some (.ok (next .locked { o with encLock := some me }))
      | some _ => none
    | .locked =>
      let sz := K.encEst x.length
      if o.encsz ≤ sz then some (.ok (next (.alloc sz) (encAlloc sz o)))
      else some (.ok (next .ready o))
    | .alloc sz => some (.ok (next .ready (encSetSize sz o)))
    | .ready => some (do let (n, o) ← encRun K S g x o; .ok (next (.ran n) o))
    | .ran n => some (do let o ← encNul n o; .ok (next (.closed n) o))
    | .closed _ => some (do let s ← cstr o.enCache; .ok (next (.built s) o))
    | .built r => some (.ok ({ o with encLock := none },
        { t with cur := none, done := (.enc S g x, r) :: t.done }))
  | some (.dec s, ph) =>
    let next (p : Phase) (o : BaseObj) : BaseObj × Thread :=
      (o, { t with cur := some (.dec s, p) })
    match ph with
    | .start => match o.decLock with
      | none => some (.ok (next .locked { o with decLock := some me }))
      | some _ => none
    | .locked =>
      let sz := K.decEst s.length
      if o.decsz ≤ sz then some (.ok (next (.alloc sz) (decAlloc sz o)))
      else some (.ok (next .ready o))
    | .alloc sz => some (.ok (next .ready (decSetSize sz o)))
    | .ready => some (do let (n, o) ← decRun K s o; .ok (next (.ran n) o))
    | .ran n => some (do let o ← decNul n o; .ok (next (.closed n) o))
    | .closed n => some (do let d ← rds o.deCache 0 n; .ok (next (.built d) o))
    | .built r => some (.ok ({ o with decLock := none },
        { t with cur := none, done := (.dec s, r) :: t.done }))

/-- A shared object and its threads. -/
structure System where
  obj : BaseObj
  threads : Nat → Thread

/-- Let thread `i` make a step if it can. -/
def sysStep (K : BaseClass) (i : Nat) (s : System) : C System :=
  match threadStep K i s.obj (s.threads i) with
  | none => .ok s
  | some r => do
    let (o, t) ← r
    .ok ⟨o, fun j => if j = i then t else s.threads j⟩

/-- Run a schedule. -/
def sysRun (K : BaseClass) : List Nat → System → C System
  | [], s => .ok s
  | i :: is, s => do sysRun K is (← sysStep K i s)

/-- All threads before their first call, with the calls `work i` to do. -/
def sysInit (work : Nat → List BaseCall) : System :=
  ⟨baseObjInit, fun i => ⟨none, work i, []⟩⟩

end Pgfe.Model
