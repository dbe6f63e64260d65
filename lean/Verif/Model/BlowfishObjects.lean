import Verif.Model.Blowfish
/-!
# Blowfish objects: copying, destruction, memory that runs out, threads

`include/libpgfe/fishes/blowfish.hpp`, `src/fishes/blowfish.cpp`, `include/libpgfe/abstract_symmetric_crypter.hpp`.

`Model/Blowfish.lean` says what one call returns; here are the life of several objects (the class declares a destructor
and no copy or move operations: copying and assigning are the implicit memberwise operations, and moving is copying),
the allocations of `encrypt` and `decrypt`, which may fail, and calls of several threads.
-/
namespace Pgfe.Model
namespace Bf

/-- Which allocation of `encrypt(seq, length)` or `decrypt(seq, length)` fails: none, that of the array, lines 29 and 37,
or that of the result, lines 32 and 40 of src/fishes/blowfish.cpp. -/
inductive Fail where
  | none
  | array
  | result
  deriving DecidableEq

/-- What a user sees of an operation: nothing, bytes, or an exception. -/
inductive Seen where
  | nothing
  | bytes (x : List Byte)
  | exception
  deriving DecidableEq

/-- `Blowfish::encrypt(seq, length)` (`enc`) and `Blowfish::decrypt(seq, length)`, src/fishes/blowfish.cpp:27-41, with the
number of arrays that exist: the `unique_ptr` deletes its array when the function is left, by `return` or by an
exception. -/
def allocCall (enc : Bool) (ctx : BfCtx) (unp seq : List Byte) (length : Nat) (fail : Fail) (heap : Nat) :
    C (Nat × Seen) :=
  match fail with
  | .array => .ok (heap, .exception)
  | _ => do
    let heap := heap + 1
    let r ← (if enc then encrypt ctx unp (some seq) length (List.replicate (length + length % 8) 0#8)
      else decrypt ctx unp (some seq) length (List.replicate (length + length % 8) 0#8))
    let x ← rds r.2 0 r.1
    .ok (heap - 1, if fail = .result then .exception else .bytes x)

/-- The bytes and the number that the overloads pass to the two-argument functions,
src/core/abstract_symmetric_crypter.cpp:14-36. -/
def argPtr : Arg → C (List Byte × Nat)
  | .seq m n => .ok (m, n)
  | .cs m => do
    let n ← strlen m
    .ok (m, n)
  | .str s => .ok (s ++ [0#8], s.length)
  | .sd s => .ok (s ++ [0#8], s.length)

/-- Objects that were constructed, in this order, `none` when destroyed, and the number of arrays that exist. -/
structure World where
  objs : List (Option BfCtx)
  heap : Nat

/-- What a user does with objects.  Objects are denoted by the number of their construction. -/
inductive Op where
  | construct (mem : BfCtx) (key : Arg)
  | copy (i : Nat)
  | move (i : Nat)
  | assign (i j : Nat)
  | destroy (i : Nat)
  | deleteBase (i : Nat)
  | call (i : Nat) (enc : Bool) (unp : List Byte) (arg : Arg) (fail : Fail)
  | byValue (i : Nat) (enc : Bool) (arg : Arg)

/-- An object that is used must exist. -/
def World.obj (w : World) (i : Nat) : C BfCtx :=
  match w.objs[i]? with
  | some (some c) => .ok c
  | _ => .error .badPtr

/-- One operation:
* `construct`: the constructors, src/fishes/blowfish.cpp:15-23;
* `copy`, `move`: the implicit copy constructor, include/libpgfe/fishes/blowfish.hpp:21-42 (there is no move constructor,
  because line 31 declares a destructor);
* `assign`: the implicit copy assignment of object `j` to object `i`;
* `destroy`: `~Blowfish`, src/fishes/blowfish.cpp:25;
* `deleteBase`: `delete` through a pointer to `AbstractSymmetricCrypter`, whose destructor is not virtual
  (include/libpgfe/abstract_symmetric_crypter.hpp:20-36): undefined;
* `call`: any overload of `encrypt` and `decrypt`, on the object or a reference to the base class;
* `byValue`: the object is passed by value as an `AbstractSymmetricCrypter`, which is not an abstract class: of the copy only
  the base part remains, and its `encrypt(ptr, length)` and `decrypt(ptr, length)` are those of
  include/libpgfe/abstract_symmetric_crypter.hpp:24-26, 31-33. -/
def op (w : World) : Op → C (World × Seen)
  | .construct mem key => do
    let c ← create mem key
    .ok ({ w with objs := w.objs ++ [some c] }, .nothing)
  | .copy i | .move i => do
    let c ← w.obj i
    .ok ({ w with objs := w.objs ++ [some c] }, .nothing)
  | .assign i j => do
    let c ← w.obj j
    let _ ← w.obj i
    .ok ({ w with objs := w.objs.set i (some c) }, .nothing)
  | .destroy i => do
    let _ ← w.obj i
    .ok ({ w with objs := w.objs.set i none }, .nothing)
  | .deleteBase _ => .error .badPtr
  | .call i enc unp arg fail => do
    let c ← w.obj i
    let p ← argPtr arg
    let r ← allocCall enc c unp p.1 p.2 fail w.heap
    .ok ({ w with heap := r.1 }, r.2)
  | .byValue i _ arg => do
    let _ ← w.obj i
    let _ ← argPtr arg
    .ok (w, .bytes [])

/-- Any sequence of operations. -/
def ops (w : World) : List Op → C (World × List Seen)
  | [] => .ok (w, [])
  | o :: rest => do
    let r ← op w o
    let s ← ops r.1 rest
    .ok (s.1, r.2 :: s.2)

/-! ## Threads -/

/-- A call by a thread on the object number `obj`. -/
structure TCall where
  obj : Nat
  enc : Bool
  unp : List Byte
  arg : Arg

/-- How far a call has got: about to allocate the array; in the loop of `__blowfish_en_decrypt_generic`, about to do
iteration `i`, with the local variable `unit` and the array; about to make the result of `x`. -/
inductive BPc where
  | start
  | loop (mem : List Byte) (length : Nat) (i : Nat) (unp out : List Byte)
  | result (x : List Byte)
  deriving DecidableEq

/-- A thread: the calls it will make, the one it is executing, the finished ones with what was seen of them. -/
structure BThread where
  todo : List TCall
  cur : Option (TCall × BPc)
  done : List (TCall × Seen)

/-- The objects (constructed before the threads start), the threads, the number of arrays. -/
structure BSys where
  objs : Nat → BfCtx
  threads : Nat → BThread
  heap : Nat

/-- `unit_func`, src/fishes/blowfish.c:272-282. -/
def unitFunc (enc : Bool) (ctx : BfCtx) : BfUnit → C BfUnit := if enc then encryptUnit ctx else decryptUnit ctx

/-- One iteration of the loop, src/fishes/blowfish.c:243-255. -/
def loopStep (f : BfUnit → C BfUnit) (mem : List Byte) (i : Nat) (unp out : List Byte) : C (List Byte × List Byte) := do
  let b ← rd mem i
  let unp ← wr unp (7 - i % 8) b
  if i % 8 = 7 then do
    let unp ← onBytes f unp
    let out ← copyOut unp out (i - 7)
    .ok (unp, out)
  else .ok (unp, out)

/-- What follows the loop, src/fishes/blowfish.c:257-269. -/
def loopEnd (f : BfUnit → C BfUnit) (length : Nat) (unp out : List Byte) : C (Nat × List Byte) :=
  if length % 8 ≠ 0 then do
    let rem := 8 - length % 8
    let unp ← wrs unp 0 (List.replicate rem 0#8)
    let unp ← onBytes f unp
    let i := length + rem
    let out ← copyOut unp out (i - 8)
    .ok (i, out)
  else .ok (length, out)

/-- One step of thread `t`; `ok` says whether an allocation, if the step makes one, succeeds: src/fishes/blowfish.cpp:27-41,
src/fishes/blowfish.c:235-282.  Each step reads the object as it is at that moment. -/
def bstep (s : BSys) (t : Nat) (ok : Bool) : C BSys :=
  let th := s.threads t
  let put (th : BThread) (heap : Nat) : BSys := ⟨s.objs, fun u => if u = t then th else s.threads u, heap⟩
  match th.cur with
  | none =>
    match th.todo with
    | [] => .ok s
    | c :: rest => .ok (put { th with todo := rest, cur := some (c, .start) } s.heap)
  | some (c, .start) => do
    let p ← argPtr c.arg
    if ok then
      .ok (put { th with cur := some (c, .loop p.1 p.2 0 c.unp (List.replicate (p.2 + p.2 % 8) 0#8)) } (s.heap + 1))
    else .ok (put { th with cur := none, done := th.done ++ [(c, .exception)] } s.heap)
  | some (c, .loop mem len i unp out) =>
    if i < len then do
      let r ← loopStep (unitFunc c.enc (s.objs c.obj)) mem i unp out
      .ok (put { th with cur := some (c, .loop mem len (i + 1) r.1 r.2) } s.heap)
    else do
      let r ← loopEnd (unitFunc c.enc (s.objs c.obj)) len unp out
      let x ← rds r.2 0 r.1
      .ok (put { th with cur := some (c, .result x) } s.heap)
  | some (c, .result x) =>
    .ok (put { th with cur := none, done := th.done ++ [(c, if ok then .bytes x else .exception)] } (s.heap - 1))

/-- The threads run as the schedule says. -/
def brun (s : BSys) : List (Nat × Bool) → C BSys
  | [] => .ok s
  | (t, ok) :: rest => do
    let s ← bstep s t ok
    brun s rest

/-- Before the first step. -/
def bInit (objs : Nat → BfCtx) (work : Nat → List TCall) : BSys := ⟨objs, fun t => ⟨work t, none, []⟩, 0⟩

end Bf
end Pgfe.Model
