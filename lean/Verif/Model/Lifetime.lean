import Verif.Model.HashEncoder
/-!
# Model of the memory that `HashEncoder` objects own

`HashEnc` (Model/HashEncoder.lean) says what an object contains; here it is accompanied by the memory it
allocates: contexts obtained with `new`, and the `SequentialData` objects that `get_digest` makes and to
which it returns pointers.
-/
namespace Pgfe.Model

/-- An object and the memory allocated for it: the number of contexts obtained with `new` and not deleted
(src/hashes/hash_encoder.cpp:16-24), the `SequentialData` objects made by `get_digest`, in this order, `none` for
those that were destroyed (src/hashes/hash_encoder.cpp:124), and the one that `out` owns. -/
structure OwnedEnc where
  enc : HashEnc
  contexts : Nat
  results : List (Option (List Byte))
  owned : Option Nat

namespace OwnedEnc

/-- Whether `destroy_context` executes a `delete`: src/hashes/hash_encoder.cpp:50-54. -/
def deletes (o : HashEnc) : Bool :=
  match o.ctx, o.curAlg with
  | .null, _ => false
  | _, none => false
  | _, some _ => true

/-- `HashEncoder::destroy_context`, src/hashes/hash_encoder.cpp:50-54. -/
def destroyContext (s : OwnedEnc) : C OwnedEnc := do
  let o ← HashEnc.destroyContext s.enc
  .ok { s with enc := o, contexts := if deletes s.enc then s.contexts - 1 else s.contexts }

/-- `HashEncoder::load_algorithm`, src/hashes/hash_encoder.cpp:60-64: a context is allocated whatever `ctx`
pointed to. -/
def loadAlgorithm (heap : Heap) (s : OwnedEnc) : C OwnedEnc := do
  let o ← HashEnc.loadAlgorithm heap s.enc
  .ok { s with enc := o, contexts := if s.enc.curAlg.isSome then s.contexts + 1 else s.contexts }

/-- `HashEncoder::reset`, src/hashes/hash_encoder.cpp:66-69. -/
def reset (heap : Heap) (s : OwnedEnc) : C OwnedEnc := do
  let s ← destroyContext s
  loadAlgorithm heap s

/-- `AlgorithmSelectable::select_algorithm`, src/core/algorithm_selectable.cpp:12-18. -/
def selectAlgorithm (choice : Alg) (s : OwnedEnc) : C OwnedEnc :=
  if s.enc.curAlg = some choice then .ok s
  else do
    let s ← destroyContext s
    .ok { s with enc := { s.enc with curAlg := some choice } }

/-- `HashEncoder::HashEncoder`, src/hashes/hash_encoder.cpp:75-78. -/
def construct (heap : Heap) (g : HashEnc) (choice : Alg) : C OwnedEnc := do
  let s ← selectAlgorithm choice ⟨{ g with ctx := .null, out := none }, 0, [], none⟩
  reset heap s

/-- What assigning to or destroying a `std::unique_ptr` does to the object it owned,
src/hashes/hash_encoder.cpp:124 and the implicit destruction of the member `out`. -/
def release (s : OwnedEnc) : List (Option (List Byte)) :=
  match s.owned with
  | none => s.results
  | some i => s.results.set i none

/-- `HashEncoder::get_digest`, src/hashes/hash_encoder.cpp:100-126: a new `SequentialData` is made, then the one
owned before is destroyed.  The pointer returned is represented by the number of the new object. -/
def getDigest (s : OwnedEnc) (bits : Nat) (stack : Nat → Byte) : C (OwnedEnc × Nat) := do
  let r ← HashEnc.getDigest s.enc bits stack
  .ok (⟨r.1, s.contexts, release s ++ [some r.2], some s.results.length⟩, s.results.length)

/-- Reading the object through a pointer that `get_digest` returned. -/
def read (s : OwnedEnc) (i : Nat) : C (List Byte) :=
  match s.results[i]? with
  | some (some d) => .ok d
  | _ => .error .badPtr

/-- `HashEncoder::~HashEncoder`, src/hashes/hash_encoder.cpp:80-82, and the destructor of the member `out`. -/
def destruct (s : OwnedEnc) : C OwnedEnc := do
  let s ← destroyContext s
  .ok { s with results := release s, owned := none }

/-- What a user does with an object: member functions, and reading through pointers obtained earlier. -/
inductive Use where
  | call (c : HashEnc.Call)
  | read (i : Nat)

/-- Any sequence of uses; returns what the reads saw. -/
def uses (s : OwnedEnc) : List Use → C (OwnedEnc × List (List Byte))
  | [] => .ok (s, [])
  | .call (.reset heap) :: rest => do
    let s ← reset heap s
    uses s rest
  | .call (.getDigest bits stack) :: rest => do
    let r ← getDigest s bits stack
    uses r.1 rest
  | .call c :: rest => do
    let r ← HashEnc.calls s.enc [c]
    uses { s with enc := r.1 } rest
  | .read i :: rest => do
    let d ← read s i
    let r ← uses s rest
    .ok (r.1, d :: r.2)

/-- Which of the classes have a virtual destructor: none, include/libpgfe/abstract_encoder.hpp:23-44,
include/libpgfe/hashes/abstract_hash_encoder.hpp:25-38, include/libpgfe/hashes/hash_encoder.hpp:43,
include/libpgfe/hmac/hmac_encoder.hpp:24-65. -/
def virtualDestructor : Cls → Bool
  | .AbstractEncoder | .AbstractHashEncoder | .HashEncoder | .HMACEncoder => false

/-- `delete p` for a pointer of type `st *` to a `HashEncoder`: undefined unless the type is that of the object or
the destructor is virtual (C++ rules). -/
def deleteVia (st : Cls) (s : OwnedEnc) : C OwnedEnc :=
  if st = .HashEncoder ∨ virtualDestructor st then destruct s else .error .badPtr

end OwnedEnc
end Pgfe.Model
