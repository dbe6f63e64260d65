import Verif.Model.HashEncoder
/-!
# Model of the memory of `HMACEncoder` objects, of moving them and of running out of memory

`src/hmac/hmac_encoder.cpp`, `include/libpgfe/hmac/hmac_encoder.hpp`.  `HmacEnc` (Model/HashEncoder.lean) says
what one object contains.  Here are all objects of a program together with the `SequentialData` objects that
their `get_digest` makes and to which it returns pointers.

The class declares neither a destructor nor copy or move operations, and neither do its bases
(include/libpgfe/abstract_encoder.hpp:23-44, include/libpgfe/algorithm_selectable.hpp:19-31,
include/libpgfe/hashes/abstract_hash_encoder.hpp:25-38).  By the rules of C++ it has implicit move operations,
which copy all members (the union as bytes) except the `std::unique_ptr`, which is moved, and no copy
operations, because a `std::unique_ptr` cannot be copied.
-/
namespace Pgfe.Model

/-- An `HMACEncoder` object and the number of the `SequentialData` that `output` points to,
include/libpgfe/hmac/hmac_encoder.hpp:43. -/
structure OwnedHmac where
  enc : HmacEnc
  owned : Option Nat

/-- All `HMACEncoder` objects made so far (`none`: destroyed) and all `SequentialData` objects made by
src/hmac/hmac_encoder.cpp:21 (`none`: destroyed). -/
structure HmacSys where
  objs : List (Option OwnedHmac)
  results : List (Option (List Byte))

namespace HmacSys

/-- The object number `i`; using one that does not exist or was destroyed is undefined. -/
def obj (s : HmacSys) (i : Nat) : C OwnedHmac :=
  match s.objs[i]? with
  | some (some o) => .ok o
  | _ => .error .badPtr

/-- What assigning to or destroying a `std::unique_ptr` does to the `SequentialData` it owned. -/
def release (results : List (Option (List Byte))) : Option Nat → List (Option (List Byte))
  | none => results
  | some p => results.set p none

/-- A constructor of `HMACEncoder`, src/hmac/hmac_encoder.cpp:38-56, has ended with the object `e`, whose
`output` is null. -/
def construct (s : HmacSys) (e : HmacEnc) : HmacSys :=
  { s with objs := s.objs ++ [some ⟨e, none⟩] }

/-- `HMACEncoder::get_digest`, src/hmac/hmac_encoder.cpp:96-99, 17-22: a new `SequentialData` is made, then the
one owned before is destroyed.  For the algorithms without a case nothing happens.  Returns the pointer (`none`:
null). -/
def getDigest (s : HmacSys) (i : Nat) (g : HmacEnc.Stack) : C (HmacSys × Option Nat) := do
  let o ← obj s i
  let r ← HmacEnc.getDigest o.enc g
  match o.enc.curAlg with
  | none => .ok (s, o.owned)
  | some a =>
    if HmacEnc.spCase a then
      match r.2 with
      | none => .error .nullDeref
      | some d =>
        .ok (⟨s.objs.set i (some ⟨r.1, some s.results.length⟩), release s.results o.owned ++ [some d]⟩,
          some s.results.length)
    else .ok (s, o.owned)

/-- `get_digest` when `make_unique`, src/hmac/hmac_encoder.cpp:21, throws `std::bad_alloc`: the MAC has been
computed in the local array, `output` has not been assigned to. -/
def digestThrows (s : HmacSys) (i : Nat) (g : HmacEnc.Stack) : C HmacSys := do
  let o ← obj s i
  let r ← HmacEnc.getDigest o.enc g
  .ok { s with objs := s.objs.set i (some ⟨{ r.1 with output := o.enc.output }, o.owned⟩) }

/-- `update` and `reset`, src/hmac/hmac_encoder.cpp:80-94, include/libpgfe/abstract_encoder.hpp:26. -/
def change (s : HmacSys) (i : Nat) (c : HmacEnc.Call) : C HmacSys := do
  let o ← obj s i
  let r ← HmacEnc.calls o.enc [c]
  .ok { s with objs := s.objs.set i (some ⟨r.1, o.owned⟩) }

/-- The implicit move constructor, include/libpgfe/hmac/hmac_encoder.hpp:24-65: the new object gets a copy of all
members and `output`; in the old one `output` becomes null. -/
def moveNew (s : HmacSys) (j : Nat) : C HmacSys := do
  let o ← obj s j
  .ok { s with objs := s.objs.set j (some ⟨{ o.enc with output := none }, none⟩) ++ [some o] }

/-- The implicit move assignment `x = std::move(y)`, include/libpgfe/hmac/hmac_encoder.hpp:24-65: the
`SequentialData` of the object assigned to is destroyed.  For `i = j`, `output.reset(output.release())` has no
effect. -/
def moveAssign (s : HmacSys) (i j : Nat) : C HmacSys := do
  let x ← obj s i
  let y ← obj s j
  if i = j then .ok s
  else
    .ok ⟨(s.objs.set j (some ⟨{ y.enc with output := none }, none⟩)).set i (some y), release s.results x.owned⟩

/-- The implicit destructor, include/libpgfe/hmac/hmac_encoder.hpp:24-65: that of the member `output`. -/
def destroy (s : HmacSys) (i : Nat) : C HmacSys := do
  let o ← obj s i
  .ok ⟨s.objs.set i none, release s.results o.owned⟩

/-- Reading the `SequentialData` number `p` through a pointer. -/
def read (s : HmacSys) (p : Nat) : C (List Byte) :=
  match s.results[p]? with
  | some (some d) => .ok d
  | _ => .error .badPtr

end HmacSys
end Pgfe.Model
