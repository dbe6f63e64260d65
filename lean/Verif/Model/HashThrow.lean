import Verif.Model.Lifetime
/-!
# Exceptions in the member functions of `HashEncoder` (`src/hashes/hash_encoder.cpp`)

Memory is allocated by `new` in `load_algorithm` (line 20, reached from the constructor and from `reset`)
and by `std::make_unique<SequentialData>` in `get_digest` (line 124); both may throw `std::bad_alloc`.
-/
namespace Pgfe.Model.OwnedEnc

/-- `reset` when `new` throws, src/hashes/hash_encoder.cpp:66-69 and 20: `destroy_context` has been executed, the
pointer `ctx` has not been assigned to. -/
def resetThrows (s : OwnedEnc) : C OwnedEnc := destroyContext s

/-- `get_digest` when `make_unique` throws, src/hashes/hash_encoder.cpp:100-124: the digest has been computed in
the local array, `out` has not been assigned to. -/
def digestThrows (s : OwnedEnc) (bits : Nat) (stack : Nat → Byte) : C OwnedEnc := do
  let r ← HashEnc.getDigest s.enc bits stack
  .ok { s with enc := { r.1 with out := s.enc.out } }

/-- The constructor when `new` throws, src/hashes/hash_encoder.cpp:75-78, 66-69 and 20.  There is no object, and no
destructor is called, except those of the members (`out` is null). -/
def constructThrows (g : HashEnc) (choice : Alg) : C OwnedEnc := do
  let s ← selectAlgorithm choice ⟨{ g with ctx := .null, out := none }, 0, [], none⟩
  destroyContext s

/-- What a user does, with calls that end in an exception, which he catches. -/
inductive TUse where
  | use (u : Use)
  | resetThrows
  | digestThrows (bits : Nat) (stack : Nat → Byte)

/-- Any sequence of such uses. -/
def tuses (s : OwnedEnc) : List TUse → C OwnedEnc
  | [] => .ok s
  | .use u :: rest => do
    let r ← uses s [u]
    tuses r.1 rest
  | .resetThrows :: rest => do
    let s ← resetThrows s
    tuses s rest
  | .digestThrows bits stack :: rest => do
    let s ← digestThrows s bits stack
    tuses s rest

end Pgfe.Model.OwnedEnc
