import Verif.Basic
/-!
# The call `f(sd.to_pgfe_seq(sz), sz)`

Three functions of the library pass a `SequentialData` on in this form, with `sz` an uninitialised local
variable that the first argument expression sets: `AbstractEncoder::update(SequentialData &)`,
include/libpgfe/abstract_encoder.hpp:36-39, `HMACEncoder::set_key(SequentialData &)`,
src/hmac/hmac_encoder.cpp:75-78, `AbstractOTP::set_secret(const SequentialData &)`,
src/otp/abstract_otp.cpp:22-25.
-/
namespace Pgfe.Model

/-- The order in which the implementation evaluates the two arguments.  C++14 (the dialect of this library,
CMakeLists.txt:17) leaves it unspecified. -/
inductive ArgOrder where
  | leftFirst | rightFirst
  deriving DecidableEq, Repr

/-- The pointer (with the memory it points to: the data and the terminating zero of `std::basic_string`) and the
length that `f` receives.  `to_pgfe_seq(size_t &)`, src/core/sequential_data.cpp:46-49, stores the length; if the
second argument is evaluated first, the value of `sz` is read before it was set. -/
def sdArgs (ord : ArgOrder) (sd : List Byte) : C (List Byte × Nat) :=
  match ord with
  | .leftFirst => .ok (sd ++ [0#8], sd.length)
  | .rightFirst => .error .uninit

end Pgfe.Model
