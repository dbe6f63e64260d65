import Verif.Model.Trace
/-!
# Specification: which elements of an array a call reads and writes, in order
-/
namespace Pgfe.Spec
open Pgfe.Model

/-- The indices of the elements of the array `a` that are read, one by one, in order (a range of `n` elements, as `memcpy`
reads it, counts as its `n` elements). -/
def fetched (a : Arr) : List Event → List Nat
  | [] => []
  | .rd b i n :: l => (if b = a then List.range' i n else []) ++ fetched a l
  | _ :: l => fetched a l

/-- The indices of the elements of the array `a` that are written. -/
def stored (a : Arr) : List Event → List Nat
  | [] => []
  | .wr b i n :: l => (if b = a then List.range' i n else []) ++ stored a l
  | _ :: l => stored a l

end Pgfe.Spec
