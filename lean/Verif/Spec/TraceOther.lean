import Verif.Model.TraceOther
/-!
# Specification: traces without the index into a secret table

An observer who sees everything of a trace except which element of the S-boxes of Blowfish (but which of the four
boxes), or which element of the MAC, is read.
-/
namespace Pgfe.Spec
open Pgfe.Model

/-- Keep of the index into the four S-boxes only the number of the box, and of the index into the MAC nothing. -/
def coarse : Event → Event
  | .rd .bfS i n => .rd .bfS (i / 256) n
  | .rd .mac _ n => .rd .mac 0 n
  | e => e

/-- The public part of a Blowfish call. -/
def opShape (o : Tr.Bf.Op) : Bool × Nat × Nat × Nat := (o.enc, o.unp.length, o.input.length, o.output.length)

end Pgfe.Spec
